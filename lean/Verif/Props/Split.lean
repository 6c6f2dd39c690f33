import Verif.Funcs
import Mathlib.Data.List.Basic
/-!
# C64: splitting text at a separator
-/
set_option linter.all false

namespace Vfilter

/-- The parts of a text between the first occurrence of a separator, the first one after it, and so
on. -/
inductive Parts (sep : Str) : Str → List Str → Prop
  | last {s : Str} : (∀ p t, s ≠ p ++ sep ++ t) → Parts sep s [s]
  | cut {p t : Str} {ps : List Str} : (∀ p' t', p ++ sep ++ t = p' ++ sep ++ t' → p.length ≤ p'.length) →
      Parts sep t ps → Parts sep (p ++ sep ++ t) (p :: ps)

theorem splitByAux_skip (sep : Str) : ∀ (k : Nat) (cur r : Str),
    splitByAux sep cur k r = splitByAux sep cur 0 (r.drop k)
  | 0, _, _ => by simp
  | k + 1, cur, [] => by simp [splitByAux]
  | k + 1, cur, _ :: r => by
    simp only [splitByAux, List.drop_succ_cons]
    exact splitByAux_skip sep k cur r

theorem parts_aux {sep : Str} (hs : sep ≠ []) : ∀ (n : Nat) (r cur : Str), r.length = n →
    (∀ p t, cur ++ r = p ++ sep ++ t → cur.length ≤ p.length) →
    Parts sep (cur ++ r) (splitByAux sep cur 0 r) := by
  intro n
  induction n using Nat.strongRecOn with
  | _ n ih =>
    intro r cur hn hc
    have hlen : 0 < sep.length := List.length_pos_iff.2 hs
    cases r with
    | nil =>
      rw [List.append_nil] at hc ⊢
      simp only [splitByAux]
      refine .last fun p t e => ?_
      have h1 := hc p t e
      have h2 := congrArg List.length e
      simp only [List.length_append] at h2
      omega
    | cons c r =>
      simp only [splitByAux]
      split
      · rename_i h
        rw [List.isPrefixOf_iff_prefix] at h
        obtain ⟨t, ht⟩ := h
        rw [splitByAux_skip]
        have hd : r.drop (sep.length - 1) = t := by
          have : (c :: r).drop sep.length = t := by rw [← ht]; simp
          obtain ⟨m, hm⟩ : ∃ m, sep.length = m + 1 := ⟨sep.length - 1, by omega⟩
          rw [hm, List.drop_succ_cons] at this
          rw [hm]
          simpa using this
        have hl : t.length < n := by
          have := congrArg List.length ht
          simp only [List.length_append] at this
          omega
        rw [hd, ← ht, ← List.append_assoc]
        refine .cut (fun p' t' e => hc p' t' ?_) ?_
        · rw [← ht, ← List.append_assoc, e]
        · exact ih t.length hl t [] rfl (fun p t _ => by simp)
      · rename_i h
        have e : cur ++ c :: r = (cur ++ [c]) ++ r := by simp
        rw [e]
        refine ih r.length (by rw [← hn]; simp) r (cur ++ [c]) rfl fun p t e2 => ?_
        have h1 := hc p t (by rw [e, e2])
        simp only [List.length_append, List.length_cons, List.length_nil]
        rcases Nat.lt_or_ge cur.length p.length with h2 | h2
        · omega
        · exfalso
          apply h
          have hp : p = cur := by
            have e3 : p <+: (cur ++ [c]) ++ r := ⟨sep ++ t, by rw [← List.append_assoc, e2]⟩
            have e4 : cur <+: (cur ++ [c]) ++ r := ⟨c :: r, by simp⟩
            rcases List.prefix_or_prefix_of_prefix e3 e4 with h | h
            · exact h.eq_of_length (by omega)
            · exact (h.eq_of_length (by omega)).symm
          subst hp
          rw [List.isPrefixOf_iff_prefix]
          exact ⟨t, by simpa using e2.symm⟩

/-- C64: `split` with `sep_string` cuts the text at the first occurrence of the separator, at the
first one after it, and so on: it gives exactly the text between these. -/
theorem C64_split (sep s : Str) (hs : sep ≠ []) : Parts sep s (splitBy sep s) :=
  parts_aux hs s.length s [] rfl fun _ _ _ => by simp

/-- C64: there is only one such list of parts. -/
theorem C64_unique {sep s : Str} {l l' : List Str} (h : Parts sep s l) (h' : Parts sep s l') : l = l' := by
  induction h generalizing l' with
  | last hn =>
    cases h' with
    | last _ => rfl
    | cut _ _ => exact absurd rfl (hn _ _)
  | @cut p t ps hm hp ih =>
    generalize e : p ++ sep ++ t = x at h'
    cases h' with
    | last hn => exact absurd e.symm (hn _ _)
    | @cut p' t' ps' hm' hp' =>
      have hl : p.length = p'.length := Nat.le_antisymm (hm _ _ e) (hm' _ _ e.symm)
      rw [List.append_assoc, List.append_assoc] at e
      obtain ⟨e1, e2⟩ := List.append_inj e hl
      have e3 := List.append_cancel_left e2
      subst e1 e3
      rw [ih hp']

/-- C64: putting the separator between the parts gives the text back. -/
theorem C64_join (sep s : Str) (hs : sep ≠ []) : List.intercalate sep (splitBy sep s) = s := by
  have h := C64_split sep s hs
  revert h
  generalize splitBy sep s = l
  intro h
  induction h with
  | last _ => simp [List.intercalate]
  | @cut p t ps _ hp ih =>
    cases ps with
    | nil => cases hp
    | cons q qs =>
      rw [← ih]
      simp [List.intercalate]

/-- C64: the separator occurs in none of the parts, and there is one part more than there are cuts; in
particular there is at least one part. -/
theorem C64_parts (sep s : Str) (hs : sep ≠ []) :
    splitBy sep s ≠ [] ∧ ∀ x ∈ splitBy sep s, ¬ sep <:+: x := by
  have h := C64_split sep s hs
  revert h
  generalize splitBy sep s = l
  intro h
  have hlen : 0 < sep.length := List.length_pos_iff.2 hs
  induction h with
  | @last s hn =>
    refine ⟨by simp, fun x hx => ?_⟩
    rw [List.mem_singleton] at hx
    subst hx
    rintro ⟨p, t, e⟩
    exact hn p t e.symm
  | @cut p t ps hm hp ih =>
    refine ⟨by simp, fun x hx => ?_⟩
    rcases List.mem_cons.1 hx with rfl | hx
    · rintro ⟨a, b, e⟩
      have h1 := hm a (b ++ sep ++ t) (by rw [← e]; simp)
      have h2 := congrArg List.length e
      simp only [List.length_append] at h2
      omega
    · exact ih.2 x hx

example : splitBy (bs ",") (bs "a,b,,c") = [bs "a", bs "b", bs "", bs "c"] := by decide +kernel
/-- Occurrences do not overlap and the leftmost one counts. -/
example : splitBy (bs "aa") (bs "aaa") = [bs "", bs "a"] := by decide +kernel
example : List.intercalate (bs "aa") (splitBy (bs "aa") (bs "baaaab")) = bs "baaaab" :=
  C64_join _ _ (by decide)

end Vfilter
