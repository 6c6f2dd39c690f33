import Verif.VarSlices
/-!
# C97: a lookup sees the variables of one moment
-/

namespace Vfilter.VarSlices
variable {R : Type}

/-- What an action does to the rows of each scope, as lists. -/
def vstep (vs : List (List R)) : Act R → List (List R)
  | .root r _ => vs ++ [[r]]
  | .append s r _ => vs.modify s (· ++ [r])
  | .copy s => match vs[s]? with
    | some l => vs ++ [l]
    | none => vs
  | .begin _ => vs
  | .read _ => vs

/-- The rows of each scope after some actions. -/
def varsAfter (h : List (Act R)) : List (List R) := h.foldl vstep []

/-- The number of lookups begun. -/
def begun : List (Act R) → Nat
  | [] => 0
  | .begin _ :: h => begun h + 1
  | .root .. :: h => begun h
  | .append .. :: h => begun h
  | .copy _ :: h => begun h
  | .read _ :: h => begun h

/-- The slice shows these rows. -/
def Shows (heap : List (List (Option R))) (sl : Slice) (vs : List R) : Prop :=
  ∃ cells, heap[sl.arr]? = some cells ∧ cells.take sl.len = vs.map some ∧ sl.len = vs.length

/-- What a lookup has read of these rows. -/
def Has (l : Look R) (vs : List R) : Prop :=
  l.next ≤ vs.length ∧ l.reads = (vs.reverse.take (vs.length - l.next)).map some

structure Inv (σ : St R) (vars : List (List R)) (snaps : List (List R)) : Prop where
  scopes : σ.scopes.length = vars.length
  shows : ∀ (s : Nat) sl vs, σ.scopes[s]? = some sl → vars[s]? = some vs → Shows σ.heap sl vs
  own : ∀ (s t : Nat) sl sl', σ.scopes[s]? = some sl → σ.scopes[t]? = some sl' → sl.arr = sl'.arr → s = t
  looks : σ.looks.length = snaps.length
  look : ∀ (j : Nat) l vs, σ.looks[j]? = some l → snaps[j]? = some vs →
    Shows σ.heap l.slice vs ∧ Has l vs
  below : ∀ (j : Nat) l (s : Nat) sl, σ.looks[j]? = some l → σ.scopes[s]? = some sl → l.slice.arr = sl.arr →
    l.slice.len ≤ sl.len

theorem Shows.lt {heap : List (List (Option R))} {sl : Slice} {vs : List R} (h : Shows heap sl vs) :
    sl.arr < heap.length := by
  obtain ⟨c, hc, _⟩ := h
  exact (List.getElem?_eq_some_iff.mp hc).1

theorem Shows.grow {heap : List (List (Option R))} {sl : Slice} {vs : List R} (h : Shows heap sl vs)
    (x : List (Option R)) : Shows (heap ++ [x]) sl vs := by
  obtain ⟨c, hc, h1, h2⟩ := h
  exact ⟨c, by rw [List.getElem?_append_left (List.getElem?_eq_some_iff.mp hc).1]; exact hc, h1, h2⟩

theorem Shows.set_other {heap : List (List (Option R))} {sl : Slice} {vs : List R} (h : Shows heap sl vs)
    {a : Nat} (x : List (Option R)) (hne : sl.arr ≠ a) : Shows (heap.set a x) sl vs := by
  obtain ⟨c, hc, h1, h2⟩ := h
  exact ⟨c, by rw [List.getElem?_set_ne (fun e => hne e.symm)]; exact hc, h1, h2⟩

theorem Shows.set_above {heap : List (List (Option R))} {sl : Slice} {vs : List R} (h : Shows heap sl vs)
    {cells : List (Option R)} (hc : heap[sl.arr]? = some cells) {n : Nat} (hn : sl.len ≤ n) (x : Option R) :
    Shows (heap.set sl.arr (cells.set n x)) sl vs := by
  obtain ⟨c, hc', h1, h2⟩ := h
  rw [hc] at hc'; cases hc'
  refine ⟨cells.set n x, ?_, ?_, h2⟩
  · rw [List.getElem?_set_self (List.getElem?_eq_some_iff.mp hc).1]
  · rw [List.take_set_of_le hn, h1]

theorem inv_step {σ σ' : St R} {vars snaps : List (List R)} (h : Inv σ vars snaps) {a : Act R}
    (hs : step σ a = some σ') :
    Inv σ' (vstep vars a)
    (match a with
      | .begin s => match vars[s]? with
        | some l => snaps ++ [l]
        | none => snaps
      | _ => snaps) := by
  have hlt : ∀ (s : Nat) sl, σ.scopes[s]? = some sl → sl.arr < σ.heap.length := by
    intro s sl hsl
    have : s < vars.length := by rw [← h.scopes]; exact (List.getElem?_eq_some_iff.mp hsl).1
    exact (h.shows s sl vars[s] hsl (List.getElem?_eq_getElem this)).lt
  have hllt : ∀ (j : Nat) l, σ.looks[j]? = some l → l.slice.arr < σ.heap.length := by
    intro j l hl
    have : j < snaps.length := by rw [← h.looks]; exact (List.getElem?_eq_some_iff.mp hl).1
    exact (h.look j l snaps[j] hl (List.getElem?_eq_getElem this)).1.lt
  have fresh : ∀ (x : List (Option R)) (n : Nat) (vs : List R), x.take n = vs.map some → n = vs.length →
      Inv { σ with heap := σ.heap ++ [x], scopes := σ.scopes ++ [⟨σ.heap.length, n⟩] } (vars ++ [vs]) snaps := by
    intro x n vs hx hn
    refine ⟨by simp [h.scopes], ?_, ?_, h.looks, ?_, ?_⟩
    · intro s sl vs' h1 h2
      by_cases hlast : s < σ.scopes.length
      · simp only [List.getElem?_append_left hlast] at h1
        rw [List.getElem?_append_left (h.scopes ▸ hlast)] at h2
        exact (h.shows s sl vs' h1 h2).grow x
      · have hsl := List.getElem?_eq_some_iff.mp h1
        have he : s = σ.scopes.length := by have := hsl.1; simp at this; omega
        subst he
        simp at h1
        rw [h.scopes] at h2
        simp at h2
        subst h1; subst h2
        exact ⟨x, by simp, hx, hn⟩
    · intro s t sl sl' h1 h2 he
      by_cases hs' : s < σ.scopes.length
      · simp only [List.getElem?_append_left hs'] at h1
        by_cases ht' : t < σ.scopes.length
        · simp only [List.getElem?_append_left ht'] at h2
          exact h.own s t sl sl' h1 h2 he
        · have : t = σ.scopes.length := by
            have := (List.getElem?_eq_some_iff.mp h2).1; simp at this; omega
          subst this
          simp at h2; subst h2
          exact absurd (hlt s sl h1) (by simp [he])
      · have : s = σ.scopes.length := by
          have := (List.getElem?_eq_some_iff.mp h1).1; simp at this; omega
        subst this
        simp at h1; subst h1
        by_cases ht' : t < σ.scopes.length
        · simp only [List.getElem?_append_left ht'] at h2
          exact absurd (hlt t sl' h2) (by simp [← he])
        · have := (List.getElem?_eq_some_iff.mp h2).1; simp at this; omega
    · intro j l vs' h1 h2
      obtain ⟨a1, a2⟩ := h.look j l vs' h1 h2
      exact ⟨a1.grow x, a2⟩
    · intro j l s sl h1 h2 he
      by_cases hs' : s < σ.scopes.length
      · simp only [List.getElem?_append_left hs'] at h2
        exact h.below j l s sl h1 h2 he
      · have : s = σ.scopes.length := by
          have := (List.getElem?_eq_some_iff.mp h2).1; simp at this; omega
        subst this
        simp at h2; subst h2
        exact absurd (hllt j l h1) (by simp [he])
  cases a with
  | root r extra =>
    cases hs
    exact fresh _ 1 [r] (by simp) (by simp)
  | copy s =>
    simp only [step] at hs
    cases hsl : σ.scopes[s]? with
    | none => rw [hsl] at hs; cases hs
    | some sl =>
      rw [hsl] at hs; cases hs
      have hsv : s < vars.length := by rw [← h.scopes]; exact (List.getElem?_eq_some_iff.mp hsl).1
      have hv : vars[s]? = some vars[s] := List.getElem?_eq_getElem hsv
      obtain ⟨c, hc, h1, h2⟩ := h.shows s sl _ hsl hv
      simp only [vstep, hv]
      refine fresh _ sl.len vars[s] ?_ h2
      rw [List.getD_eq_getElem?_getD, hc, Option.getD_some, List.take_take, Nat.min_self, h1]
  | begin s =>
    simp only [step] at hs
    cases hsl : σ.scopes[s]? with
    | none => rw [hsl] at hs; cases hs
    | some sl =>
      rw [hsl] at hs; cases hs
      have hsv : s < vars.length := by rw [← h.scopes]; exact (List.getElem?_eq_some_iff.mp hsl).1
      have hv : vars[s]? = some vars[s] := List.getElem?_eq_getElem hsv
      simp only [vstep, hv]
      refine ⟨h.scopes, h.shows, h.own, by simp [h.looks], ?_, ?_⟩
      · intro j l vs h1 h2
        by_cases hj : j < σ.looks.length
        · simp only [List.getElem?_append_left hj] at h1
          rw [List.getElem?_append_left (h.looks ▸ hj)] at h2
          exact h.look j l vs h1 h2
        · have he : j = σ.looks.length := by
            have := (List.getElem?_eq_some_iff.mp h1).1; simp at this; omega
          subst he
          simp at h1
          rw [h.looks] at h2
          simp at h2
          subst h1; subst h2
          have hsh := h.shows s sl _ hsl hv
          obtain ⟨_, _, _, h2⟩ := id hsh
          exact ⟨hsh, by simp [h2], by simp [h2]⟩
      · intro j l t sl' h1 h2 he
        by_cases hj : j < σ.looks.length
        · simp only [List.getElem?_append_left hj] at h1
          exact h.below j l t sl' h1 h2 he
        · have hj' : j = σ.looks.length := by
            have := (List.getElem?_eq_some_iff.mp h1).1; simp at this; omega
          subst hj'
          simp at h1
          subst h1
          have := h.own s t sl sl' hsl h2 he
          subst this
          rw [hsl] at h2; cases h2
          exact Nat.le_refl _
  | read j =>
    simp only [step] at hs
    cases hl : σ.looks[j]? with
    | none => rw [hl] at hs; cases hs
    | some l =>
      obtain ⟨sl, k, rs⟩ := l
      rw [hl] at hs
      cases k with
      | zero => cases hs
      | succ k =>
        simp only [Option.some.injEq] at hs
        subst hs
        refine ⟨h.scopes, h.shows, h.own, by simp [h.looks], ?_, ?_⟩
        · intro i l vs h1 h2
          by_cases hij : j = i
          · subst hij
            have hlt := (List.getElem?_eq_some_iff.mp hl).1
            simp only [List.getElem?_set_self hlt, Option.some.injEq] at h1
            subst h1
            obtain ⟨hsh, hle, hr⟩ := h.look j _ vs hl h2
            obtain ⟨c, hc, e1, e2⟩ := id hsh
            refine ⟨hsh, by simp at hle ⊢; omega, ?_⟩
            simp only at hle hr hc e1 e2 ⊢
            have hk : k < vs.length := by omega
            have hval : (σ.heap.getD sl.arr [])[k]?.getD none = some vs[k] := by
              rw [List.getD_eq_getElem?_getD, hc, Option.getD_some]
              have : (c.take sl.len)[k]? = c[k]? := by rw [List.getElem?_take, if_pos (by omega)]
              rw [← this, e1]
              simp [hk]
            rw [hval, hr]
            have e : vs.length - k = vs.length - (k + 1) + 1 := by omega
            rw [e, List.take_add_one]
            have hget : vs.reverse[vs.length - (k + 1)]? = some vs[k] := by
              rw [List.getElem?_reverse (by omega)]
              have : vs.length - 1 - (vs.length - (k + 1)) = k := by omega
              rw [this]
              exact List.getElem?_eq_getElem hk
            rw [hget]
            simp
          · simp only [List.getElem?_set_ne hij] at h1
            exact h.look i l vs h1 h2
        · intro i l s sl' h1 h2 he
          by_cases hij : j = i
          · subst hij
            have hlt := (List.getElem?_eq_some_iff.mp hl).1
            simp only [List.getElem?_set_self hlt, Option.some.injEq] at h1
            subst h1
            have := h.below j ⟨sl, k + 1, rs⟩ s sl' hl h2 he
            exact this
          · simp only [List.getElem?_set_ne hij] at h1
            exact h.below i l s sl' h1 h2 he
  | append s r extra =>
    simp only [step] at hs
    cases hsl : σ.scopes[s]? with
    | none => rw [hsl] at hs; cases hs
    | some sl =>
      rw [hsl] at hs
      simp only [Option.some.injEq] at hs
      have hss := (List.getElem?_eq_some_iff.mp hsl).1
      have hsv : s < vars.length := by rw [← h.scopes]; exact hss
      have hv : vars[s]? = some vars[s] := List.getElem?_eq_getElem hsv
      obtain ⟨c, hc, e1, e2⟩ := h.shows s sl _ hsl hv
      have hgetD : σ.heap.getD sl.arr [] = c := by rw [List.getD_eq_getElem?_getD, hc, Option.getD_some]
      have hmod : ∀ (t : Nat), t ≠ s → (vars.modify s (· ++ [r]))[t]? = vars[t]? := by
        intro t ht
        rw [List.getElem?_modify]
        simp [Ne.symm ht]
      have hmods : (vars.modify s (· ++ [r]))[s]? = some (vars[s] ++ [r]) := by
        rw [List.getElem?_modify, hv]; simp
      simp only [vstep]
      by_cases hroom : sl.len < c.length
      · have hp : push σ.heap sl r extra = (σ.heap.set sl.arr (c.set sl.len (some r)), ⟨sl.arr, sl.len + 1⟩) := by
          simp only [push, hgetD, if_pos hroom]
        rw [hp] at hs
        simp only at hs
        subst hs
        have harr := (List.getElem?_eq_some_iff.mp hc).1
        refine ⟨by simp [h.scopes], ?_, ?_, h.looks, ?_, ?_⟩
        · intro t sl' vs h1 h2
          by_cases ht : s = t
          · subst ht
            simp only [List.getElem?_set_self hss, Option.some.injEq] at h1
            rw [hmods] at h2
            cases h1; cases h2
            refine ⟨c.set sl.len (some r), List.getElem?_set_self harr, ?_, by simp [e2]⟩
            rw [List.take_add_one, List.take_set_of_le (Nat.le_refl _), e1, List.getElem?_set_self hroom]
            simp
          · simp only [List.getElem?_set_ne ht] at h1
            rw [hmod t (fun e => ht e.symm)] at h2
            refine (h.shows t sl' vs h1 h2).set_other _ ?_
            intro e
            exact ht (h.own t s sl' sl h1 hsl e).symm
        · intro t u sl1 sl2 h1 h2 he
          by_cases ht : s = t
          · subst ht
            simp only [List.getElem?_set_self hss, Option.some.injEq] at h1
            cases h1
            by_cases hu : s = u
            · exact hu
            · simp only [List.getElem?_set_ne hu] at h2
              exact h.own s u sl sl2 hsl h2 he
          · simp only [List.getElem?_set_ne ht] at h1
            by_cases hu : s = u
            · subst hu
              simp only [List.getElem?_set_self hss, Option.some.injEq] at h2
              cases h2
              exact h.own t s sl1 sl h1 hsl he
            · simp only [List.getElem?_set_ne hu] at h2
              exact h.own t u sl1 sl2 h1 h2 he
        · intro j l vs h1 h2
          obtain ⟨hsh, hh⟩ := h.look j l vs h1 h2
          refine ⟨?_, hh⟩
          by_cases he : l.slice.arr = sl.arr
          · have := h.below j l s sl h1 hsl he
            have hc' : σ.heap[l.slice.arr]? = some c := by rw [he]; exact hc
            have := hsh.set_above hc' this (some r)
            rw [he] at this
            exact this
          · exact hsh.set_other _ he
        · intro j l t sl' h1 h2 he
          by_cases ht : s = t
          · subst ht
            simp only [List.getElem?_set_self hss, Option.some.injEq] at h2
            cases h2
            exact Nat.le_succ_of_le (h.below j l s sl h1 hsl he)
          · simp only [List.getElem?_set_ne ht] at h2
            exact h.below j l t sl' h1 h2 he
      · have hp : push σ.heap sl r extra =
            (σ.heap ++ [c.take sl.len ++ some r :: List.replicate extra none], ⟨σ.heap.length, sl.len + 1⟩) := by
          simp only [push, hgetD, if_neg hroom]
        rw [hp] at hs
        simp only at hs
        subst hs
        refine ⟨by simp [h.scopes], ?_, ?_, h.looks, ?_, ?_⟩
        · intro t sl' vs h1 h2
          by_cases ht : s = t
          · subst ht
            simp only [List.getElem?_set_self hss, Option.some.injEq] at h1
            rw [hmods] at h2
            cases h1; cases h2
            refine ⟨_, by simp; rfl, ?_, by simp [e2]⟩
            rw [e1, e2]
            have : (vars[s].map some ++ some r :: List.replicate extra none) =
                (vars[s] ++ [r]).map some ++ List.replicate extra none := by simp
            rw [this, List.take_append_of_le_length (by simp)]
            exact List.take_of_length_le (by simp)
          · simp only [List.getElem?_set_ne ht] at h1
            rw [hmod t (fun e => ht e.symm)] at h2
            exact (h.shows t sl' vs h1 h2).grow _
        · intro t u sl1 sl2 h1 h2 he
          by_cases ht : s = t
          · subst ht
            simp only [List.getElem?_set_self hss, Option.some.injEq] at h1
            cases h1
            by_cases hu : s = u
            · exact hu
            · simp only [List.getElem?_set_ne hu] at h2
              have := hlt u sl2 h2
              simp only at he
              omega
          · simp only [List.getElem?_set_ne ht] at h1
            by_cases hu : s = u
            · subst hu
              simp only [List.getElem?_set_self hss, Option.some.injEq] at h2
              cases h2
              have := hlt t sl1 h1
              simp only at he
              omega
            · simp only [List.getElem?_set_ne hu] at h2
              exact h.own t u sl1 sl2 h1 h2 he
        · intro j l vs h1 h2
          obtain ⟨hsh, hh⟩ := h.look j l vs h1 h2
          exact ⟨hsh.grow _, hh⟩
        · intro j l t sl' h1 h2 he
          by_cases ht : s = t
          · subst ht
            simp only [List.getElem?_set_self hss, Option.some.injEq] at h2
            cases h2
            have := hllt j l h1
            simp only at he
            omega
          · simp only [List.getElem?_set_ne ht] at h2
            exact h.below j l t sl' h1 h2 he

theorem inv_init : Inv (St.init : St R) [] [] := by
  refine ⟨rfl, ?_, ?_, rfl, ?_, ?_⟩ <;> (intros; simp_all [St.init])

theorem inv_run : ∀ (as : List (Act R)) {σ σ' : St R} {vars snaps : List (List R)}, Inv σ vars snaps →
    run σ as = some σ' →
      ∃ more, Inv σ' (as.foldl vstep vars) (snaps ++ more) ∧ more.length = begun as := by
  intro as
  induction as with
  | nil => intro σ σ' vars snaps h hr; cases hr; exact ⟨[], by simpa using h, rfl⟩
  | cons a as ih =>
    intro σ σ' vars snaps h hr
    rw [run] at hr
    cases hs : step σ a with
    | none => rw [hs] at hr; cases hr
    | some σ1 =>
      rw [hs] at hr
      have h1 := inv_step h hs
      cases a with
      | begin s =>
        simp only [step] at hs
        cases hsl : σ.scopes[s]? with
        | none => rw [hsl] at hs; cases hs
        | some sl =>
          have hsv : s < vars.length := by rw [← h.scopes]; exact (List.getElem?_eq_some_iff.mp hsl).1
          have hv : vars[s]? = some vars[s] := List.getElem?_eq_getElem hsv
          simp only [hv] at h1
          obtain ⟨more, h2, h3⟩ := ih h1 hr
          exact ⟨vars[s] :: more, by simpa using h2, by simp [h3, begun]⟩
      | root r e => exact ih h1 hr
      | append s r e => exact ih h1 hr
      | copy s => exact ih h1 hr
      | read j => exact ih h1 hr

theorem run_append (h1 : List (Act R)) : ∀ {h2 : List (Act R)} {σ σ' : St R}, run σ (h1 ++ h2) = some σ' →
    ∃ σ1, run σ h1 = some σ1 ∧ run σ1 h2 = some σ' := by
  induction h1 with
  | nil => intro h2 σ σ' h; exact ⟨σ, rfl, h⟩
  | cons a as ih =>
    intro h2 σ σ' h
    simp only [List.cons_append, run] at h ⊢
    cases hs : step σ a with
    | none => rw [hs] at h; cases h
    | some σ1 => rw [hs] at h; exact ih h

/-- C97: a lookup that begins after some actions reads the rows that the scope has then, from the last to the first,
whatever is added to this scope and to others and copied while it reads. -/
theorem C97_one_moment (before later : List (Act R)) (s : Nat) (σ : St R)
    (h : run St.init (before ++ .begin s :: later) = some σ) :
    ∃ rows l, (varsAfter before)[s]? = some rows ∧ σ.looks[begun before]? = some l ∧
      l.reads = (rows.reverse.take l.reads.length).map some ∧ l.reads.length + l.next = rows.length := by
  obtain ⟨σ1, hr1, hr2⟩ := run_append before h
  obtain ⟨m1, i1, n1⟩ := inv_run before inv_init hr1
  have hsc : ∃ sl, σ1.scopes[s]? = some sl := by
    cases hsl : σ1.scopes[s]? with
    | none => simp [run, step, hsl] at hr2
    | some sl => exact ⟨sl, rfl⟩
  obtain ⟨sl, hsl⟩ := hsc
  have hsv : s < (varsAfter before).length := by
    have := i1.scopes
    rw [varsAfter, ← this]
    exact (List.getElem?_eq_some_iff.mp hsl).1
  have hv : (varsAfter before)[s]? = some (varsAfter before)[s] := List.getElem?_eq_getElem hsv
  rw [run] at hr2
  cases hs : step σ1 (.begin s) with
  | none => rw [hs] at hr2; cases hr2
  | some σ2 =>
    rw [hs] at hr2
    have i2 := inv_step i1 hs
    have hv' : (List.foldl vstep [] before)[s]? = some (varsAfter before)[s] := hv
    simp only [hv', List.nil_append] at i2
    obtain ⟨m3, i3, _⟩ := inv_run later i2 hr2
    have hsnap : ((m1 ++ [(varsAfter before)[s]]) ++ m3)[begun before]? = some (varsAfter before)[s] := by
      rw [← n1]; simp
    have hlt : begun before < σ.looks.length := by rw [i3.looks, ← n1]; simp
    have hl : σ.looks[begun before]? = some σ.looks[begun before] := List.getElem?_eq_getElem hlt
    obtain ⟨_, hle, hrd⟩ := i3.look _ _ _ hl hsnap
    have hlen : σ.looks[begun before].reads.length = (varsAfter before)[s].length - σ.looks[begun before].next := by
      rw [hrd]; simp
    refine ⟨_, _, hv, hl, ?_, by omega⟩
    rw [hlen]
    exact hrd

/-- C97: no element that a lookup has still to read is written, and no two scopes write into the same array. -/
theorem C97_no_race (h : List (Act R)) (σ : St R) (hr : run St.init h = some σ) :
    (∀ (j s : Nat) l sl, σ.looks[j]? = some l → σ.scopes[s]? = some sl → l.slice.arr = sl.arr → l.next ≤ sl.len) ∧
      (∀ (s t : Nat) sl sl', σ.scopes[s]? = some sl → σ.scopes[t]? = some sl' → s ≠ t → sl.arr ≠ sl'.arr) := by
  obtain ⟨m, i, _⟩ := inv_run h inv_init hr
  constructor
  · intro j s l sl h1 h2 he
    have hj : j < ([] ++ m).length := by rw [← i.looks]; exact (List.getElem?_eq_some_iff.mp h1).1
    obtain ⟨⟨_, _, _, e⟩, hle, _⟩ := i.look j l _ h1 (List.getElem?_eq_getElem hj)
    exact Nat.le_trans (e ▸ hle) (i.below j l s sl h1 h2 he)
  · intro s t sl sl' h1 h2 hne he
    exact hne (i.own s t sl sl' h1 h2 he)

/-- A lookup that reads while two rows are added, the first one in place, and a copy gets another row. -/
example : (run (St.init : St Nat) [.root 1 0, .append 0 2 2, .begin 0, .read 0, .append 0 3 0, .copy 0, .append 0 4 0,
    .append 1 5 0, .append 0 6 0, .read 0, .begin 1, .read 1, .read 1]).map
      (fun σ => (σ.looks.map (·.reads), σ.looks.map (·.next), σ.heap.length)) =
    some ([[some 2, some 1], [some 5, some 3]], [0, 2], 5) := by decide

end Vfilter.VarSlices
