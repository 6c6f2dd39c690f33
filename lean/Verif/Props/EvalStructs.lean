import Verif.Props.EvalWhere
import Verif.Props.Structs
/-!
# C82: Go structs as source rows of queries
-/
set_option linter.all false

namespace Vfilter.Vql

section
variable {F S : Type} [FloatOps F] {H : Host F S}

/-- **C82** `SELECT * FROM source WHERE cond`, where each source row answers like a dictionary, delivers these dictionaries for the
rows for which the condition holds, in order. -/
theorem C82_star (hH : H.Polite) {ex : Bool} {from_ : Plugin} {where_ : Option Comma}
    {s : Nat} {st st' s1 : St F S} {out : List (V F)} (hc : ConstOK st)
    {rs : List (V F × OD (V F))} (hsrc : Runs H (call (.plugin from_ s)) st (rs.map (·.1)) s1)
    (ha : ∀ p ∈ rs, Answers H p.1 p.2) (f : V F × OD (V F) → Bool)
    (hf : ∀ p ∈ rs, ∀ st1 cell b st2, Reached s st st1 →
      Verdict H true [] where_ s p.1 st1 cell b st2 → b = f p)
    (h : Runs H (call (.select (.mk ex true [] from_ where_ none none none) s)) st out st') :
    out = (rs.filter f).map (fun p => .dict p.2) := by
  obtain ⟨rows, s1', h1, h2⟩ := C25_select.1 h
  obtain ⟨rfl, rfl⟩ := h1.det hsrc
  have hr : Reached s st s1' := (Reached.refl hc).step hH (polite_call _ _) h1
  clear h h1 hsrc
  generalize hrows : rs.map (·.1) = rows at h2
  induction h2 generalizing rs with
  | nil =>
    cases rs with
    | nil => rfl
    | cons d ds => simp at hrows
  | @keep row d' rows out cell st1 s1 s2 s3 hv hm _ ih =>
    cases rs with
    | nil => simp at hrows
    | cons d ds =>
      simp only [List.map_cons, List.cons.injEq] at hrows
      obtain ⟨rfl, hrows⟩ := hrows
      have hrow : f d = true := (hf d (by simp) _ _ _ _ hr hv).symm
      have hp := runs_processRow.2 ⟨cell, true, s1, hv, by simp only [if_true]; exact ⟨_, hm, rfl⟩⟩
      have hr2 := hr.row hH hp
      rw [List.filter_cons_of_pos hrow, List.map_cons]
      have hans := ha d (by simp)
      obtain ⟨r, hrr, hcols⟩ := verdict_cols hans hv
      rw [specCols_star] at hcols
      have hcs : ConstOK s1 := by
        obtain ⟨s0, ht, hrest⟩ := hv
        have hpush : ∀ (x : St F S) n vs, ConstOK x → ConstOK (x.push n vs) := fun x n vs h => h
        have c0 : ConstOK s0 := ht.constOK hH (polite_transformP hH _ _ _ _ _) (hpush _ _ _ hr.const)
        cases where_ with
        | none => obtain ⟨_, rfl⟩ := hrest; exact c0
        | some w =>
          obtain ⟨v, s4, h3, h4⟩ := hrest
          exact h4.constOK hH (hH.truth _ _) (h3.constOK hH (polite_call _ _) (hpush _ _ _ c0))
      obtain ⟨rfl, rfl⟩ := (matRow_const hans.nodup hcs hrr hcols).1 hm
      rw [ih (fun d hd => ha d (by simp [hd])) (fun d hd => hf d (by simp [hd])) hr2 hrows]
  | @drop row rows out cell st1 s1 s2 hv _ ih =>
    cases rs with
    | nil => simp at hrows
    | cons d ds =>
      simp only [List.map_cons, List.cons.injEq] at hrows
      obtain ⟨rfl, hrows⟩ := hrows
      have hrow : f d = false := (hf d (by simp) _ _ _ _ hr hv).symm
      have hp := runs_processRow.2 ⟨cell, false, s1, hv, by simp only [Bool.false_eq_true, if_false]; exact ⟨rfl, rfl⟩⟩
      rw [List.filter_cons_of_neg (by simp [hrow])]
      exact ih (fun d hd => ha d (by simp [hd])) (fun d hd => hf d (by simp [hd])) (hr.row hH hp) hrows

variable {T : Type} {U : Structs.Types T} {X : Structs.Values T Nat (V F)}

/-- The objects of the application are structs, and no protocol is registered for them. -/
structure HasStructs (H : Host F S) (U : Structs.Types T) (X : Structs.Values T Nat (V F)) : Prop where
  impl : ∀ i k s, H.assocImpl (.obj (.host i)) (.val (.str k)) s = none
  assoc : ∀ i k s, H.assocDefault (.obj (.host i)) (.val (.str k)) s = pure (Structs.assoc U X .null i k)
  members : ∀ i s, H.hostMembers (.obj (.host i)) s = pure (Structs.members U X i)

/-- An application whose objects are structs. -/
def withStructs (H : Host F S) (U : Structs.Types T) (X : Structs.Values T Nat (V F)) : Host F S :=
  { H with
    assocImpl := fun a k s => match a, k with
      | .obj (.host _), .val (.str _) => none
      | a, k => H.assocImpl a k s
    assocDefault := fun a k s => match a, k with
      | .obj (.host i), .val (.str k) => pure (Structs.assoc U X .null i k)
      | a, k => H.assocDefault a k s
    hostMembers := fun v s => match v with
      | .obj (.host i) => pure (Structs.members U X i)
      | v => H.hostMembers v s }

omit [FloatOps F] in
theorem withStructs_has (H : Host F S) (U : Structs.Types T) (X : Structs.Values T Nat (V F)) :
    HasStructs (withStructs H U X) U X := ⟨fun _ _ _ => rfl, fun _ _ _ => rfl, fun _ _ => rfl⟩

omit [FloatOps F] in
theorem withStructs_polite (hH : H.Polite) (U : Structs.Types T) (X : Structs.Values T Nat (V F)) :
    (withStructs H U X).Polite := by
  refine { hH with assocImpl := ?_, assocDefault := ?_, hostMembers := ?_ }
  · intro a k s p h
    unfold withStructs at h
    dsimp only at h
    split at h
    · cases h
    · exact hH.assocImpl _ _ _ _ h
  · intro a k s
    unfold withStructs
    dsimp only
    split
    · trivial
    · exact hH.assocDefault _ _ _
  · intro v s
    unfold withStructs
    dsimp only
    split
    · trivial
    · exact hH.hostMembers _ _

/-- The members of a struct with their values. -/
def structRow (U : Structs.Types T) (X : Structs.Values T Nat (V F)) (i : Nat) : OD (V F) :=
  (Structs.members U X i).map (fun k => (k, (Structs.assoc U X .null i k).1.getD .null))

omit [FloatOps F] in
theorem structRow_keys (U : Structs.Types T) (X : Structs.Values T Nat (V F)) (i : Nat) :
    OD.keys (structRow U X i) = Structs.members U X i := by
  unfold structRow OD.keys
  rw [List.map_map]
  exact List.map_id _

omit [FloatOps F] in
theorem members_nodup {i : Nat} (hc : Structs.Clean U X i) : (Structs.members U X i).Nodup := by
  unfold Structs.members
  rw [List.nodup_append]
  refine ⟨?_, ?_, ?_⟩
  · exact List.Nodup.sublist (List.Sublist.map _ List.filter_sublist) hc.fields
  · exact List.Nodup.sublist (List.Sublist.map _ List.filter_sublist) hc.methods
  · intro a ha b hb
    obtain ⟨f, hf, rfl⟩ := List.mem_map.1 ha
    obtain ⟨m, hm, rfl⟩ := List.mem_map.1 hb
    obtain ⟨h1, h2⟩ := List.mem_filter.1 hf
    obtain ⟨h3, h4⟩ := List.mem_filter.1 hm
    simp only [Bool.and_eq_true, beq_iff_eq] at h4
    exact fun e => hc.own m h3 h4.1 h4.2 0 _ f .zero h1 (.inl e)

omit [FloatOps F] in
theorem get_map {l : List Str} {g : Str → V F} {k : Str} (hk : k ∈ l) : OD.get (l.map (fun k => (k, g k))) k = some (g k) := by
  induction l with
  | nil => simp at hk
  | cons x l ih =>
    simp only [List.map_cons, OD.get]
    by_cases h : x = k
    · rw [if_pos h, h]
    · rw [if_neg h]
      exact ih ((List.mem_cons.1 hk).resolve_left (fun e => h e.symm))

/-- **C82** A struct whose members mean one thing each, none of them a nil interface, answers like the dictionary of its members,
so what is proved about queries over dictionaries (C25, C27, C29, C30) holds for it. -/
theorem C82_answers_partial (hs : HasStructs H U X) {i : Nat} (hc : Structs.Clean U X i)
    (hn : ∀ k ∈ Structs.members U X i, (Structs.assoc U X .null i k).1 ≠ none) :
    Answers H (.obj (.host i)) (structRow U X i) where
  members s st st' r := by
    rw [runs_call]
    simp only [body, hs.members, structRow_keys]
    exact runs_pure
  assoc k hk s st st' r := by
    rw [structRow_keys] at hk
    rw [runs_call]
    have e : (body H (.assoc (.obj (.host i)) (.val (.str k)) s) : Prog F S _) = pure (Structs.assoc U X .null i k) := by
      simp only [body, assocStrP, isQuery, hs.impl, hs.assoc, Bool.false_eq_true, if_false]
    rw [e, runs_pure]
    have h1 := Structs.C82_listed_partial (null := (.null : V F)) hc hk
    have h2 := hn k hk
    unfold structRow
    rw [get_map hk]
    cases hr : Structs.assoc U X .null i k with
    | mk a b =>
      rw [hr] at h1 h2
      simp only at h1 h2
      subst h1
      cases a with
      | none => exact absurd rfl h2
      | some v => rfl
  nodup := by
    unfold OD.WF
    rw [structRow_keys]
    exact members_nodup hc

/-- **C82** `SELECT *` over structs: the columns of a row are the members of the struct, in order. -/
theorem C82_columns_partial (hs : HasStructs H U X) {i : Nat} (hc : Structs.Clean U X i)
    (hn : ∀ k ∈ Structs.members U X i, (Structs.assoc U X .null i k).1 ≠ none) {where_ : Option Comma} {s : Nat} {o : V F}
    (h : Emitted H true [] where_ s (.obj (.host i)) o) : ∃ out, o = .dict out ∧ OD.keys out = Structs.members U X i := by
  obtain ⟨out, h1, h2⟩ := C27_star (C82_answers_partial hs hc hn) h
  exact ⟨out, h1, h2.trans (structRow_keys U X i)⟩

/-- One struct type with two fields. -/
def pairType : Structs.Types Unit where
  all := [()]
  mem_all _ := by simp
  fields _ := [⟨bs "A", true, [], none⟩, ⟨bs "B", true, bs "b", none⟩]
  upper _ := true

def pairVals : Structs.Values Unit Nat (V F) where
  typeOf _ := ()
  cell _ i := .val (.bool (i == 0)) none
  methods _ := []

example (H : Host F S) : Answers (withStructs H pairType pairVals) (.obj (.host 3)) [(bs "A", .bool true), (bs "B", .bool false)] := by
  have hc : Structs.Clean pairType (pairVals (F := F)) 3 := by
    refine ⟨show ((pairType.fields ()).map (·.name)).Nodup by decide +kernel, by simp [pairVals],
      show ∀ f ∈ pairType.fields (), Structs.isExported pairType f.name = true → f.visible = true by decide +kernel, ?_, by simp [pairVals], by simp [pairVals]⟩
    intro i j f g hi hj hij he
    have hi' : i = 0 ∨ i = 1 := by
      have := (List.getElem?_eq_some_iff.1 hi).1
      simp [pairType] at this
      omega
    have hj' : j = 0 ∨ j = 1 := by
      have := (List.getElem?_eq_some_iff.1 hj).1
      simp [pairType] at this
      omega
    rcases hi' with rfl | rfl <;> rcases hj' with rfl | rfl <;> simp [pairType] at hi hj <;> subst hi <;> subst hj <;>
      first | exact absurd rfl hij | decide +kernel
  have hA : Structs.assoc pairType (pairVals (F := F)) .null 3 (bs "A") = (some (.bool true), true) :=
    Structs.C82_listed_field_partial hc (i := 0) (f := ⟨bs "A", true, [], none⟩) rfl (by decide +kernel)
  have hB : Structs.assoc pairType (pairVals (F := F)) .null 3 (bs "B") = (some (.bool false), true) :=
    Structs.C82_listed_field_partial hc (i := 1) (f := ⟨bs "B", true, bs "b", none⟩) rfl (by decide +kernel)
  have hm : Structs.members pairType (pairVals (F := F)) 3 = [bs "A", bs "B"] :=
    show ((pairType.fields ()).filter (fun f => Structs.isExported pairType f.name)).map (·.name) ++ [] = _ by decide +kernel
  have := C82_answers_partial (withStructs_has H pairType pairVals) hc (by rw [hm]; simp [hA, hB])
  unfold structRow at this
  rw [hm] at this
  simpa [hA, hB] using this

end
end Vfilter.Vql
