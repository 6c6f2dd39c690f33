import Verif.Scope
/-!
# Helper lemmas about the scope heap
-/
set_option linter.all false

namespace Vfilter
section
variable {R V : Type} [Inhabited R]

theorem modify_map_eq {α β : Type} (l : List α) (i : Nat) (f : α → α) (g : α → β)
    (h : ∀ a, g (f a) = g a) : (l.modify i f).map g = l.map g := by
  apply List.ext_getElem?
  intro j
  simp only [List.getElem?_map, List.getElem?_modify]
  cases l[j]? with
  | none => simp
  | some a => by_cases hij : i = j <;> simp [hij, h]

theorem set_map_eq {α β : Type} (l : List α) (i : Nat) (a b : α) (g : α → β)
    (h : l[i]? = some a) (hg : g b = g a) : (l.set i b).map g = l.map g := by
  apply List.ext_getElem?
  intro j
  simp only [List.getElem?_map, List.getElem?_set]
  by_cases hij : i = j
  · subst hij
    have : i < l.length := by
      rcases Nat.lt_or_ge i l.length with h' | h'
      · exact h'
      · rw [List.getElem?_eq_none_iff.2 h'] at h; simp at h
    rw [h]; simp [this, hg]
  · simp [hij]

/-- The fields `Close` never touches. -/
def ScopeRec.fixed (r : ScopeRec) : Slice × Nat × Option Nat × Option Nat :=
  (r.vars, r.depth, r.parent, r.ag)

theorem finish_fixed (h : Heap R V) (s : Nat) :
    (h.finish s).1.scopes.map ScopeRec.fixed = h.scopes.map ScopeRec.fixed ∧
    (h.finish s).1.arrays = h.arrays ∧ (h.finish s).1.ctxs = h.ctxs := by
  unfold Heap.finish
  cases h.scopes[s]? with
  | none => exact ⟨rfl, rfl, rfl⟩
  | some r =>
    refine ⟨?_, rfl, rfl⟩
    simp only
    rw [modify_map_eq _ _ _ ScopeRec.fixed (by intro a; rfl)]
    cases r.parent with
    | none => rfl
    | some p => exact modify_map_eq _ _ _ ScopeRec.fixed (by intro a; rfl)

theorem closeF_fixed (n : Nat) (h : Heap R V) (s : Nat) :
    (h.closeF n s).1.scopes.map ScopeRec.fixed = h.scopes.map ScopeRec.fixed ∧
    (h.closeF n s).1.arrays = h.arrays ∧ (h.closeF n s).1.ctxs = h.ctxs := by
  induction n generalizing h s with
  | zero => exact ⟨rfl, rfl, rfl⟩
  | succ n ih =>
    rw [Heap.closeF]
    cases h.scopes[s]? with
    | none => exact ⟨rfl, rfl, rfl⟩
    | some r =>
      simp only
      have hf : ∀ (kids : List Nat) (acc : Heap R V × List (Nat × Nat)),
          let a := kids.foldl (fun (acc : Heap R V × List (Nat × Nat)) (c : Nat) =>
            ((Heap.closeF n acc.1 c).1, acc.2 ++ (Heap.closeF n acc.1 c).2)) acc
          a.1.scopes.map ScopeRec.fixed = acc.1.scopes.map ScopeRec.fixed ∧
          a.1.arrays = acc.1.arrays ∧ a.1.ctxs = acc.1.ctxs := by
        intro kids
        induction kids with
        | nil => intro acc; exact ⟨rfl, rfl, rfl⟩
        | cons k ks ihk =>
          intro acc
          have h1 := ihk ((Heap.closeF n acc.1 k).1, acc.2 ++ (Heap.closeF n acc.1 k).2)
          have h2 := ih acc.1 k
          exact ⟨h1.1.trans h2.1, h1.2.1.trans h2.2.1, h1.2.2.trans h2.2.2⟩
      have h1 := hf (r.children.filterMap id) (h, [])
      have h2 := finish_fixed (R := R) (V := V)
        (List.foldl (fun (acc : Heap R V × List (Nat × Nat)) (c : Nat) =>
            ((Heap.closeF n acc.1 c).1, acc.2 ++ (Heap.closeF n acc.1 c).2)) (h, [])
            (r.children.filterMap id)).1 s
      exact ⟨h2.1.trans h1.1, h2.2.1.trans h1.2.1, h2.2.2.trans h1.2.2⟩

theorem map_of_fixed {β : Type} (l l' : List ScopeRec) (g : Slice × Nat × Option Nat × Option Nat → β)
    (h : l.map ScopeRec.fixed = l'.map ScopeRec.fixed) :
    l.map (fun r => g r.fixed) = l'.map (fun r => g r.fixed) := by
  have := congrArg (List.map g) h
  simpa [List.map_map, Function.comp_def] using this

theorem getElem?_lt {α : Type} {l : List α} {i : Nat} {a : α} (h : l[i]? = some a) : i < l.length := by
  rcases Nat.lt_or_ge i l.length with h' | h'
  · exact h'
  · rw [List.getElem?_eq_none_iff.2 h'] at h; simp at h

end
end Vfilter
