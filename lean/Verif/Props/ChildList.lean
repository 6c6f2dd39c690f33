import Verif.ChildList
/-!
# C99: closed scopes leave nothing behind in their parent
-/

namespace Vfilter.ChildList

/-- The children that are open, in the order in which they were made. -/
def openAfter : List Op → List Nat
  | h => h.foldl (fun l o => match o with
    | .copy id => l ++ [id]
    | .close id => l.filter (· != id)) []

theorem openAfter_snoc (h : List Op) (o : Op) :
    openAfter (h ++ [o]) = match o with
      | .copy id => openAfter h ++ [id]
      | .close id => (openAfter h).filter (· != id) := by
  cases o <;> simp [openAfter, List.foldl_append]

theorem after_snoc (h : List Op) (o : Op) : after (h ++ [o]) = step (after h) o := by
  simp [after, List.foldl_append]

/-- The number of empty places. -/
def holes (l : List (Option Nat)) : Nat := l.countP (·.isNone)

theorem length_eq (l : List (Option Nat)) : l.length = (l.filterMap id).length + holes l := by
  induction l with
  | nil => rfl
  | cons c l ih => cases c <;> simp [holes] at ih ⊢ <;> omega

theorem clear_some (i : Nat) (l : List (Option Nat)) :
    (clear i l).1.filterMap id = (l.filterMap id).filter (· != i) := by
  induction l with
  | nil => rfl
  | cons c l ih =>
    rw [clear]
    by_cases hc : c = some i
    · subst hc; simp [ih]
    · rw [if_neg hc]
      cases c with
      | none => simpa using ih
      | some j =>
        have : j ≠ i := fun e => hc (by rw [e])
        simp [ih, this]

theorem clear_holes (i : Nat) (l : List (Option Nat)) : holes (clear i l).1 = holes l + (clear i l).2 := by
  induction l with
  | nil => rfl
  | cons c l ih =>
    rw [clear]
    by_cases hc : c = some i
    · subst hc; simp [holes] at ih ⊢; omega
    · rw [if_neg hc]
      simp only [holes, List.countP_cons] at ih ⊢
      omega

theorem clear_length (i : Nat) (l : List (Option Nat)) : (clear i l).1.length = l.length := by
  induction l with
  | nil => rfl
  | cons c l ih =>
    rw [clear]
    split <;> simp [ih]

theorem compact_some (σ : St) : (compact σ).children.filterMap id = σ.children.filterMap id := by
  unfold compact
  split
  · simp only
    induction σ.children with
    | nil => rfl
    | cons c l ih => cases c <;> simpa using ih
  · rfl

theorem compact_holes (σ : St) (h : holes σ.children = σ.garbage) :
    holes (compact σ).children = (compact σ).garbage ∧ (compact σ).garbage ≤ 10 := by
  unfold compact
  split
  · simp only
    refine ⟨?_, by omega⟩
    simp only [holes, List.countP_filter]
    rw [List.countP_eq_zero]
    intro c _
    cases c <;> simp
  · exact ⟨h, by omega⟩

theorem after_holes (h : List Op) : holes (after h).children = (after h).garbage := by
  rw [← List.reverse_reverse h]
  induction h.reverse with
  | nil => rfl
  | cons o r ih =>
    rw [List.reverse_cons, after_snoc]
    cases o with
    | copy i =>
      have := (compact_holes _ ih).1
      simp only [step, holes, List.countP_append] at this ⊢
      simpa using this
    | close i => simp only [step]; rw [clear_holes, ih]

/-- C99: the scopes in the list are those made from the scope and not closed yet, in the order in which they were made. -/
theorem C99_kept (h : List Op) : (after h).children.filterMap id = openAfter h := by
  rw [← List.reverse_reverse h]
  induction h.reverse with
  | nil => rfl
  | cons o r ih =>
    rw [List.reverse_cons, after_snoc, openAfter_snoc]
    cases o with
    | copy i =>
      simp only [step, List.filterMap_append]
      rw [compact_some, ih]
      rfl
    | close i =>
      simp only [step]
      rw [clear_some, ih]

/-- C99: the list is never more than 10 places longer than the number of scopes that were open at the same time, however
many have been made and closed. -/
theorem C99_bounded (h : List Op) (m : Nat) (hm : ∀ h', h' <+: h → (openAfter h').length ≤ m) :
    (after h).children.length ≤ m + 10 := by
  rw [← List.reverse_reverse h] at hm ⊢
  generalize h.reverse = r at hm ⊢
  induction r with
  | nil => simp [after, St.init]
  | cons o r ih =>
    have ih' := ih (fun h' hp => hm h' (by rw [List.reverse_cons]; exact hp.trans (List.prefix_append _ _)))
    cases o with
    | copy i =>
      have hk := C99_kept ((Op.copy i :: r).reverse)
      have hopen := hm _ (List.prefix_refl _)
      rw [length_eq, hk]
      have hc := compact_holes _ (after_holes r.reverse)
      have hh : holes (after (Op.copy i :: r).reverse).children ≤ 10 := by
        rw [List.reverse_cons, after_snoc]
        simp only [step, holes, List.countP_append] at hc ⊢
        simp
        omega
      omega
    | close i =>
      rw [List.reverse_cons, after_snoc]
      simp only [step]
      rw [clear_length]
      exact ih'

/-- C99: the message about a list that is too long is not printed as long as no more than 990 scopes are open. -/
theorem C99_no_warning (h : List Op) (hm : ∀ h', h' <+: h → (openAfter h').length ≤ 990) :
    (after h).warnings = 0 := by
  rw [← List.reverse_reverse h] at hm ⊢
  generalize h.reverse = r at hm ⊢
  induction r with
  | nil => rfl
  | cons o r ih =>
    have hm' : ∀ h', h' <+: r.reverse → (openAfter h').length ≤ 990 :=
      fun h' hp => hm h' (by rw [List.reverse_cons]; exact hp.trans (List.prefix_append _ _))
    have ih' := ih hm'
    rw [List.reverse_cons, after_snoc]
    cases o with
    | close i => exact ih'
    | copy i =>
      have hl : (compact (after r.reverse)).children.length ≤ (after r.reverse).children.length := by
        unfold compact
        split
        · exact List.length_filter_le _ _
        · exact Nat.le_refl _
      have := C99_bounded r.reverse 990 hm'
      simp only [step, ih']
      rw [if_neg (by omega)]

/-- C99: a scope that is closed a second time changes nothing, and neither does one that is not a child. -/
theorem C99_others (h : List Op) (i : Nat) (hi : i ∉ openAfter h) : after (h ++ [.close i]) = after h := by
  rw [after_snoc]
  have hnot : some i ∉ (after h).children := by
    intro hmem
    apply hi
    rw [← C99_kept]
    exact List.mem_filterMap.mpr ⟨some i, hmem, rfl⟩
  have hclear : ∀ l : List (Option Nat), some i ∉ l → clear i l = (l, 0) := by
    intro l
    induction l with
    | nil => intro _; rfl
    | cons c l ih =>
      intro hl
      rw [clear, if_neg (fun e => hl (by simp [e])), ih (fun hm => hl (by simp [hm]))]
  simp only [step]
  rw [hclear _ hnot]
  rfl

/-- Fifteen scopes made and closed one after the other leave four empty places. -/
example : after ((List.range 15).flatMap fun i => [.copy i, .close i]) = ⟨List.replicate 4 none, 4, 0⟩ := by decide

example : openAfter [.copy 1, .copy 2, .close 1, .copy 3, .close 1] = [2, 3] := by decide

end Vfilter.ChildList
