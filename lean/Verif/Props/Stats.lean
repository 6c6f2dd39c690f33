import Verif.Explain
/-!
# C78: every source row is counted and charged for once
-/
set_option linter.all false

namespace Vfilter.Expl.Stats

variable {R : Type}

structure Inv (input : List R) (n m : Nat) (s : FromSt R) : Prop where
  cnt : s.scanned = n + (s.out ++ s.hold.toList).length
  chg : s.charged = m + (s.out ++ s.hold.toList).length
  pre : s.out ++ s.hold.toList <+: input
  rest : s.input = [] ∨ s.out ++ s.hold.toList ++ s.input = input
  all : s.cancelled = false → s.out ++ s.hold.toList ++ s.input = input
  done : s.closed = true → s.cancelled = false → s.input = [] ∧ s.hold = none

theorem inv {input : List R} {n m : Nat} {s : FromSt R}
    (h : Steps FromStep (FromSt.init input n m) s) : Inv input n m s := by
  generalize hi : FromSt.init input n m = s0 at h
  induction h with
  | refl => subst hi; constructor <;> simp [FromSt.init]
  | tail _ st ih =>
    obtain ⟨h1, h2, h3, h4, h5, h6⟩ := ih
    cases st with
    | @recv r rs out n' m' c =>
      have h4' : out ++ r :: rs = input := by simpa using h4
      exact ⟨by simp at h1 ⊢; omega, by simp at h2 ⊢; omega, ⟨rs, by simpa using h4'⟩,
        .inr (by simpa using h4'), fun _ => by simpa using h4', by simp⟩
    | send =>
      exact ⟨by simpa using h1, by simpa using h2, by simpa using h3, by simpa using h4,
        by simpa using h5, by simp⟩
    | abort => exact ⟨h1, h2, h3, h4, h5, by simp⟩
    | finish => exact ⟨h1, h2, h3, h4, h5, by simp⟩
    | inputEnds => exact ⟨h1, h2, h3, .inl rfl, by simp, by simp⟩
    | cancel => exact ⟨h1, h2, h3, h4, by simp, by simp⟩

/-- **C78**, at every moment: a row is passed on only after it was counted and charged for, once; at
most one row is counted and not passed on; and no more rows are counted than the source has. -/
theorem C78_counted_first {input : List R} {n m : Nat} {s : FromSt R}
    (h : Steps FromStep (FromSt.init input n m) s) :
    n + s.out.length ≤ s.scanned ∧ s.scanned ≤ n + s.out.length + 1 ∧
      s.scanned ≤ n + input.length ∧ s.charged - m = s.scanned - n ∧ s.out <+: input := by
  obtain ⟨h1, h2, h3, -, -, -⟩ := inv h
  have hl := h3.length_le
  refine ⟨?_, ?_, ?_, ?_, (List.prefix_append _ _).trans h3⟩ <;>
    cases e : s.hold <;> simp [e] at h1 h2 hl <;> omega

/-- **C78**, at the end of an uncancelled query: every row of the source was counted and charged for,
and passed on. -/
theorem C78_all_counted {input : List R} {n m : Nat} {s : FromSt R}
    (h : Steps FromStep (FromSt.init input n m) s) (hc : s.closed = true)
    (hn : s.cancelled = false) :
    s.scanned = n + input.length ∧ s.charged = m + input.length ∧ s.out = input := by
  obtain ⟨h1, h2, -, -, h5, h6⟩ := inv h
  obtain ⟨e1, e2⟩ := h6 hc hn
  have := h5 hn
  rw [e1, e2] at this
  simp at this
  simp [e2, this] at h1 h2
  exact ⟨h1, h2, this⟩

/-- Refuted: "RowsScanned is the number of rows that reached the query". A cancelled query has
counted a row it gave up. -/
theorem C78_given_up_refuted : ∃ s : FromSt Nat, Steps FromStep (FromSt.init [7] 0 0) s ∧
    s.closed = true ∧ s.scanned = 1 ∧ s.out = [] :=
  ⟨_, ((Steps.refl.tail .recv).tail .cancel).tail .abort, rfl, rfl, rfl⟩

example : ∃ s : FromSt Nat, Steps FromStep (FromSt.init [7] 3 4) s ∧
    s.closed = true ∧ s.cancelled = false ∧ s.scanned = 4 ∧ s.charged = 5 :=
  ⟨_, ((Steps.refl.tail .recv).tail .send).tail .finish, rfl, rfl, rfl, rfl⟩

end Vfilter.Expl.Stats
