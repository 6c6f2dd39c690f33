import Verif.Plugins
import Verif.ODLemmas
import Verif.Props.Collections
import Mathlib.Tactic.Ring
/-!
# C37 flatten, C40 range
-/

set_option linter.all false

namespace Vfilter

/-! ## C40 -/

theorem toInt_add_of {a b : I64} (h1 : -(2 ^ 63) ≤ a.toInt + b.toInt) (h2 : a.toInt + b.toInt < 2 ^ 63) :
    (a + b).toInt = a.toInt + b.toInt := by
  rw [BitVec.toInt_add]
  exact Int.bmod_eq_of_le (by omega) (by omega)

/-- C40 while the values stay below 2^63 (see `C40_range_refuted` for the wraparound): range
emits exactly `start + k * step` for k = 0, 1, 2, ... while less than `end`, and stops. -/
theorem C40_range_partial (start end_ step : I64) (hs : 0 ≤ step.toInt)
    (ho : end_.toInt + max 1 step.toInt ≤ 2 ^ 63) :
    ∃ L : List I64, (∀ k : Nat, (L.map BitVec.toInt)[k]? =
        if start.toInt + k * max 1 step.toInt < end_.toInt then some (start.toInt + k * max 1 step.toInt) else none) ∧
      (∃ fuel, rangeCall start end_ step fuel = (L, true)) ∧
      ∀ fuel, (rangeCall start end_ step fuel).1 <+: L ∧
        ((rangeCall start end_ step fuel).2 = true → (rangeCall start end_ step fuel).1 = L) := by
  have hstep : (rangeStep step).toInt = max 1 step.toInt := by
    unfold rangeStep
    by_cases h : step = 0#64
    · subst h; decide
    · rw [if_neg h]
      have : step.toInt ≠ 0 := by
        intro h0
        exact h (BitVec.eq_of_toInt_eq (by rw [h0]; rfl))
      omega
  unfold rangeCall
  rw [← hstep] at ho ⊢
  generalize rangeStep step = s at *
  have hs1 : 1 ≤ s.toInt := by omega
  -- by strong induction on the distance
  have key : ∀ (n : Nat) (i : I64), (end_.toInt - i.toInt).toNat ≤ n →
      ∃ L : List I64, (∀ k : Nat, (L.map BitVec.toInt)[k]? =
        if i.toInt + k * s.toInt < end_.toInt then some (i.toInt + k * s.toInt) else none) ∧
      (∃ fuel, rangeLoop s end_ fuel i = (L, true)) ∧
      ∀ fuel, (rangeLoop s end_ fuel i).1 <+: L ∧
        ((rangeLoop s end_ fuel i).2 = true → (rangeLoop s end_ fuel i).1 = L) := by
    intro n
    induction n with
    | zero =>
      intro i hi
      have hge : ¬ i.toInt < end_.toInt := by omega
      refine ⟨[], ?_, ⟨1, by simp [rangeLoop, hge]⟩, ?_⟩
      · intro k
        have : ¬ i.toInt + k * s.toInt < end_.toInt := by
          have : 0 ≤ (k : Int) * s.toInt := Int.mul_nonneg (by omega) (by omega)
          omega
        simp [this]
      · intro fuel
        cases fuel <;> simp [rangeLoop, hge]
    | succ n ih =>
      intro i hi
      by_cases hlt : i.toInt < end_.toInt
      · have hadd : (i + s).toInt = i.toInt + s.toInt := by
          have := BitVec.le_toInt i
          have := BitVec.le_toInt s
          apply toInt_add_of <;> omega
        obtain ⟨L, h1, ⟨f, h2⟩, h3⟩ := ih (i + s) (by rw [hadd]; omega)
        refine ⟨i :: L, ?_, ⟨f + 1, by simp [rangeLoop, hlt, h2]⟩, ?_⟩
        · intro k
          cases k with
          | zero => simp [hlt]
          | succ k =>
            have := h1 k
            rw [hadd] at this
            rw [List.map_cons, List.getElem?_cons_succ, this]
            have e : i.toInt + s.toInt + (k : Int) * s.toInt = i.toInt + ((k + 1 : Nat) : Int) * s.toInt := by
              push_cast; ring
            rw [e]
        · intro fuel
          cases fuel with
          | zero => simp [rangeLoop]
          | succ fuel =>
            obtain ⟨h4, h5⟩ := h3 fuel
            simp only [rangeLoop, hlt, if_true]
            exact ⟨by simpa using h4, fun h => by rw [h5 h]⟩
      · exact (by
          refine ⟨[], ?_, ⟨1, by simp [rangeLoop, hlt]⟩, ?_⟩
          · intro k
            have : ¬ i.toInt + k * s.toInt < end_.toInt := by
              have : 0 ≤ (k : Int) * s.toInt := Int.mul_nonneg (by omega) (by omega)
              omega
            simp [this]
          · intro fuel
            cases fuel <;> simp [rangeLoop, hlt])
  exact key _ start (Nat.le_refl _)

example : rangeCall 5 12 3 10 = ([5, 8, 11], true) := by decide +kernel
example : (0#64).toInt ≤ (3#64).toInt ∧ (12#64).toInt + max 1 (3#64).toInt ≤ 2 ^ 63 := by decide

/-- C40 fails at the 64 bit limit: after the last value below `end` the counter wraps around to
a negative number, which is emitted too. -/
theorem C40_range_refuted :
    (rangeCall (i64 (2 ^ 63 - 2)) (i64 (2 ^ 63 - 1)) (i64 2) 2).1.map BitVec.toInt =
      [2 ^ 63 - 2, -(2 ^ 63)] := by decide +kernel

/-! ## C37 -/

section
variable {F X : Type} [FloatOps F]

/-- What a cell expands to: the elements of a non-empty array, otherwise the cell itself. -/
def cellChoices : Val F X → List (Val F X)
  | .arr (x :: xs) => x :: xs
  | v => [v]

/-- One row for each combination of one choice per column; columns keep their order and the
last column varies slowest. -/
def combos {V : Type} : List (Str × List V) → List (OD V)
  | [] => [[]]
  | (k, cs) :: rest => (combos rest).flatMap fun r => cs.map fun c => (k, c) :: r

/-- What iterating and unwrapping gives for a cell. -/
def rawChoices (W : World F X) (v : Val F X) : List (Val F X) :=
  let m := (iterate W v).map unwrapMember
  if m = [] then [v] else m

theorem combos_snoc {V : Type} (l : List (Str × List V)) (k : Str) (cs : List V) :
    combos (l ++ [(k, cs)]) = cs.flatMap fun c => (combos l).map (· ++ [(k, c)]) := by
  induction l with
  | nil =>
    simp only [List.nil_append, combos, List.map_cons, List.map_nil, List.flatMap_cons, List.flatMap_nil,
      List.append_nil]
    induction cs with
    | nil => rfl
    | cons c cs ih => simp [ih]
  | cons p l ih =>
    obtain ⟨k', cs'⟩ := p
    simp only [List.cons_append, combos, ih]
    rw [List.flatMap_assoc]
    congr 1
    funext c
    rw [List.flatMap_map, List.map_flatMap]
    simp [Function.comp_def]

theorem flattenRow_eq (W : World F X) : ∀ (pre post : OD (Val F X)), OD.WF (pre ++ post) →
    flattenRow W pre.length (pre ++ post) =
      some ((combos (pre.map fun p => (p.1, rawChoices W p.2))).map (· ++ post)) := by
  intro pre
  generalize hn : pre.length = n
  induction n generalizing pre with
  | zero =>
    intro post h
    have : pre = [] := List.length_eq_zero_iff.1 hn
    subst this
    simp [flattenRow, combos]
  | succ n ih =>
    intro post h
    obtain ⟨pre', p, rfl⟩ : ∃ pre' p, pre = pre' ++ [p] := by
      have : pre ≠ [] := by rintro rfl; simp at hn
      exact ⟨pre.dropLast, pre.getLast this, (List.dropLast_concat_getLast this).symm⟩
    obtain ⟨k, v⟩ := p
    have hlen : pre'.length = n := by simpa using hn
    have e0 : pre' ++ [(k, v)] ++ post = pre' ++ (k, v) :: post := by simp
    rw [e0] at h ⊢
    have hkey : (OD.keys (pre' ++ (k, v) :: post))[n]? = some k := by
      rw [← hlen]; simp [OD.keys]
    have hget : OD.get (pre' ++ (k, v) :: post) k = some v := OD.get_of_mem h (by simp)
    unfold flattenRow
    rw [hkey]
    simp only [hget, Option.getD_some]
    rw [OD.mergeFrom_nil _ h]
    have hup : ∀ m, OD.update (pre' ++ (k, v) :: post) k m = pre' ++ (k, m) :: post :=
      fun m => OD.update_mid pre' post k v m h
    have hwf : ∀ m, OD.WF (pre' ++ (k, m) :: post) := by
      intro m
      have : OD.keys (pre' ++ (k, m) :: post) = OD.keys (pre' ++ (k, v) :: post) := by simp [OD.keys]
      unfold OD.WF; rw [this]; exact h
    have hrec : ∀ m, flattenRow W n (pre' ++ (k, m) :: post) =
        some ((combos (pre'.map fun p => (p.1, rawChoices W p.2))).map (· ++ (k, m) :: post)) :=
      fun m => ih pre' hlen _ (hwf m)
    rw [List.map_append, List.map_cons, List.map_nil, combos_snoc]
    by_cases hm : (iterate W v).map unwrapMember = []
    · rw [if_pos hm, hrec]
      have : rawChoices W v = [v] := by unfold rawChoices; simp [hm]
      rw [this]
      simp [Function.comp_def]
    · rw [if_neg hm]
      have : rawChoices W v = (iterate W v).map unwrapMember := by unfold rawChoices; simp only [hm, if_false]
      rw [this]
      simp only [hup, hrec]
      generalize (iterate W v).map unwrapMember = ms
      have hmap : ∀ ms : List (Val F X), (ms.mapM fun m => some
          ((combos (pre'.map fun p => (p.1, rawChoices W p.2))).map (· ++ (k, m) :: post))) =
          some (ms.map fun m => (combos (pre'.map fun p => (p.1, rawChoices W p.2))).map (· ++ (k, m) :: post)) := by
        intro ms
        induction ms with
        | nil => rfl
        | cons m ms ih => rw [List.mapM_cons, ih]; rfl
      rw [hmap]
      simp only [Option.map_some, Option.some.injEq]
      rw [List.map_flatMap, List.flatMap_def]
      congr 1
      apply List.map_congr_left
      intro m _
      simp [Function.comp_def]

/-- A cell whose array elements are neither NULL nor dicts with a `_value` key, and that is not
itself such a dict or a query. -/
def PlainCell (W : World F X) (v : Val F X) : Prop :=
  (∀ r, v ≠ .query r) ∧ (∀ d, v = .dict d → OD.get d valueKey = none) ∧
  (∀ l, v = .arr l → ∀ x ∈ l, x ≠ .null ∧ ∀ d, x = .dict d → OD.get d valueKey = none) ∧
  ((∀ l, v ≠ .arr l) → NoIter W v)

theorem rawChoices_plain (W : World F X) (v : Val F X) (h : PlainCell W v) : rawChoices W v = cellChoices v := by
  obtain ⟨hq, hd, ha, hn⟩ := h
  obtain ⟨i1, i2, i3, i4, i5⟩ := C15_iterate W
  have hscalar : (∀ l, v ≠ .arr l) → (∀ d, v ≠ .dict d) → v ≠ .null →
      rawChoices W v = [v] := by
    intro h1 h2 h3
    unfold rawChoices
    rw [i5 v (hn h1) h3 h1 h2 hq]
    simp [unwrapMember, OD.get]
  cases v with
  | null =>
    unfold rawChoices
    rw [i4 (hn (by simp))]
    simp [cellChoices]
  | arr l =>
    have hl := ha l rfl
    have e : (iterate W (.arr l)).map unwrapMember = l := by
      rw [i1]
      have hf : l.filter (fun x => !x.isNil) = l := by
        rw [List.filter_eq_self]
        intro x hx
        have := (hl x hx).1
        cases x <;> simp_all [Val.isNil]
      rw [hf, List.map_map]
      have : ∀ x ∈ l, (unwrapMember ∘ rowFor) x = x := by
        intro x hx
        have h2 := (hl x hx).2
        cases x with
        | dict d => simp only [Function.comp, rowFor, unwrapMember, h2 d rfl]
        | _ => simp [Function.comp, rowFor, unwrapMember, OD.get]
      conv => rhs; rw [← List.map_id l]
      exact List.map_congr_left this
    unfold rawChoices
    simp only [e]
    cases l <;> simp [cellChoices]
  | dict d =>
    unfold rawChoices
    rw [i2]
    simp only [List.map_cons, List.map_nil, unwrapMember, hd d rfl]
    simp [cellChoices]
  | query r => exact absurd rfl (hq r)
  | _ => exact hscalar (by simp) (by simp) (by simp)

/-- C37 for rows of plain cells (see `C37_null_elements_refuted` and `C37_value_key_refuted`): one row
for each combination of one element from every non-empty array, the other columns
unchanged, the same columns in the same order. -/
theorem C37_cartesian_partial (W : World F X) (rows : List (OD (Val F X)))
    (hwf : ∀ r ∈ rows, OD.WF r) (hp : ∀ r ∈ rows, ∀ p ∈ r, PlainCell W p.2) :
    flattenPlugin W rows =
      some (rows.flatMap fun r => combos (r.map fun p => (p.1, cellChoices p.2))) := by
  have hrow : ∀ r ∈ rows, flattenCall W r = some (combos (r.map fun p => (p.1, cellChoices p.2))) := by
    intro r hr
    have := flattenRow_eq W r [] (by simpa using hwf r hr)
    simp only [List.append_nil] at this
    unfold flattenCall
    have hk : (OD.keys r).length = r.length := by simp [OD.keys]
    rw [hk, this]
    simp only [List.map_id', Option.some.injEq]
    congr 1
    exact List.map_congr_left (fun p hpr => by rw [rawChoices_plain W p.2 (hp r hr p hpr)])
  unfold flattenPlugin
  have hmap : ∀ l : List (OD (Val F X)), (∀ r ∈ l, r ∈ rows) → l.mapM (flattenCall W) =
      some (l.map fun r => combos (r.map fun p => (p.1, cellChoices p.2))) := by
    intro l
    induction l with
    | nil => intro _; rfl
    | cons r l ih =>
      intro h
      rw [List.mapM_cons, hrow r (h r (by simp)), ih (fun r' h' => h r' (by simp [h']))]
      rfl
  rw [hmap rows (fun _ h => h)]
  simp [List.flatMap_def]

/-- The expansion has the same columns in the same order, and each cell is one of the
choices. -/
theorem C37_combination_iff {V : Type} (cols : List (Str × List V)) (r : OD V) :
    r ∈ combos cols ↔ List.Forall₂ (fun c p => c.1 = p.1 ∧ p.2 ∈ c.2) cols r := by
  induction cols generalizing r with
  | nil =>
    simp only [combos, List.mem_singleton]
    constructor
    · rintro rfl; exact .nil
    · intro h; cases h; rfl
  | cons c cols ih =>
    obtain ⟨k, cs⟩ := c
    simp only [combos, List.mem_flatMap, List.mem_map]
    constructor
    · rintro ⟨r', hr', v, hv, rfl⟩
      exact List.Forall₂.cons ⟨rfl, hv⟩ ((ih r').1 hr')
    · intro h
      cases h with
      | @cons _ p _ r' hp hr =>
        obtain ⟨k', v⟩ := p
        obtain ⟨h1, h2⟩ := hp
        simp only at h1 h2
        subst h1
        exact ⟨r', (ih r').2 hr, v, h2, rfl⟩

/-- The number of rows is the product of the numbers of choices. -/
theorem C37_count {V : Type} (cols : List (Str × List V)) :
    (combos cols).length = (cols.map (fun c => c.2.length)).foldr (· * ·) 1 := by
  induction cols with
  | nil => rfl
  | cons c cols ih =>
    obtain ⟨k, cs⟩ := c
    simp only [combos, List.map_cons, List.foldr_cons, ← ih]
    generalize combos cols = rs
    induction rs with
    | nil => simp
    | cons r rs ih2 =>
      rw [List.flatMap_cons, List.length_append, ih2, List.length_map, List.length_cons]
      ring

/-- Empty cells and scalars count once, arrays by their length. -/
theorem C37_choices_count (v : Val F X) : (cellChoices v).length = (match v with
    | .arr l => max 1 l.length
    | _ => 1) := by
  unfold cellChoices
  split <;> simp_all
  rename_i h
  cases v <;> simp_all
  rename_i l
  cases l <;> simp_all

end

/-- C37 fails for NULL elements: they are dropped, `{A: [1, NULL]}` gives one row. -/
theorem C37_null_elements_refuted :
    flattenCall ({} : World F64 Unit) [(bs "A", .arr [.int 1, .null])] = some [[(bs "A", .int 1)]] := by
  rfl

/-- C37 fails for dict cells with a `_value` key: they are replaced by that member. -/
theorem C37_value_key_refuted :
    flattenCall ({} : World F64 Unit) [(bs "A", .dict [(valueKey, .int 1), (bs "B", .int 2)])] =
      some [[(bs "A", .int 1)]] := by
  rfl

example : flattenCall ({} : World F64 Unit)
    [(bs "A", .arr [.int 1, .int 2]), (bs "B", .str (bs "x")), (bs "C", .arr [.int 3, .int 4])] =
    some [[(bs "A", .int 1), (bs "B", .str (bs "x")), (bs "C", .int 3)],
          [(bs "A", .int 2), (bs "B", .str (bs "x")), (bs "C", .int 3)],
          [(bs "A", .int 1), (bs "B", .str (bs "x")), (bs "C", .int 4)],
          [(bs "A", .int 2), (bs "B", .str (bs "x")), (bs "C", .int 4)]] := by
  rfl

end Vfilter
