import Verif.F64Exact
import Verif.Props.Arith
import Verif.Props.Aggregates
/-!
# C87: integers and floats together
-/

set_option linter.all false
set_option exponentiation.threshold 3000

namespace Vfilter.MixedNum
open FloatOps

variable {X : Type}

/-- The number a value stands for: an integer or a finite float. -/
def number : Val F64 X → Option ℚ
  | .int i => some (i.toInt : ℚ)
  | .float (.fin n m e) => some ((if n then -1 else 1) * m * 2 ^ e / 2 ^ 1074)
  | _ => none

/-- No integer of more than `2^53` in absolute value is compared with a float as large. -/
def Fit : Val F64 X → Val F64 X → Prop
  | .int i, .float f => i.toInt.natAbs ≤ 2 ^ 53 ∨ ∃ x, number (.float f : Val F64 X) = some x ∧ |x| < 2 ^ 53
  | .float f, .int i => i.toInt.natAbs ≤ 2 ^ 53 ∨ ∃ x, number (.float f : Val F64 X) = some x ∧ |x| < 2 ^ 53
  | _, _ => True

theorem abs_int {i : Int} : (|(i : ℚ)| < 2 ^ 53 ↔ i.natAbs < 2 ^ 53) ∧ (2 ^ 53 < i.natAbs → 0 ≤ i → (2 : ℚ) ^ 53 < i) ∧
    (2 ^ 53 < i.natAbs → i < 0 → (i : ℚ) < -2 ^ 53) := by
  refine ⟨?_, ?_, ?_⟩
  · rw [← Int.cast_abs, ← Nat.cast_natAbs]
    exact_mod_cast Iff.rfl
  · intro h h0
    have : (2 : Int) ^ 53 < i := by omega
    exact_mod_cast this
  · intro h h0
    have : i < -(2 : Int) ^ 53 := by omega
    exact_mod_cast this

/-- Comparing the conversion of an integer with a float compares the two numbers. -/
theorem cmp_exact (i : I64) (n : Bool) (m e : Nat)
    (h : i.toInt.natAbs ≤ 2 ^ 53 ∨ |F64.rat n m e| < 2 ^ 53) :
    (F64.lt (F64.ofI64 i) (.fin n m e) = true ↔ (i.toInt : ℚ) < F64.rat n m e) ∧
    (F64.eq (F64.ofI64 i) (.fin n m e) = true ↔ (i.toInt : ℚ) = F64.rat n m e) ∧
    (F64.lt (.fin n m e) (F64.ofI64 i) = true ↔ F64.rat n m e < (i.toInt : ℚ)) := by
  rcases Nat.lt_or_ge (2 ^ 53) i.toInt.natAbs with hb | hb
  · have hx : |F64.rat n m e| < 2 ^ 53 := by
      rcases h with h | h
      · omega
      · exact h
    obtain ⟨n', m', e', h1, -, -⟩ := F64.ofI64_rat i
    obtain ⟨f1, f2⟩ := F64.ofI64_far (Nat.le_of_lt hb) h1
    rw [h1, F64.lt_rat, F64.eq_rat, F64.lt_rat]
    obtain ⟨x1, x2⟩ := abs_lt.1 hx
    obtain ⟨-, g1, g2⟩ := abs_int (i := i.toInt)
    rcases lt_or_ge i.toInt 0 with h0 | h0
    · have a := f2 h0
      have b := g2 hb h0
      refine ⟨⟨fun _ => by linarith, fun _ => by linarith⟩, ⟨fun h => by linarith, fun h => by linarith⟩,
        ⟨fun h => by linarith, fun h => by linarith⟩⟩
    · have a := f1 h0
      have b := g1 hb h0
      refine ⟨⟨fun _ => by linarith, fun _ => by linarith⟩, ⟨fun h => by linarith, fun h => by linarith⟩,
        ⟨fun h => by linarith, fun h => by linarith⟩⟩
  · obtain ⟨n', m', e', h1, -, h3⟩ := F64.ofI64_exact hb
    rw [h1, F64.lt_rat, F64.eq_rat, F64.lt_rat, h3]
    exact ⟨Iff.rfl, Iff.rfl, Iff.rfl⟩

/-- Comparing two numbers - integers, floats, or one of each - compares the numbers they stand for,
unless an integer of more than `2^53` in absolute value meets a float that is as large. -/
theorem C87_compare (W : World F64 X) (a b : Val F64 X) (x y : ℚ) (ha : number a = some x) (hb : number b = some y)
    (hf : Fit a b) :
    (ltV W a b = true ↔ x < y) ∧ (eqV W a b = true ↔ x = y) ∧ (gtV W a b = true ↔ y < x) := by
  cases a with
  | int i =>
    cases ha
    cases b with
    | int j =>
      cases hb
      simp only [ltV, eqV, gtV, eqSwitch, intLt, intEq, intGt, I64.lt]
      refine ⟨?_, ?_, ?_⟩
      · rw [decide_eq_true_iff, Int.cast_lt]
      · rw [beq_iff_eq, Int.cast_inj]
        exact ⟨fun h => by rw [h], fun h => BitVec.eq_of_toInt_eq h⟩
      · rw [decide_eq_true_iff, Int.cast_lt]
    | float g =>
      cases g with
      | fin n m e =>
        cases hb
        have hfit : i.toInt.natAbs ≤ 2 ^ 53 ∨ |F64.rat n m e| < 2 ^ 53 := by
          rcases hf with h | ⟨x, h, h'⟩
          · exact .inl h
          · cases h; exact .inr h'
        obtain ⟨h1, h2, h3⟩ := cmp_exact i n m e hfit
        simp only [ltV, eqV, gtV, eqSwitch, intLt, intEq, intGt]
        exact ⟨h1, h2, h3⟩
      | _ => cases hb
    | _ => cases hb
  | float f =>
    cases f with
    | fin n m e =>
      cases ha
      cases b with
      | int i =>
        cases hb
        have hfit : i.toInt.natAbs ≤ 2 ^ 53 ∨ |F64.rat n m e| < 2 ^ 53 := by
          rcases hf with h | ⟨x, h, h'⟩
          · exact .inl h
          · cases h; exact .inr h'
        obtain ⟨h1, h2, h3⟩ := cmp_exact i n m e hfit
        simp only [ltV, eqV, gtV, eqSwitch, Val.toFloat, Option.map_some]
        refine ⟨h3, ?_, h1⟩
        rw [LawfulFloat.eq_symm]
        exact h2.trans eq_comm
      | float g =>
        cases g with
        | fin n' m' e' =>
          cases hb
          simp only [ltV, eqV, gtV, eqSwitch, Val.toFloat, Option.map_some]
          exact ⟨F64.lt_rat n n' m e m' e', F64.eq_rat n n' m e m' e', F64.lt_rat n' n m' e' m e⟩
        | _ => cases hb
      | _ => cases hb
    | _ => cases ha
  | _ => cases ha

/-- Every number is less than positive infinity and greater than negative infinity. -/
theorem C87_infinite (W : World F64 X) (a : Val F64 X) (x : ℚ) (ha : number a = some x) :
    ltV W a (.float (.inf false)) = true ∧ gtV W a (.float (.inf true)) = true ∧
    ltV W (.float (.inf true)) a = true ∧ gtV W (.float (.inf false)) a = true ∧
    eqV W a (.float (.inf false)) = false ∧ eqV W a (.float (.inf true)) = false := by
  cases a with
  | int i =>
    obtain ⟨n, m, e, h, -⟩ := F64.ofI64_eq i
    have h' : (FloatOps.ofI64 i : F64) = .fin n m e := h
    simp only [ltV, eqV, gtV, eqSwitch, intLt, intEq, intGt, Val.toFloat, h']
    refine ⟨rfl, rfl, rfl, rfl, rfl, rfl⟩
  | float f =>
    cases f with
    | fin n m e => refine ⟨rfl, rfl, rfl, rfl, rfl, rfl⟩
    | _ => cases ha
  | _ => cases ha

/-- A number that mixes with others: a float that is not NaN or an integer of at most `2^53` in
absolute value. -/
def Mixes : Val F64 X → Prop
  | .int i => i.toInt.natAbs ≤ 2 ^ 53
  | .float f => f ≠ .nan
  | _ => False

theorem mixes_lt (W : World F64 X) {a b : Val F64 X} (ha : Mixes a) (hb : Mixes b) :
    ∃ x y, a.toFloat = some x ∧ b.toFloat = some y ∧ ltV W a b = F64.lt x y := by
  cases a with
  | int i =>
    cases b with
    | int j =>
      refine ⟨_, _, rfl, rfl, ?_⟩
      obtain ⟨n, m, e, h1, -, h2⟩ := F64.ofI64_exact ha
      obtain ⟨n', m', e', h1', -, h2'⟩ := F64.ofI64_exact hb
      have : (F64.lt (F64.ofI64 i) (F64.ofI64 j) = true) ↔ i.toInt < j.toInt := by
        rw [h1, h1', F64.lt_rat, h2, h2', Int.cast_lt]
      simp only [ltV, intLt, I64.lt]
      rw [Bool.eq_iff_iff, decide_eq_true_iff]
      exact this.symm
    | float g => exact ⟨_, _, rfl, rfl, rfl⟩
    | _ => cases hb
  | float f =>
    cases b with
    | int j => exact ⟨_, _, rfl, rfl, rfl⟩
    | float g => exact ⟨_, _, rfl, rfl, rfl⟩
    | _ => cases hb
  | _ => cases ha

theorem mixes_num {a : Val F64 X} (ha : Mixes a) {x : F64} (h : a.toFloat = some x) : F64.eq x x = true := by
  cases a with
  | int i => cases h; exact F64.ofI64_num' i
  | float f =>
    cases h
    cases x with
    | nan => exact absurd rfl ha
    | inf b => simp [F64.eq]
    | fin n m e => simp [F64.eq]
  | _ => cases ha

theorem mixes_strictWeak (W : World F64 X) (l : List (Val F64 X)) (h : ∀ v ∈ l, Mixes v) : StrictWeakOn (ltV W) l := by
  refine ⟨?_, ?_, ?_⟩
  · intro a ha
    obtain ⟨x, y, h1, h2, e⟩ := mixes_lt W (h a ha) (h a ha)
    rw [h1] at h2; cases h2
    rw [e]; exact F64.lt_irrefl' _
  · intro a ha b hb c hc hab hbc
    obtain ⟨x, y, h1, h2, e⟩ := mixes_lt W (h a ha) (h b hb)
    obtain ⟨y', z, h3, h4, e'⟩ := mixes_lt W (h b hb) (h c hc)
    obtain ⟨x', z', h5, h6, e''⟩ := mixes_lt W (h a ha) (h c hc)
    rw [h2] at h3; cases h3
    rw [h1] at h5; cases h5
    rw [h4] at h6; cases h6
    rw [e] at hab; rw [e'] at hbc; rw [e'']
    exact F64.lt_trans' _ _ _ hab hbc
  · intro a ha b hb c hc hab hbc
    obtain ⟨x, y, h1, h2, e⟩ := mixes_lt W (h a ha) (h b hb)
    obtain ⟨y', z, h3, h4, e'⟩ := mixes_lt W (h b hb) (h c hc)
    obtain ⟨x', z', h5, h6, e''⟩ := mixes_lt W (h a ha) (h c hc)
    rw [h2] at h3; cases h3
    rw [h1] at h5; cases h5
    rw [h4] at h6; cases h6
    rw [e] at hab; rw [e'] at hbc; rw [e'']
    cases hlt : F64.lt x z with
    | false => rfl
    | true =>
      rcases F64.total' x y (mixes_num (h a ha) h1) (mixes_num (h b hb) h2) with k | k | k
      · rw [k] at hab; cases hab
      · have := F64.eq_lt_trans' y x z (by rw [F64.eq_symm']; exact k) hlt
        rw [this] at hbc; cases hbc
      · have := F64.lt_trans' y x z k hlt
        rw [this] at hbc; cases hbc

/-- min() of such numbers is the first that no number is less than. -/
theorem C87_min (W : World F64 X) (id : Str) (items : List (Val F64 X)) (hne : items ≠ []) (ho : ∀ v ∈ items, Mixes v)
    (calls : List (Str × AggOp F64 X)) (h : CallsOf id calls (items.map .min)) :
    ∃ m, LastResult W id calls (.val m) ∧ FirstMin (ltV W) items m := by
  obtain ⟨m, hm, hf⟩ := runMin_first items hne (mixes_strictWeak W items ho)
  exact ⟨m, lastResult_min W id items m hm calls h, hf⟩

/-- max() of such numbers is the last that is less than no number. -/
theorem C87_max (W : World F64 X) (id : Str) (items : List (Val F64 X)) (hne : items ≠ []) (ho : ∀ v ∈ items, Mixes v)
    (calls : List (Str × AggOp F64 X)) (h : CallsOf id calls (items.map .max)) :
    ∃ m, LastResult W id calls (.val m) ∧ LastMax (ltV W) items m := by
  obtain ⟨m, hm, hf⟩ := runMax_last items hne (mixes_strictWeak W items ho)
  exact ⟨m, lastResult_max W id items m hm calls h, hf⟩

/-- ORDER BY sorts such numbers. -/
theorem C87_order {R : Type} (W : World F64 X) (key : R → Val F64 X × Bool)
    (sort : (R → R → Bool) → List R → List R) (hs : SortContract sort) (rows : List R)
    (hp : ∀ r ∈ rows, (key r).2 = true) (ho : ∀ r ∈ rows, Mixes (key r).1) :
    (sort (rowLess W key false) rows).Pairwise (fun a b => ltV W (key b).1 (key a).1 = false) ∧
    (insertionSort (rowLess W key true) rows).Pairwise (fun a b => ltV W (key a).1 (key b).1 = false) := by
  have hk : ∀ r ∈ rows, sortKey (key r).1 = (key r).1 := by
    intro r hr
    have := ho r hr
    generalize (key r).1 = v at *
    cases v <;> first | rfl | cases this
  have hw : StrictWeakOn (ltV W) (rows.map (fun r => sortKey (key r).1)) := by
    refine mixes_strictWeak W _ ?_
    intro v hv
    obtain ⟨r, hr, rfl⟩ := List.mem_map.1 hv
    rw [hk r hr]; exact ho r hr
  refine ⟨?_, ?_⟩
  · refine List.Pairwise.imp_of_mem ?_ (asc_of_order W key sort hs rows hp hw)
    intro a b ha hb hab
    have hperm := (hs (rowLess W key false) rows).1
    rwa [hk a (hperm.mem_iff.1 ha), hk b (hperm.mem_iff.1 hb)] at hab
  · refine List.Pairwise.imp_of_mem ?_ (desc_of_order W key rows hp hw)
    intro a b ha hb hab
    have hperm := insertionSort_perm (rowLess W key true) rows
    rwa [hk a (hperm.mem_iff.1 ha), hk b (hperm.mem_iff.1 hb)] at hab

/-- The double nearest to a number.  The doubles are the numbers `± m * 2^e / 2^1074` with `m < 2^53`
and `e ≤ 2045`, where `m` is at least `2^52` unless `e` is zero.  From half a step above the largest
double on it is infinity; of two doubles that are equally near it is the one with an even `m`. -/
def NearestDouble (q : ℚ) : F64 → Prop
  | .nan => False
  | .inf neg => if neg then q ≤ -((2 ^ 54 - 1) * 2 ^ 2044 / 2 ^ 1074) else (2 ^ 54 - 1) * 2 ^ 2044 / 2 ^ 1074 ≤ q
  | .fin n m e =>
    (m < 2 ^ 53 ∧ (e = 0 ∨ 2 ^ 52 ≤ m) ∧ e ≤ 2045) ∧ |q| < (2 ^ 54 - 1) * 2 ^ 2044 / 2 ^ 1074 ∧
    ∃ x, number (.float (.fin n m e) : Val F64 Unit) = some x ∧
      ∀ n' m' e' y, m' < 2 ^ 53 → (e' = 0 ∨ 2 ^ 52 ≤ m') → e' ≤ 2045 →
        number (.float (.fin n' m' e') : Val F64 Unit) = some y →
        |x - q| ≤ |y - q| ∧ (y ≠ x → |y - q| = |x - q| → m % 2 = 0)

theorem nearestDouble {q : ℚ} {f : F64} (h : F64.Nearest q f) : NearestDouble q f := by
  cases f with
  | nan => exact h
  | inf b => exact h
  | fin n m e =>
    refine ⟨h.1, h.2.1, _, rfl, ?_⟩
    intro n' m' e' y h1 h2 h3 hy
    cases hy
    exact h.2.2 n' m' e' ⟨h1, h2, h3⟩

/-- An integer of at most `2^53` in absolute value, or a finite float, becomes a double that stands for
the same number. -/
theorem to_double {a : Val F64 X} {x : ℚ} (ha : number a = some x) (hm : Mixes a) :
    ∃ n m e, a.toFloat = some (.fin n m e) ∧ F64.rat n m e = x := by
  cases a with
  | int i =>
    cases ha
    obtain ⟨n, m, e, h1, -, h2⟩ := F64.ofI64_exact hm
    exact ⟨n, m, e, congrArg some h1, h2⟩
  | float f =>
    cases f with
    | fin n m e => cases ha; exact ⟨n, m, e, rfl, rfl⟩
    | _ => cases ha
  | _ => cases ha

/-- The sum, difference and product of two numbers of which one is a float are the doubles nearest to
the exact results: only one rounding takes place. -/
theorem C87_arithmetic (W : World F64 X) (a b : Val F64 X) (x y : ℚ) (ha : number a = some x) (hb : number b = some y)
    (hma : Mixes a) (hmb : Mixes b) (hf : (∃ f, a = .float f) ∨ ∃ f, b = .float f) :
    ∃ s d p, addV W a b = .float s ∧ NearestDouble (x + y) s ∧ subV W a b = .float d ∧ NearestDouble (x - y) d ∧
      mulV W a b = .ok (.float p) ∧ NearestDouble (x * y) p := by
  obtain ⟨n, m, e, h1, rfl⟩ := to_double ha hma
  obtain ⟨n', m', e', h2, rfl⟩ := to_double hb hmb
  have e1 : asFloat a = some (.fin n m e) := by
    cases a <;> first | exact h1 | cases hma
  have e2 : asFloat b = some (.fin n' m' e') := by
    cases b <;> first | exact h2 | cases hmb
  obtain ⟨r1, r2, r3⟩ := C62_mixed_numbers W a b _ _ e1 e2 hf
  exact ⟨_, _, _, r1, nearestDouble (F64.add_nearest n n' m e m' e'), r2, nearestDouble (F64.sub_nearest n n' m e m' e'),
    r3, nearestDouble (F64.mul_nearest n n' m e m' e')⟩

/-- The quotient of two numbers that are not zero is the double nearest to the exact quotient, also
for two integers. -/
theorem C87_quotient (W : World F64 X) (a b : Val F64 X) (x y : ℚ) (ha : number a = some x) (hb : number b = some y)
    (hma : Mixes a) (hmb : Mixes b) (hx : x ≠ 0) (hy : y ≠ 0) :
    ∃ q, divV W (.val a) (.val b) = .float q ∧ NearestDouble (x / y) q := by
  obtain ⟨n, m, e, h1, rfl⟩ := to_double ha hma
  obtain ⟨n', m', e', h2, rfl⟩ := to_double hb hmb
  have hz : ∀ n m e, F64.rat n m e ≠ 0 → FloatOps.eq (F64.fin n m e) (FloatOps.zero : F64) = false := by
    intro n m e h
    rw [Bool.eq_false_iff]
    intro hc
    apply h
    have h0 : (FloatOps.zero : F64) = .fin false 0 0 := by decide +kernel
    rw [h0] at hc
    rw [(F64.eq_rat _ _ _ _ _ _).1 hc]
    unfold F64.rat; simp
  refine ⟨_, ?_, nearestDouble (F64.div_nearest n n' m e m' e' hy)⟩
  have z1 := hz _ _ _ hx
  have z2 := hz _ _ _ hy
  rw [← numOf_toFloat] at h1 h2
  by_cases hc : (∃ f, a = .float f) ∨ ¬ ∃ g, b = .float g
  · rw [C03_div_partial W a b _ _ h1 h2 hc, z2, if_neg (by simp)]; rfl
  · have hna : ¬ ∃ f, a = .float f := fun h => hc (.inl h)
    obtain ⟨g, rfl⟩ : ∃ g, b = .float g := Classical.not_not.1 fun h => hc (.inr h)
    cases h2
    rw [C03_div_by_float W a _ _ h1 hna, z1, if_neg (by simp)]; rfl

/-- Beyond `2^53` two different numbers are called equal, and neither is less. -/
theorem C87_beyond_refuted (W : World F64 X) :
    let i : Val F64 X := .int (i64 9007199254740993)
    let f : Val F64 X := .float (.fin false (2 ^ 52) 1075)
    number i = some 9007199254740993 ∧ number f = some 9007199254740992 ∧
    eqV W i f = true ∧ ltV W f i = false ∧ gtV W i f = false := by
  refine ⟨?_, ?_, ?_, ?_, ?_⟩
  · have : (i64 9007199254740993).toInt = 9007199254740993 := by decide
    simp only [number, this]; norm_num
  · simp only [number]
    congr 1
    norm_num
  · show FloatOps.eq _ _ = true
    decide +kernel
  · show FloatOps.lt _ _ = false
    decide +kernel
  · show FloatOps.lt _ _ = false
    decide +kernel

/-! The hypotheses can be met: 3 and 2.5. -/

example : number (.int (i64 3) : Val F64 Unit) = some 3 := by
  have : (i64 3).toInt = 3 := by decide
  simp only [number, this]; norm_num
example : number (.float (.fin false (5 * 2 ^ 50) 1023) : Val F64 Unit) = some (5 / 2) := by
  simp only [number]
  congr 1
  norm_num
example : Mixes (.int (i64 3) : Val F64 Unit) ∧ Mixes (.float (.fin false (5 * 2 ^ 50) 1023) : Val F64 Unit) :=
  ⟨by show Int.natAbs _ ≤ _; decide, by simp [Mixes]⟩
example : Fit (.int (i64 3) : Val F64 Unit) (.float (.fin false (5 * 2 ^ 50) 1023)) := .inl (by decide)
example : ltV ({} : World F64 Unit) (.int (i64 3)) (.float (.fin false (5 * 2 ^ 50) 1023)) = false := by decide +kernel

end Vfilter.MixedNum
