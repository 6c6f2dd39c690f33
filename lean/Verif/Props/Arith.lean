import Verif.Ops
import Verif.F64
/-!
# C01 - C06: arithmetic and truth values
-/

namespace Vfilter
open FloatOps

section
variable {F X : Type} [FloatOps F]

/-! ## C01 NULL absorbs arithmetic -/

/-- NULL on either side of `-` and `*`, on the left of `+`, on the left of `/` and a
(non lazy) NULL on the right of `/` give NULL, for every other operand and every set
of registered implementations. -/
theorem C01_null_absorbs (W : World F X) (v : Val F X) (o : Opnd F X) :
    addV W .null v = .null ∧
    subV W .null v = .null ∧ subV W v .null = .null ∧
    mulV W .null v = .ok .null ∧ mulV W v .null = .ok .null ∧
    divV W (.val .null) o = .null ∧ divV W (.lazy .null) o = .null ∧
    divV W o (.val .null) = .null := by
  refine ⟨rfl, rfl, ?_, rfl, ?_, rfl, rfl, ?_⟩
  · cases v <;> simp [subV, Val.toFloat]
  · cases v <;> simp [mulV, Val.toFloat, Val.toInt64]
  · cases o <;> rename_i v <;> cases v <;> simp [divV, Opnd.reduce, Opnd.raw, Val.toFloat]

/-- `v + NULL` for scalars and times is NULL when no registered `Add` implementation
claims the pair; for integers, floats and strings this is the code's default path. -/
theorem C01_scalar_plus_null (W : World F X) (v : Val F X)
    (hv : (∃ b, v = .bool b) ∨ (∃ i, v = .int i) ∨ (∃ f, v = .float f) ∨ (∃ s, v = .str s) ∨
          (∃ t, v = .time t))
    (hreg : ∀ i ∈ W.addI, i.applicable v .null = false) :
    addV W v .null = .null := by
  have hs : search2 W.addI v .null = none := by
    generalize W.addI = l at hreg
    induction l with
    | nil => rfl
    | cons i r ih => simp [search2, hreg i (by simp)]; exact ih (fun j hj => hreg j (by simp [hj]))
  rcases hv with ⟨b, rfl⟩ | ⟨i, rfl⟩ | ⟨f, rfl⟩ | ⟨s, rfl⟩ | ⟨t, rfl⟩ <;>
    simp [addV, addSwitch, intAdd, Val.toFloat, hs, storedQueryAdd, Val.isArr]

/-- `array + NULL` appends one NULL when no registered implementation claims it. -/
theorem C01_array_plus_null (W : World F X) (l : List (Val F X))
    (hreg : ∀ i ∈ W.addI, i.applicable (.arr l) .null = false) :
    addV W (.arr l) .null = .arr (l ++ [.null]) := by
  have hs : search2 W.addI (.arr l) .null = none := by
    generalize W.addI = r at hreg
    induction r with
    | nil => rfl
    | cons i r ih => simp [search2, hreg i (by simp)]; exact ih (fun j hj => hreg j (by simp [hj]))
  simp [addV, addSwitch, hs, storedQueryAdd, Val.isArr, convertToSlice]

/-- An implementation applicable to everything. -/
def greedy (r : Val F X) : BinImpl (Val F X) (Val F X) := ⟨fun _ _ => true, fun _ _ => r⟩

end

-- Non vacuity: NULL wins even over an implementation that claims every pair.
example : subV ({ subI := [greedy (.int 7)] } : World F64 Unit) (.str (bs "a")) .null = .null := rfl
example : addV ({} : World F64 Unit) (.arr [.int 1]) .null = .arr [.int 1, .null] := rfl

/-- The full claim "whatever is registered" fails for `v + NULL`: a registered `Add`
implementation is consulted for `"a" + NULL`. -/
theorem C01_plus_null_registered_refuted :
    ¬ ∀ (W : World F64 Unit) (s : Str), addV W (.str s) .null = .null := by
  intro h
  have := h { addI := [greedy (.int 7)] } []
  simp [addV, addSwitch, search2, greedy] at this

/-- The full claim also fails when the NULL divisor arrives as a lazy value: `Div`
does not reduce its right operand, so a registered implementation is consulted. -/
theorem C01_lazy_null_divisor_refuted :
    ¬ ∀ (W : World F64 Unit) (v : Val F64 Unit), divV W (.val v) (.lazy .null) = .null := by
  intro h
  have := h { divI := [greedy (.int 7)] } (.int 1)
  simp [divV, Opnd.reduce, Opnd.raw, search2, greedy] at this

/-! ## C02 Integer arithmetic -/

section
variable {F X : Type} [FloatOps F]

/-- `z` is the mathematical result `r` modulo 2^64, exactly when it fits. -/
def ExactMod64 (z : I64) (r : Int) : Prop :=
  (∃ k : Int, z.toInt = r + k * 2 ^ 64) ∧ (-(2 ^ 63) ≤ r → r < 2 ^ 63 → z.toInt = r)

theorem exactMod64_of_bmod {z : I64} {r : Int} (h : z.toInt = r.bmod (2 ^ 64)) : ExactMod64 z r := by
  refine ⟨⟨-(Int.bdiv r (2 ^ 64)), ?_⟩, ?_⟩
  · have := Int.bmod_add_bdiv r (2 ^ 64)
    rw [h]; omega
  · intro h1 h2
    rw [h]; exact Int.bmod_eq_of_le (by omega) (by omega)

theorem C02_int_exact (W : World F X) (x y : I64) :
    (∃ z, addV W (.int x) (.int y) = .int z ∧ ExactMod64 z (x.toInt + y.toInt)) ∧
    (∃ z, subV W (.int x) (.int y) = .int z ∧ ExactMod64 z (x.toInt - y.toInt)) ∧
    (∃ z, mulV W (.int x) (.int y) = .ok (.int z) ∧ ExactMod64 z (x.toInt * y.toInt)) := by
  refine ⟨⟨x + y, rfl, ?_⟩, ⟨x - y, rfl, ?_⟩, ⟨x * y, rfl, ?_⟩⟩
  · exact exactMod64_of_bmod (BitVec.toInt_add x y)
  · exact exactMod64_of_bmod (BitVec.toInt_sub (x := x) (y := y))
  · exact exactMod64_of_bmod (BitVec.toInt_mul x y)

end

example : addV ({} : World F64 Unit) (.int (i64 9223372036854775807)) (.int 1) =
    .int (i64 (-9223372036854775808)) := rfl
example : mulV ({} : World F64 Unit) (.int (i64 (-3))) (.int (i64 5)) = .ok (.int (i64 (-15))) := rfl

/-! ## C03 Division -/

section
variable {F X : Type} [FloatOps F]

/-- The number a numeric operand stands for. -/
def numOf : Val F X → Option F
  | .int i => some (ofI64 i)
  | .float f => some f
  | .bool true => some (ofI64 1#64)
  | .bool false => some (ofI64 0#64)
  | _ => none

theorem numOf_toFloat (v : Val F X) : numOf v = v.toFloat := by
  cases v <;> simp [numOf, Val.toFloat]
  rename_i b; cases b <;> simp

/-- Division is NULL exactly for a zero divisor and the quotient otherwise, unless the
divisor is a float and the dividend is not.  What is missing from the full claim: the
excluded case (see `C03_refuted`) and lazy divisors (`C03_lazy_refuted`). -/
theorem C03_div_partial (W : World F X) (a b : Val F X) (x y : F)
    (ha : numOf a = some x) (hb : numOf b = some y)
    (hcase : (∃ f, a = .float f) ∨ ¬ ∃ g, b = .float g) :
    divV W (.val a) (.val b) = if eq y zero then .null else .float (div x y) := by
  rw [numOf_toFloat] at ha hb
  cases a <;> cases b <;>
    simp_all [divV, Opnd.reduce, Opnd.raw, Val.toFloat]

/-- What the code does in the excluded case: it tests the dividend. -/
theorem C03_div_by_float (W : World F X) (a : Val F X) (x y : F)
    (ha : numOf a = some x) (hnf : ¬ ∃ f, a = .float f) :
    divV W (.val a) (.val (.float y)) = if eq x zero then .null else .float (div x y) := by
  rw [numOf_toFloat] at ha
  cases a <;> simp_all [divV, Opnd.reduce, Opnd.raw, Val.toFloat]

end

example : divV ({} : World F64 Unit) (.val (.int (i64 7))) (.val (.int 0)) = .null := by
  rw [C03_div_partial _ _ _ _ _ rfl rfl (by simp)]
  rw [if_pos]; decide +kernel
example : (∃ f : F64, (Val.float (F64.ofI64 3) : Val F64 Unit) = .float f) := ⟨_, rfl⟩

/-- `1 / 0.0` is not NULL, and `0 / 2.0` is NULL although the divisor is not zero. -/
theorem C03_refuted :
    divV ({} : World F64 Unit) (.val (.int 1)) (.val (.float (F64.ofI64 0))) ≠ .null ∧
    divV ({} : World F64 Unit) (.val (.int 0)) (.val (.float (F64.ofI64 2))) = .null ∧
    eq (F64.ofI64 2) (zero : F64) = false := by
  refine ⟨?_, ?_, by decide +kernel⟩
  · rw [C03_div_by_float _ _ _ _ rfl (by simp)]
    rw [if_neg]
    · simp
    · decide +kernel
  · rw [C03_div_by_float _ _ _ _ rfl (by simp)]
    rw [if_pos]; decide +kernel

/-- A lazy divisor makes the quotient NULL whatever its value. -/
theorem C03_lazy_refuted (v : Val F64 Unit) (x : F64) :
    divV ({} : World F64 Unit) (.val (.float x)) (.lazy v) = .null := by
  simp [divV, Opnd.reduce, Opnd.raw, search2, Val.toFloat]

/-! ## C04 Concatenation -/

section
variable {F X : Type} [FloatOps F]

theorem C04_string_concat (W : World F X) (s t : Str) :
    addV W (.str s) (.str t) =
      if s.length + t.length ≤ 100000000 then .str (s ++ t) else .null := by
  simp only [addV, addSwitch]
  by_cases h : s.length + t.length ≤ 100000000
  · rw [if_neg (by unfold memLimit; omega), if_pos h]
  · rw [if_pos (by unfold memLimit; omega), if_neg h]

/-- No registered `Add` implementation claims the pair. -/
def NoAdd (W : World F X) (a b : Val F X) : Prop := ∀ i ∈ W.addI, i.applicable a b = false

omit [FloatOps F] in
theorem NoAdd.search {W : World F X} {a b : Val F X} (h : NoAdd W a b) : search2 W.addI a b = none := by
  unfold NoAdd at h
  generalize W.addI = r at h
  induction r with
  | nil => rfl
  | cons i r ih => simp [search2, h i (by simp)]; exact ih (fun j hj => h j (by simp [hj]))

/-- A built-in value that is neither an array nor a stored query. -/
def NonSeq : Val F X → Prop
  | .arr _ => False
  | .query _ => False
  | _ => True

theorem C04_array_concat (W : World F X) (l l' : List (Val F X)) (h : NoAdd W (.arr l) (.arr l')) :
    addV W (.arr l) (.arr l') = .arr (l ++ l') := by
  simp [addV, addSwitch, h.search, storedQueryAdd, Val.isArr, convertToSlice]

theorem C04_array_append (W : World F X) (l : List (Val F X)) (v : Val F X) (hv : NonSeq v)
    (h : NoAdd W (.arr l) v) : addV W (.arr l) v = .arr (l ++ [v]) := by
  cases v <;> simp_all [addV, addSwitch, h.search, storedQueryAdd, Val.isArr, convertToSlice, NonSeq]

theorem C04_array_prepend (W : World F X) (l : List (Val F X)) (v : Val F X) (hv : NonSeq v)
    (hn : v ≠ .null) (h : NoAdd W v (.arr l)) : addV W v (.arr l) = .arr (v :: l) := by
  cases v <;> simp_all [addV, addSwitch, h.search, storedQueryAdd, Val.isArr, convertToSlice, NonSeq,
    intAdd, Val.toFloat]

/-- Array addition is associative and lengths add up. -/
theorem C04_array_assoc (W : World F X) (hreg : ∀ a b, NoAdd W a b) (a b c : List (Val F X)) :
    addV W (addV W (.arr a) (.arr b)) (.arr c) = addV W (.arr a) (addV W (.arr b) (.arr c)) ∧
    ∃ r, addV W (addV W (.arr a) (.arr b)) (.arr c) = .arr r ∧
      r.length = a.length + b.length + c.length := by
  simp only [C04_array_concat W _ _ (hreg _ _)]
  refine ⟨by simp, _, rfl, by simp; omega⟩

/-- An array and a query: the rows of the query are the elements, on either side. -/
theorem C04_array_query (W : World F X) (l r : List (Val F X)) :
    (NoAdd W (.arr l) (.query r) → addV W (.arr l) (.query r) = .arr (l ++ r)) ∧
    (NoAdd W (.query r) (.arr l) → addV W (.query r) (.arr l) = .arr (r ++ l)) := by
  refine ⟨fun h => ?_, fun h => ?_⟩ <;>
    simp [addV, addSwitch, h.search, storedQueryAdd, Val.isArr, convertToSlice]

/-- Adding queries adds the arrays of their rows. -/
theorem C04_query_concat (W : World F X) (r r' : List (Val F X)) (h : NoAdd W (.query r) (.query r')) :
    addV W (.query r) (.query r') = .arr (r ++ r') := by
  simp [addV, addSwitch, h.search, storedQueryAdd]

end

example : addV ({} : World F64 Unit) (.arr [.int 1]) (.arr [.str (bs "x"), .null]) =
    .arr [.int 1, .str (bs "x"), .null] := rfl
example : addV ({} : World F64 Unit) (.int 1) (.arr [.int 2]) = .arr [.int 1, .int 2] := rfl

/-- The one non-array value that is not concatenated: NULL on the left. -/
theorem C04_null_prepend_refuted :
    addV ({} : World F64 Unit) .null (.arr [.int 2]) = .null := rfl

/-! ## C62 Mixed number arithmetic -/

section
variable {F X : Type} [LawfulFloat F]

/-- The float a number stands for next to a float. -/
def asFloat : Val F X → Option F
  | .int i => some (ofI64 i)
  | .float f => some f
  | _ => none

/-- As soon as one of two numbers is a float, `+`, `-` and `*` are the float operations on
the two numbers, in the order they are written, whatever is registered. -/
theorem C62_mixed_numbers (W : World F X) (a b : Val F X) (x y : F)
    (ha : asFloat a = some x) (hb : asFloat b = some y)
    (hf : (∃ f, a = .float f) ∨ (∃ f, b = .float f)) :
    addV W a b = .float (add x y) ∧ subV W a b = .float (sub x y) ∧
    mulV W a b = .ok (.float (mul x y)) := by
  cases a <;> simp only [asFloat, reduceCtorEq] at ha <;> cases ha <;>
    cases b <;> simp only [asFloat, reduceCtorEq] at hb <;> cases hb
  · simp at hf
  · refine ⟨rfl, rfl, ?_⟩
    simp only [mulV, Val.toFloat]
    rw [LawfulFloat.mul_comm]
  · exact ⟨rfl, rfl, rfl⟩
  · exact ⟨rfl, rfl, rfl⟩

end

example : subV ({} : World F64 Unit) (.int 5) (.float (F64.ofI64 3)) =
    .float (sub (F64.ofI64 5 : F64) (F64.ofI64 3)) :=
  (C62_mixed_numbers _ _ _ _ _ rfl rfl (Or.inr ⟨_, rfl⟩)).2.1

/-! ## C05 String repetition -/

section
variable {F X : Type} [FloatOps F]

/-- For a non negative count whose true product with the length fits in 64 bits the
result is exactly as claimed.  Missing from the full claim: negative counts and
products of 2^64 and more, see `C05_panics_iff` and `C05_refuted`. -/
theorem C05_repeat_partial (W : World F X) (s : Str) (n : I64)
    (hn : 0 ≤ n.toInt) (hfit : (s.length : Int) * n.toInt < 2 ^ 64) :
    mulV W (.str s) (.int n) =
      if (s.length : Int) * n.toInt ≤ 100000000
      then .ok (.str (List.replicate n.toInt.toNat s).flatten) else .ok .null := by
  have hN : n.toInt = n.toNat := by
    rw [BitVec.toInt_eq_toNat_cond] at hn ⊢
    split at hn <;> rename_i h
    · rw [if_pos h]
    · omega
  have hcast : (s.length : Int) * (n.toNat : Int) = ((s.length * n.toNat : Nat) : Int) := by simp
  have hfit' : s.length * n.toNat < 2 ^ 64 := by rw [hN, hcast] at hfit; omega
  have hmem : (BitVec.ofNat 64 s.length * n).toNat = s.length * n.toNat := by
    rw [BitVec.toNat_mul, BitVec.toNat_ofNat, Nat.mod_mul_mod, Nat.mod_eq_of_lt hfit']
  simp only [mulV, Val.toInt64, hmem]
  rw [hN, hcast]
  by_cases h : s.length * n.toNat ≤ 100000000
  · rw [if_neg (by unfold memLimit; omega), if_pos (by omega)]
    simp only [goRepeat, hN]
    rw [if_neg (by omega), if_neg (by omega)]
    simp
  · rw [if_pos (by unfold memLimit; omega), if_neg (by omega)]

/-- Exactly when evaluation crashes (for strings that fit in memory). -/
theorem C05_panics_iff (W : World F X) (s : Str) (n : I64) :
    mulV W (.str s) (.int n) = .panic ↔
      (s.length * n.toNat) % 2 ^ 64 ≤ 100000000 ∧
      (n.toInt < 0 ∨ 2 ^ 63 ≤ s.length * n.toNat) := by
  have hmem : (BitVec.ofNat 64 s.length * n).toNat = s.length * n.toNat % 2 ^ 64 := by
    rw [BitVec.toNat_mul, BitVec.toNat_ofNat, Nat.mod_mul_mod]
  simp only [mulV, Val.toInt64, hmem]
  by_cases h : s.length * n.toNat % 2 ^ 64 ≤ 100000000
  · rw [if_neg (by unfold memLimit; omega)]
    simp only [goRepeat, h, true_and]
    by_cases h1 : n.toInt < 0
    · simp [h1]
    · by_cases h2 : s.length * n.toNat > 2 ^ 63 - 1
      · rw [if_neg h1, if_pos h2]
        exact iff_of_true rfl (Or.inr (by omega))
      · rw [if_neg h1, if_neg h2]
        exact iff_of_false (by simp) (by omega)
  · rw [if_pos (by unfold memLimit; omega)]; simp [h]

/-- The claimed result. -/
def repeatSpec (s : Str) (n : Int) : Outcome (Val F X) :=
  if 0 ≤ n ∧ (s.length : Int) * n ≤ 100000000
  then .ok (.str (List.replicate n.toNat s).flatten) else .ok .null

/-- For all strings and all counts: the claimed result, unless evaluation crashes. -/
theorem C05_repeat_or_panic_partial (W : World F X) (s : Str) (n : I64) :
    mulV W (.str s) (.int n) = .panic ∨ mulV W (.str s) (.int n) = repeatSpec s n.toInt := by
  by_cases hp : mulV W (.str s) (.int n) = .panic
  · exact Or.inl hp
  · refine Or.inr ?_
    have hmem : (BitVec.ofNat 64 s.length * n).toNat = s.length * n.toNat % 2 ^ 64 := by
      rw [BitVec.toNat_mul, BitVec.toNat_ofNat, Nat.mod_mul_mod]
    rw [C05_panics_iff] at hp
    by_cases h : s.length * n.toNat % 2 ^ 64 ≤ 100000000
    · have h1 : ¬ n.toInt < 0 := by omega
      have h2 : ¬ 2 ^ 63 ≤ s.length * n.toNat := by omega
      have hcast : (s.length : Int) * (n.toNat : Int) = ((s.length * n.toNat : Nat) : Int) := by simp
      have hN : n.toInt = n.toNat := by
        rw [BitVec.toInt_eq_toNat_cond] at h1 ⊢
        split at h1 <;> rename_i h
        · rw [if_pos h]
        · omega
      rw [C05_repeat_partial W s n (by omega) (by rw [hN, hcast]; omega)]
      unfold repeatSpec
      rw [hN, hcast, if_pos (by omega), if_pos (by omega)]
    · simp only [mulV, Val.toInt64, hmem]
      rw [if_pos (by unfold memLimit; omega), repeatSpec, if_neg]
      rintro ⟨h1, h2⟩
      have hcast : (s.length : Int) * (n.toNat : Int) = ((s.length * n.toNat : Nat) : Int) := by simp
      have hN : n.toInt = n.toNat := by
        rw [BitVec.toInt_eq_toNat_cond] at h1 ⊢
        split at h1 <;> rename_i h
        · rw [if_pos h]
        · omega
      rw [hN, hcast] at h2
      omega

end

example : mulV ({} : World F64 Unit) (.str (bs "a")) (.int (i64 (-1))) = repeatSpec (bs "a") (-1) := by
  rcases C05_repeat_or_panic_partial ({} : World F64 Unit) (bs "a") (i64 (-1)) with h | h
  · exact absurd ((C05_panics_iff _ _ _).1 h) (by decide)
  · exact h
example : mulV ({} : World F64 Unit) (.str (bs "ab")) (.int (i64 3)) = .ok (.str (bs "ababab")) := by
  rw [C05_repeat_partial _ _ _ (by decide) (by decide)]; rfl
example : mulV ({} : World F64 Unit) (.str (bs "a")) (.int (i64 100000001)) = .ok .null := by
  rw [C05_repeat_partial _ _ _ (by decide) (by decide)]; rfl

/-- `"" * -1` and `"ab" * -9223372036854775808` and `"aaaa" * 4611686018427387904` crash. -/
theorem C05_refuted :
    mulV ({} : World F64 Unit) (.str []) (.int (i64 (-1))) = .panic ∧
    mulV ({} : World F64 Unit) (.str (bs "ab")) (.int (i64 (-9223372036854775808))) = .panic ∧
    mulV ({} : World F64 Unit) (.str (bs "aaaa")) (.int (i64 4611686018427387904)) = .panic := by
  simp only [C05_panics_iff]; decide

/-! ## C06 Truth value -/

section
variable {F X : Type} [FloatOps F]

/-- The implementation registered last among those that claim `a`; `hist` is the
registration history, oldest first. -/
def lastApplicable {R : Type} (hist : List (UnImpl (Val F X) R)) (a : Val F X) :
    Option (UnImpl (Val F X) R) := (hist.filter (fun i => i.applicable a)).getLast?

theorem addImpl_eq {α : Type} (l e : List α) : addImpl l e = e.reverse ++ l := by
  unfold addImpl
  induction e generalizing l with
  | nil => rfl
  | cons x xs ih => simp [ih]

omit [FloatOps F] in
theorem search1_eq {R : Type} (l : List (UnImpl (Val F X) R)) (a : Val F X) :
    search1 l a = ((l.filter (fun i => i.applicable a)).head?).map (fun i => i.run a) := by
  induction l with
  | nil => rfl
  | cons i r ih =>
    by_cases h : i.applicable a = true
    · simp [search1, h]
    · simp [search1, h, ih]

omit [FloatOps F] in
theorem search1_last {R : Type} (hist : List (UnImpl (Val F X) R)) (a : Val F X) :
    search1 (addImpl [] hist) a = (lastApplicable hist a).map (fun i => i.run a) := by
  rw [search1_eq, addImpl_eq, lastApplicable]
  simp [List.filter_reverse, List.head?_reverse]

/-- The truth value table. -/
theorem C06_truth (W : World F X) (hist : List (UnImpl (Val F X) Bool))
    (hW : W.boolI = addImpl [] hist) :
    (truthy W .null = false) ∧
    (∀ b, truthy W (.bool b) = b) ∧
    (∀ i, truthy W (.int i) = true ↔ 0 < i.toInt) ∧
    (∀ f, truthy W (.float f) = true ↔ lt zero f = true) ∧
    (∀ s, truthy W (.str s) = true ↔ s ≠ []) ∧
    (∀ l, truthy W (.arr l) = true ↔ l ≠ []) ∧
    (∀ d, truthy W (.dict d) = true ↔ d ≠ []) ∧
    (∀ r, lastApplicable hist (.query r) = none → (truthy W (.query r) = true ↔ r ≠ [])) ∧
    (∀ x i, lastApplicable hist (.obj x) = some i → truthy W (.obj x) = i.run (.obj x)) ∧
    (∀ x, lastApplicable hist (.obj x) = none → truthy W (.obj x) = false) ∧
    (∀ t i, lastApplicable hist (.time t) = some i → truthy W (.time t) = i.run (.time t)) ∧
    (∀ t, lastApplicable hist (.time t) = none → truthy W (.time t) = false) := by
  refine ⟨rfl, fun _ => rfl, ?_, fun _ => Iff.rfl, ?_, ?_, ?_, ?_, ?_, ?_, ?_, ?_⟩
  · intro i; simp [truthy]
  · intro s; cases s <;> simp [truthy]
  · intro s; cases s <;> simp [truthy]
  · intro s; cases s <;> simp [truthy]
  all_goals intros; simp_all [truthy, search1_last]
  rename_i r _; cases r <;> simp

end

/-- An implementation that says yes to everything. -/
def yes : UnImpl (Val F64 Unit) Bool := ⟨fun _ => true, fun _ => true⟩

example : lastApplicable [yes] (.obj ()) = some yes ∧
    truthy ({ boolI := addImpl [] [yes] } : World F64 Unit) (.obj ()) = true := by
  constructor <;> rfl
example : truthy ({} : World F64 Unit) (.int (i64 (-1))) = false := rfl

end Vfilter
