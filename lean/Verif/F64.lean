import Verif.Float
/-!
# A concrete IEEE-754 binary64 model

Used to instantiate `FloatOps`/`LawfulFloat` (non vacuity) and to state concrete
counterexamples.  A finite double is `± m * 2^e * 2^-1074`; every finite double is
an integer multiple of `2^-1074`, so comparison is comparison of integers.
Rounding is to nearest, ties to even.
-/

namespace Vfilter

inductive F64 where
  | nan
  | inf (neg : Bool)
  | fin (neg : Bool) (m e : Nat)
  deriving DecidableEq, Repr, Inhabited

namespace F64

/-- Signed value in units of `2^-1074`. -/
def sc (neg : Bool) (m e : Nat) : Int := if neg then -((m * 2 ^ e : Nat) : Int) else ((m * 2 ^ e : Nat) : Int)

/-- Number of binary digits. -/
def bits (n : Nat) : Nat := if n = 0 then 0 else n.log2 + 1

/-- Round half to even of `num / den`. -/
def rhe (num den : Nat) : Nat :=
  let q := num / den
  let r := num % den
  if den < 2 * r then q + 1
  else if 2 * r = den then (if q % 2 = 1 then q + 1 else q)
  else q

/-- Exponent used when rounding `num/den` (units of `2^-1074`). -/
def expo (num den : Nat) : Nat := bits (num / den) - 53

/-- Round the positive rational `num/den` (units of `2^-1074`) to a double. -/
def round (neg : Bool) (num den : Nat) : F64 :=
  let e := expo num den
  let m := rhe num (den * 2 ^ e)
  let me : Nat × Nat := if m = 2 ^ 53 then (2 ^ 52, e + 1) else (m, e)
  if 2045 < me.2 then .inf neg else .fin neg me.1 me.2

def isNeg (i : Int) : Bool := decide (i < 0)

def ofI64 (i : I64) : F64 := round (isNeg i.toInt) (i.toInt.natAbs * 2 ^ 1074) 1

/-- Truncation; values out of range give the minimum integer, as on amd64. -/
def toI64 : F64 → I64
  | .fin neg m e =>
    let t : Nat := m * 2 ^ e / 2 ^ 1074
    let v : Int := if neg then -(t : Int) else t
    if -(2 ^ 63 : Int) ≤ v ∧ v < 2 ^ 63 then BitVec.ofInt 64 v else BitVec.ofInt 64 (-(2 ^ 63))
  | _ => BitVec.ofInt 64 (-(2 ^ 63))

def neg : F64 → F64
  | .nan => .nan
  | .inf n => .inf (!n)
  | .fin n m e => .fin (!n) m e

def add : F64 → F64 → F64
  | .nan, _ => .nan
  | _, .nan => .nan
  | .inf a, .inf b => if a = b then .inf a else .nan
  | .inf a, _ => .inf a
  | _, .inf b => .inf b
  | .fin n m e, .fin n' m' e' =>
    let s := sc n m e + sc n' m' e'
    if s = 0 then .fin (n && n') 0 0 else round (isNeg s) s.natAbs 1

def sub (a b : F64) : F64 := add a (neg b)

def mul : F64 → F64 → F64
  | .nan, _ => .nan
  | _, .nan => .nan
  | .inf a, .inf b => .inf (a != b)
  | .inf a, .fin n m _ => if m = 0 then .nan else .inf (a != n)
  | .fin n m _, .inf b => if m = 0 then .nan else .inf (n != b)
  | .fin n m e, .fin n' m' e' => round (n != n') (m * 2 ^ e * (m' * 2 ^ e')) (2 ^ 1074)

def div : F64 → F64 → F64
  | .nan, _ => .nan
  | _, .nan => .nan
  | .inf _, .inf _ => .nan
  | .inf a, .fin n _ _ => .inf (a != n)
  | .fin n _ _, .inf b => .fin (n != b) 0 0
  | .fin n m e, .fin n' m' e' =>
    if m' = 0 then (if m = 0 then .nan else .inf (n != n'))
    else round (n != n') (m * 2 ^ e * 2 ^ 1074) (m' * 2 ^ e')

def lt : F64 → F64 → Bool
  | .nan, _ => false
  | _, .nan => false
  | .inf a, .inf b => a && !b
  | .inf a, .fin _ _ _ => a
  | .fin _ _ _, .inf b => !b
  | .fin n m e, .fin n' m' e' => decide (sc n m e < sc n' m' e')

def eq : F64 → F64 → Bool
  | .nan, _ => false
  | _, .nan => false
  | .inf a, .inf b => a == b
  | .inf _, .fin _ _ _ => false
  | .fin _ _ _, .inf _ => false
  | .fin n m e, .fin n' m' e' => decide (sc n m e = sc n' m' e')

/-- Fractional part, exact (`math.Modf`). -/
def frac : F64 → F64
  | .fin n m e => round n (m * 2 ^ e % 2 ^ 1074) 1
  | x => x

/-- `time.Unix(int64(sec), int64(frac*1e9))` in nanoseconds. -/
def unixNs (f : F64) : Int :=
  (toI64 f).toInt * 1000000000 + (toI64 (mul (frac f) (ofI64 (BitVec.ofNat 64 1000000000)))).toInt

instance : FloatOps F64 where
  ofI64 := ofI64
  toI64 := toI64
  add := add
  sub := sub
  mul := mul
  div := div
  neg := neg
  lt := lt
  eq := eq
  unixNs := unixNs

/-! ## Monotonicity of the int64 conversion -/

theorem bits_lt (n : Nat) : n < 2 ^ bits n := by
  unfold bits; split
  · simp_all
  · exact Nat.lt_log2_self

theorem le_bits {n : Nat} (h : n ≠ 0) : 2 ^ (bits n - 1) ≤ n := by
  unfold bits; simp only [h, if_false, Nat.add_sub_cancel]
  exact Nat.log2_self_le h

theorem bits_mono {a b : Nat} (h : a ≤ b) : bits a ≤ bits b := by
  by_cases ha : a = 0
  · simp [bits, ha]
  · have hb : b ≠ 0 := by omega
    have h1 := le_bits ha
    have h2 := bits_lt b
    have h3 : 2 ^ (bits a - 1) < 2 ^ bits b := by omega
    have := (Nat.pow_lt_pow_iff_right (a := 2) (by omega)).1 h3
    omega

theorem rhe_mono {a b d : Nat} (h : a ≤ b) : rhe a d ≤ rhe b d := by
  by_cases hd : d = 0
  · subst hd
    simp only [rhe, Nat.div_zero, Nat.mod_zero]
    by_cases ha : 0 < 2 * a
    · have hb : 0 < 2 * b := by omega
      simp [ha, hb]
    · have : a = 0 := by omega
      subst this
      simp
  · have hq : a / d ≤ b / d := Nat.div_le_div_right h
    have ea := Nat.div_add_mod a d
    have eb := Nat.div_add_mod b d
    by_cases hlt : a / d < b / d
    · unfold rhe; simp only
      repeat' split
      all_goals omega
    · have heq : a / d = b / d := by omega
      have hr : a % d ≤ b % d := by rw [heq] at ea; omega
      unfold rhe; simp only [heq]
      repeat' split
      all_goals omega

theorem rhe_ge (a d : Nat) : a / d ≤ rhe a d := by
  unfold rhe; simp only; 
  repeat' split
  all_goals omega

theorem rhe_le_of_le_mul {a d k : Nat} (hd : 0 < d) (h : a ≤ k * d) : rhe a d ≤ k := by
  have h1 : rhe a d ≤ rhe (k * d) d := rhe_mono h
  have h2 : rhe (k * d) d = k := by
    unfold rhe; simp [Nat.mul_div_cancel _ hd]; omega
  omega

/-- The magnitude `round` produces (in units of `2^-1074`). -/
def rmag (n : Nat) : Nat := rhe n (1 * 2 ^ expo n 1) * 2 ^ expo n 1

theorem rmag_le (n : Nat) : rmag n ≤ 2 ^ bits n := by
  unfold rmag
  have hb := bits_lt n
  have he : expo n 1 = bits n - 53 := by simp [expo]
  by_cases hc : 53 ≤ bits n
  · have : n ≤ 2 ^ 53 * (1 * 2 ^ expo n 1) := by
      rw [he, Nat.one_mul, ← Nat.pow_add]
      have : 53 + (bits n - 53) = bits n := by omega
      rw [this]; omega
    have h2 := rhe_le_of_le_mul (by simp [Nat.pow_pos]) this
    calc _ ≤ 2 ^ 53 * 2 ^ expo n 1 := Nat.mul_le_mul_right _ h2
      _ = 2 ^ bits n := by rw [he, ← Nat.pow_add]; congr 1; omega
  · have h0 : expo n 1 = 0 := by omega
    have h2 := rhe_le_of_le_mul (a := n) (d := 1 * 2 ^ expo n 1) (k := 2 ^ bits n) (by simp [h0])
      (by simp [h0]; omega)
    simpa [h0] using h2

theorem le_rmag {n : Nat} (h : n ≠ 0) : 2 ^ (bits n - 1) ≤ rmag n := by
  unfold rmag
  have hb := le_bits h
  have he : expo n 1 = bits n - 53 := by simp [expo]
  by_cases hc : 53 ≤ bits n
  · have h1 : 2 ^ 52 ≤ n / (1 * 2 ^ expo n 1) := by
      rw [Nat.le_div_iff_mul_le (by simp [Nat.pow_pos])]
      rw [he, Nat.one_mul, ← Nat.pow_add]
      have : 52 + (bits n - 53) = bits n - 1 := by omega
      rw [this]; exact hb
    have h2 := rhe_ge n (1 * 2 ^ expo n 1)
    calc 2 ^ (bits n - 1) = 2 ^ 52 * 2 ^ expo n 1 := by rw [he, ← Nat.pow_add]; congr 1; omega
      _ ≤ _ := Nat.mul_le_mul_right _ (by omega)
  · have h0 : expo n 1 = 0 := by omega
    have h2 := rhe_ge n (1 * 2 ^ expo n 1)
    simp [h0] at h2 ⊢
    omega

theorem rmag_mono {a b : Nat} (h : a ≤ b) : rmag a ≤ rmag b := by
  rcases Nat.lt_or_eq_of_le (bits_mono h) with hlt | heq
  · have hb : b ≠ 0 := by
      intro hb; subst hb; simp [bits] at hlt
    have h1 := rmag_le a
    have h2 := le_rmag hb
    have h3 : 2 ^ bits a ≤ 2 ^ (bits b - 1) := Nat.pow_le_pow_right (by omega) (by omega)
    omega
  · have he : expo a 1 = expo b 1 := by simp [expo, heq]
    unfold rmag
    rw [he]
    exact Nat.mul_le_mul_right _ (rhe_mono h)

theorem round_fin (neg : Bool) {n : Nat} (h : n < 2 ^ 2000) :
    ∃ m e, round neg n 1 = .fin neg m e ∧ m * 2 ^ e = rmag n := by
  have hb : bits n ≤ 2000 := by
    by_cases h0 : n = 0
    · simp [bits, h0]
    · have h1 := le_bits h0
      have h2 : 2 ^ (bits n - 1) < 2 ^ 2000 := by omega
      have := (Nat.pow_lt_pow_iff_right (a := 2) (by omega)).1 h2
      omega
  have he : expo n 1 ≤ 1947 := by simp [expo]; omega
  unfold round
  by_cases hm : rhe n (1 * 2 ^ expo n 1) = 2 ^ 53
  · refine ⟨2 ^ 52, expo n 1 + 1, ?_, ?_⟩
    · simp only [hm, if_true]
      rw [if_neg (by omega)]
    · unfold rmag; rw [hm, Nat.pow_succ]; omega
  · refine ⟨rhe n (1 * 2 ^ expo n 1), expo n 1, ?_, rfl⟩
    simp only [hm, if_false]
    rw [if_neg (by omega)]

/-- Signed rounded value of an int64. -/
def rsc (i : Int) : Int :=
  if i < 0 then -(rmag (i.natAbs * 2 ^ 1074) : Int) else (rmag (i.natAbs * 2 ^ 1074) : Int)

set_option exponentiation.threshold 3000 in
theorem ofI64_eq (i : I64) : ∃ n m e, ofI64 i = .fin n m e ∧ sc n m e = rsc i.toInt := by
  have hlt : i.toInt.natAbs * 2 ^ 1074 < 2 ^ 2000 := by
    have h1 := BitVec.toInt_lt (x := i)
    have h2 := BitVec.le_toInt (x := i)
    have h3 : i.toInt.natAbs ≤ 2 ^ 64 := by omega
    calc _ ≤ 2 ^ 64 * 2 ^ 1074 := Nat.mul_le_mul_right _ h3
      _ = 2 ^ (64 + 1074) := (Nat.pow_add 2 64 1074).symm
      _ < 2 ^ 2000 := Nat.pow_lt_pow_right (by omega) (by omega)
  obtain ⟨m, e, h1, h2⟩ := round_fin (isNeg i.toInt) hlt
  refine ⟨_, m, e, h1, ?_⟩
  unfold sc rsc isNeg
  rw [h2]
  by_cases h : i.toInt < 0 <;> simp [h]

theorem rsc_mono {i j : Int} (h : i ≤ j) : rsc i ≤ rsc j := by
  unfold rsc
  by_cases hi : i < 0 <;> by_cases hj : j < 0 <;> simp only [hi, hj, if_true, if_false]
  · have : rmag (j.natAbs * 2 ^ 1074) ≤ rmag (i.natAbs * 2 ^ 1074) :=
      rmag_mono (Nat.mul_le_mul_right _ (by omega))
    omega
  · omega
  · omega
  · have : rmag (i.natAbs * 2 ^ 1074) ≤ rmag (j.natAbs * 2 ^ 1074) :=
      rmag_mono (Nat.mul_le_mul_right _ (by omega))
    omega

theorem eq_symm' (a b : F64) : eq a b = eq b a := by
  cases a <;> cases b <;> simp [eq, eq_comm]
  rename_i a b; cases a <;> cases b <;> rfl

theorem eq_trans' (a b c : F64) : eq a b = true → eq b c = true → eq a c = true := by
  cases a <;> cases b <;> cases c <;> simp_all [eq]

theorem lt_irrefl' (a : F64) : lt a a = false := by
  cases a <;> simp [lt]

theorem lt_trans' (a b c : F64) : lt a b = true → lt b c = true → lt a c = true := by
  cases a <;> cases b <;> cases c <;> simp_all [lt]
  exact Int.lt_trans

theorem lt_eq_trans' (a b c : F64) : lt a b = true → eq b c = true → lt a c = true := by
  cases a <;> cases b <;> cases c <;> simp_all [lt, eq]
  omega

theorem eq_lt_trans' (a b c : F64) : eq a b = true → lt b c = true → lt a c = true := by
  cases a <;> cases b <;> cases c <;> simp_all [lt, eq]

theorem lt_nan' (a b : F64) : lt a b = true → eq a a = true ∧ eq b b = true := by
  cases a <;> cases b <;> simp [lt, eq]

theorem total' (a b : F64) : eq a a = true → eq b b = true →
    lt a b = true ∨ eq a b = true ∨ lt b a = true := by
  cases a <;> cases b <;> simp [lt, eq]
  · rename_i a b; cases a <;> cases b <;> simp
  · omega

theorem ofI64_num' (i : I64) : eq (ofI64 i) (ofI64 i) = true := by
  obtain ⟨n, m, e, h, _⟩ := ofI64_eq i
  rw [h]; simp [eq]

theorem ofI64_mono' (i j : I64) (h : i.toInt ≤ j.toInt) : lt (ofI64 j) (ofI64 i) = false := by
  obtain ⟨n, m, e, h1, h2⟩ := ofI64_eq i
  obtain ⟨n', m', e', h1', h2'⟩ := ofI64_eq j
  have := rsc_mono h
  rw [h1, h1']
  simp [lt]
  omega

theorem mul_comm' (a b : F64) : FloatOps.mul a b = FloatOps.mul b a := by
  have hb : ∀ x y : Bool, (x != y) = (y != x) := by intro x y; cases x <;> cases y <;> rfl
  show mul a b = mul b a
  cases a <;> cases b <;> simp only [mul]
  · rw [hb]
  · rw [hb]
  · rw [hb]
  · rw [hb, Nat.mul_comm]

instance : LawfulFloat F64 where
  mul_comm := mul_comm'
  eq_symm := eq_symm'
  eq_trans := eq_trans'
  lt_irrefl := lt_irrefl'
  lt_trans := lt_trans'
  lt_eq_trans := lt_eq_trans'
  eq_lt_trans := eq_lt_trans'
  lt_nan := lt_nan'
  total := total'
  ofI64_num := ofI64_num'
  ofI64_mono := ofI64_mono'

end F64
end Vfilter
