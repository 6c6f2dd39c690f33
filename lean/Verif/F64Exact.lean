import Verif.F64Near
import Mathlib.Algebra.Order.Field.Rat
import Mathlib.Data.Rat.Cast.Order
import Mathlib.Tactic.Linarith
import Mathlib.Tactic.Ring
import Mathlib.Tactic.FieldSimp
import Mathlib.Tactic.Positivity
/-!
# Doubles as rational numbers

The number a double stands for; integers up to `2^53` are converted exactly; the results of the
float operations are the doubles nearest to the exact results.
-/

set_option linter.all false
set_option exponentiation.threshold 3000

namespace Vfilter
namespace F64

/-- The rational number a finite double stands for. -/
def rat (n : Bool) (m e : Nat) : ℚ := (if n then -1 else 1) * m * 2 ^ e / 2 ^ 1074

theorem rat_sc (n : Bool) (m e : Nat) : rat n m e = (sc n m e : ℚ) / 2 ^ 1074 := by
  unfold rat sc
  cases n <;> simp

theorem u_pos : (0 : ℚ) < 2 ^ 1074 := pow_pos (by decide) _

theorem rmag_exact {k : Nat} (hk : k ≤ 2 ^ 53) : rmag (k * 2 ^ 1074) = k * 2 ^ 1074 := by
  have key : ∀ q n : Nat, n = q * 2 ^ expo n 1 → rmag n = n := by
    intro q n h
    unfold rmag
    have : rhe n (1 * 2 ^ expo n 1) = q := by
      have := rhe_up (m := q) (d := 2 ^ expo n 1) (r := 0) (Nat.pow_pos (by omega))
      rw [Nat.add_zero, ← h] at this
      rw [Nat.one_mul]; exact this
    rw [this]; exact h.symm
  rcases Nat.lt_or_eq_of_le hk with hk | rfl
  · have hb : bits (k * 2 ^ 1074) ≤ 53 + 1074 := by
      apply bits_le
      rw [Nat.pow_add]
      exact Nat.mul_lt_mul_of_pos_right hk (Nat.pow_pos (by omega))
    have he : expo (k * 2 ^ 1074) 1 ≤ 1074 := by
      unfold expo; rw [Nat.div_one]; omega
    obtain ⟨d, hd⟩ : ∃ d, 1074 = d + expo (k * 2 ^ 1074) 1 := ⟨1074 - expo (k * 2 ^ 1074) 1, by omega⟩
    refine key (k * 2 ^ d) _ ?_
    rw [Nat.mul_assoc, ← Nat.pow_add, ← hd]
  · have hb : bits (2 ^ 53 * 2 ^ 1074) = 1127 + 1 := by
      apply bits_eq
      · rw [← Nat.pow_add]
      · rw [← Nat.pow_add]; exact Nat.pow_lt_pow_right (by omega) (by omega)
    have he : expo (2 ^ 53 * 2 ^ 1074) 1 = 1075 := by
      unfold expo; rw [Nat.div_one]; omega
    refine key (2 ^ 52) _ ?_
    rw [he, ← Nat.pow_add, ← Nat.pow_add]

theorem rsc_exact {i : Int} (h : i.natAbs ≤ 2 ^ 53) : rsc i = i * 2 ^ 1074 := by
  unfold rsc
  rw [rmag_exact h]
  have : ((i.natAbs * 2 ^ 1074 : Nat) : Int) = (i.natAbs : Int) * 2 ^ 1074 := by push_cast; rfl
  rw [this]
  by_cases h0 : i < 0
  · rw [if_pos h0, ← Int.neg_mul]; congr 1; omega
  · rw [if_neg h0]; congr 1; omega

/-- The number an integer is converted to. -/
theorem ofI64_rat (i : I64) : ∃ n m e, ofI64 i = .fin n m e ∧ NF m e ∧ rat n m e = (rsc i.toInt : ℚ) / 2 ^ 1074 := by
  obtain ⟨n, m, e, h1, h2⟩ := ofI64_eq i
  refine ⟨n, m, e, h1, (round_nf (by decide) h1).2, ?_⟩
  rw [rat_sc, h2]

/-- Integers up to `2^53` are converted exactly. -/
theorem ofI64_exact {i : I64} (h : i.toInt.natAbs ≤ 2 ^ 53) :
    ∃ n m e, ofI64 i = .fin n m e ∧ NF m e ∧ rat n m e = (i.toInt : ℚ) := by
  obtain ⟨n, m, e, h1, h2, h3⟩ := ofI64_rat i
  refine ⟨n, m, e, h1, h2, ?_⟩
  rw [h3, rsc_exact h, Int.cast_mul, Int.cast_pow, Int.cast_ofNat, mul_div_cancel_right₀ _ (ne_of_gt u_pos)]

/-- An integer that is too large is on its side of `2^53` after the conversion. -/
theorem ofI64_far {i : I64} (h : 2 ^ 53 ≤ i.toInt.natAbs) {n : Bool} {m e : Nat} (hi : ofI64 i = .fin n m e) :
    (0 ≤ i.toInt → 2 ^ 53 ≤ rat n m e) ∧ (i.toInt < 0 → rat n m e ≤ -(2 ^ 53)) := by
  obtain ⟨n', m', e', h1, -, h3⟩ := ofI64_rat i
  rw [h1] at hi
  injection hi with a b c
  subst a b c
  have hu := u_pos
  constructor
  · intro h0
    have h4 : rsc (2 ^ 53) ≤ rsc i.toInt := rsc_mono (by omega)
    rw [rsc_exact (i := 2 ^ 53) (by decide)] at h4
    rw [h3, le_div_iff₀ hu]
    have h5 : (((2 ^ 53 : Int) * 2 ^ 1074 : Int) : ℚ) ≤ (rsc i.toInt : ℚ) := Int.cast_le.2 h4
    rw [Int.cast_mul, Int.cast_pow, Int.cast_pow, Int.cast_ofNat] at h5
    exact h5
  · intro h0
    have h4 : rsc i.toInt ≤ rsc (-2 ^ 53) := rsc_mono (by omega)
    rw [rsc_exact (i := -2 ^ 53) (by decide)] at h4
    rw [h3, div_le_iff₀ hu]
    have h5 : (rsc i.toInt : ℚ) ≤ ((-(2 ^ 53 : Int) * 2 ^ 1074 : Int) : ℚ) := Int.cast_le.2 h4
    rw [Int.cast_mul, Int.cast_neg, Int.cast_pow, Int.cast_pow, Int.cast_ofNat] at h5
    exact h5

theorem lt_rat (n n' : Bool) (m e m' e' : Nat) :
    lt (.fin n m e) (.fin n' m' e') = true ↔ rat n m e < rat n' m' e' := by
  rw [rat_sc, rat_sc, div_lt_div_iff_of_pos_right u_pos]
  simp [lt]

theorem eq_rat (n n' : Bool) (m e m' e' : Nat) :
    eq (.fin n m e) (.fin n' m' e') = true ↔ rat n m e = rat n' m' e' := by
  rw [rat_sc, rat_sc, div_left_inj' (ne_of_gt u_pos)]
  simp [eq]

/-- The double nearest to a number: infinite from half a step above the largest double on; of two
that are equally near the one with the even mantissa. -/
def Nearest (q : ℚ) : F64 → Prop
  | .nan => False
  | .inf neg => if neg then q ≤ -((2 ^ 54 - 1) * 2 ^ 2044 / 2 ^ 1074) else (2 ^ 54 - 1) * 2 ^ 2044 / 2 ^ 1074 ≤ q
  | .fin n m e => NF m e ∧ |q| < (2 ^ 54 - 1) * 2 ^ 2044 / 2 ^ 1074 ∧
    ∀ n' m' e', NF m' e' → |rat n m e - q| ≤ |rat n' m' e' - q| ∧
      (rat n' m' e' ≠ rat n m e → |rat n' m' e' - q| = |rat n m e - q| → m % 2 = 0)

theorem nearest_neg {q : ℚ} {x : F64} (h : Nearest q x) : Nearest (-q) (neg x) := by
  cases x with
  | nan => exact h
  | inf b => cases b <;> simp only [Nearest, neg, Bool.not_true, Bool.not_false, if_true, if_false, Bool.false_eq_true] at * <;> linarith
  | fin n m e =>
    obtain ⟨h1, h2, h3⟩ := h
    have hr : ∀ (b : Bool) (x y : Nat), rat (!b) x y = -rat b x y := by
      intro b x y
      unfold rat
      cases b <;> simp [neg_div]
    have ha : ∀ (b : Bool) (x y : Nat), |rat (!b) x y - -q| = |rat b x y - q| := by
      intro b x y
      rw [hr, ← abs_neg]; congr 1; ring
    refine ⟨h1, by rwa [abs_neg], ?_⟩
    intro n' m' e' hnf
    have := h3 (!n') m' e' hnf
    rw [← ha n, ← ha (!n'), Bool.not_not] at this
    refine ⟨this.1, fun hne he => this.2 ?_ he⟩
    intro hc
    apply hne
    rw [hr n, ← hc, hr, neg_neg]

theorem rat_pos (m e : Nat) : rat false m e = ((m * 2 ^ e : Nat) : ℚ) / 2 ^ 1074 := by
  unfold rat; push_cast; simp

theorem rat_neg (m e : Nat) : rat true m e = -(((m * 2 ^ e : Nat) : ℚ) / 2 ^ 1074) := by
  unfold rat; push_cast; simp [neg_div]

theorem dist_abs (a b : Nat) : ((dist a b : Nat) : ℚ) = |(a : ℚ) - b| := by
  unfold dist
  rcases Nat.le_total a b with h | h
  · rw [show a - b + (b - a) = b - a by omega, Nat.cast_sub h, abs_sub_comm, abs_of_nonneg]
    exact sub_nonneg.2 (Nat.cast_le.2 h)
  · rw [show a - b + (b - a) = a - b by omega, Nat.cast_sub h, abs_of_nonneg]
    exact sub_nonneg.2 (Nat.cast_le.2 h)

theorem nearest_round_pos (num den : Nat) (hd : 0 < den) :
    Nearest ((num : ℚ) / den / 2 ^ 1074) (round false num den) := by
  have hu := u_pos
  have hdq : (0 : ℚ) < den := Nat.cast_pos.2 hd
  have hinf := round_inf (neg := false) (num := num) hd
  have hT : ((2 ^ 54 - 1) * 2 ^ 2044 * den ≤ num) ↔
      ((2 ^ 54 - 1) * 2 ^ 2044 / 2 ^ 1074 ≤ (num : ℚ) / den / 2 ^ 1074) := by
    rw [div_le_div_iff_of_pos_right hu, le_div_iff₀ hdq, ← Nat.cast_le (α := ℚ), Nat.cast_mul, Nat.cast_mul,
      Nat.cast_pow, Nat.cast_ofNat]
    norm_num only
  have hq0 : (0 : ℚ) ≤ (num : ℚ) / den / 2 ^ 1074 :=
    div_nonneg (div_nonneg (Nat.cast_nonneg _) hdq.le) hu.le
  generalize hx : round false num den = x at *
  cases x with
  | nan =>
    unfold round at hx
    simp only at hx
    split at hx <;> split at hx <;> cases hx
  | inf b =>
    have hb : b = false := by
      unfold round at hx
      simp only at hx
      split at hx <;> split at hx <;> cases hx <;> rfl
    subst hb
    exact hT.1 (hinf.1 rfl)
  | fin n m e =>
    obtain ⟨rfl, hnf⟩ := round_nf hd hx
    refine ⟨hnf, ?_, ?_⟩
    · rw [abs_of_nonneg hq0]
      refine lt_of_not_ge fun h => ?_
      have := hinf.2 (hT.2 h)
      cases this
    · -- distances to positive doubles
      have hdist : ∀ a : Nat, |((a : Nat) : ℚ) / 2 ^ 1074 - (num : ℚ) / den / 2 ^ 1074| =
          ((dist (a * den) num : Nat) : ℚ) / den / 2 ^ 1074 := by
        intro a
        rw [dist_abs, Nat.cast_mul, ← sub_div, abs_div, abs_of_pos hu]
        congr 1
        rw [eq_div_iff (ne_of_gt hdq)]
        conv_lhs => rw [← abs_of_pos hdq, ← abs_mul]
        congr 1
        rw [abs_of_pos hdq, sub_mul, div_mul_cancel₀ _ (ne_of_gt hdq)]
      have pos : ∀ m' e', NF m' e' →
          |rat false m e - (num : ℚ) / den / 2 ^ 1074| ≤ |rat false m' e' - (num : ℚ) / den / 2 ^ 1074| ∧
          (rat false m' e' ≠ rat false m e →
            |rat false m' e' - (num : ℚ) / den / 2 ^ 1074| = |rat false m e - (num : ℚ) / den / 2 ^ 1074| →
            m % 2 = 0) := by
        intro m' e' hnf'
        obtain ⟨h1, h2⟩ := round_nearest hd hx hnf'
        rw [rat_pos, rat_pos, hdist, hdist]
        refine ⟨?_, fun hne he => h2 ?_ ?_⟩
        · rw [div_le_div_iff_of_pos_right hu, div_le_div_iff_of_pos_right hdq]
          exact Nat.cast_le.2 h1
        · intro hc; apply hne; rw [hc]
        · rw [div_left_inj' (ne_of_gt hu), div_left_inj' (ne_of_gt hdq)] at he
          exact Nat.cast_injective he
      intro n' m' e' hnf'
      cases n' with
      | false => exact pos m' e' hnf'
      | true =>
        have h0 := pos 0 0 ⟨by decide, .inl rfl, by omega⟩
        have hz : rat false 0 0 = 0 := by unfold rat; simp
        rw [hz] at h0
        rw [rat_neg]
        have hv : (0 : ℚ) ≤ ((m' * 2 ^ e' : Nat) : ℚ) / 2 ^ 1074 := div_nonneg (Nat.cast_nonneg _) hu.le
        generalize ((m' * 2 ^ e' : Nat) : ℚ) / 2 ^ 1074 = v at *
        generalize (num : ℚ) / den / 2 ^ 1074 = q at *
        have e1 : |-v - q| = v + q := by
          rw [← abs_neg, abs_of_nonneg] <;> linarith
        have e2 : |0 - q| = q := by rw [zero_sub, abs_neg, abs_of_nonneg hq0]
        rw [e2] at h0
        rw [e1]
        refine ⟨by linarith [h0.1], fun hne he => ?_⟩
        have hv0 : v = 0 := by linarith [h0.1]
        subst hv0
        refine h0.2 ?_ ?_
        · simpa using hne
        · linarith

/-- `round` gives the nearest double. -/
theorem nearest_round (neg : Bool) (num den : Nat) (hd : 0 < den) :
    Nearest ((if neg then -1 else 1) * ((num : ℚ) / den / 2 ^ 1074)) (round neg num den) := by
  cases neg with
  | false => simpa using nearest_round_pos num den hd
  | true =>
    have h := nearest_neg (nearest_round_pos num den hd)
    have hr : F64.neg (round false num den) = round true num den := by
      unfold round
      simp only
      split <;> split <;> rfl
    rw [hr] at h
    simpa using h

theorem nearest_of (neg : Bool) (num den : Nat) (hd : 0 < den) {q : ℚ}
    (hq : (if neg then -1 else 1) * ((num : ℚ) / den / 2 ^ 1074) = q) : Nearest q (round neg num den) := by
  rw [← hq]; exact nearest_round neg num den hd

/-- A double is the nearest one to the number it stands for. -/
theorem nearest_self {n : Bool} {m e : Nat} (h : NF m e) : Nearest (rat n m e) (.fin n m e) := by
  have hu := u_pos
  refine ⟨h, ?_, fun n' m' e' _ => ⟨?_, fun hne he => ?_⟩⟩
  · have hb : m * 2 ^ e < (2 ^ 54 - 1) * 2 ^ 2044 := by
      have h1 : m * 2 ^ e ≤ (2 ^ 53 - 1) * 2 ^ 2045 :=
        Nat.mul_le_mul (by have := h.1; omega) (Nat.pow_le_pow_right (by omega) h.2.2)
      have h2 : (2 : Nat) ^ 2045 = 2 * 2 ^ 2044 := by rw [show 2045 = 2044 + 1 from rfl, Nat.pow_succ, Nat.mul_comm]
      have h3 : 0 < 2 ^ 2044 := Nat.pow_pos (by omega)
      rw [h2] at h1
      obtain ⟨P, hP⟩ : ∃ P : Nat, 2 ^ 2044 = P := ⟨_, rfl⟩
      rw [hP] at h1 h3 ⊢
      clear h2 hP
      omega
    have hc : ((m * 2 ^ e : Nat) : ℚ) < (2 ^ 54 - 1) * 2 ^ 2044 := by
      have := (Nat.cast_lt (α := ℚ)).2 hb
      rw [Nat.cast_mul (2 ^ 54 - 1), Nat.cast_pow 2 2044, Nat.cast_ofNat] at this
      norm_num only at this ⊢
      exact this
    have hn : (0 : ℚ) ≤ ((m * 2 ^ e : Nat) : ℚ) / 2 ^ 1074 := div_nonneg (Nat.cast_nonneg _) hu.le
    cases n with
    | false => rw [rat_pos, abs_of_nonneg hn, div_lt_div_iff_of_pos_right hu]; exact hc
    | true => rw [rat_neg, abs_neg, abs_of_nonneg hn, div_lt_div_iff_of_pos_right hu]; exact hc
  · rw [sub_self, abs_zero]; exact abs_nonneg _
  · rw [sub_self, abs_zero, abs_eq_zero, sub_eq_zero] at he
    exact absurd he hne

theorem add_nearest (n n' : Bool) (m e m' e' : Nat) :
    Nearest (rat n m e + rat n' m' e') (add (.fin n m e) (.fin n' m' e')) := by
  have hs : rat n m e + rat n' m' e' = ((sc n m e + sc n' m' e' : Int) : ℚ) / 2 ^ 1074 := by
    rw [rat_sc, rat_sc, Int.cast_add, add_div]
  rw [hs]
  unfold add
  simp only
  generalize sc n m e + sc n' m' e' = s
  by_cases h0 : s = 0
  · subst h0
    rw [if_pos rfl]
    have := nearest_self (n := (n && n')) (m := 0) (e := 0) ⟨by decide, .inl rfl, by omega⟩
    have hz : rat (n && n') 0 0 = 0 := by unfold rat; simp
    rw [hz] at this
    simpa using this
  · rw [if_neg h0]
    refine nearest_of _ _ _ (by decide) ?_
    rw [Nat.cast_one, div_one, Nat.cast_natAbs, Int.cast_abs]
    unfold isNeg
    rcases lt_or_ge s 0 with h | h
    · have : ((s : Int) : ℚ) < 0 := by exact_mod_cast h
      rw [decide_eq_true h, abs_of_neg this]; simp [neg_div]
    · have h' : (0 : ℚ) ≤ ((s : Int) : ℚ) := by exact_mod_cast h
      rw [decide_eq_false (not_lt.2 h), abs_of_nonneg h']; simp

theorem rat_not (n : Bool) (m e : Nat) : rat (!n) m e = -rat n m e := by
  unfold rat
  cases n <;> simp [neg_div]

theorem sub_nearest (n n' : Bool) (m e m' e' : Nat) :
    Nearest (rat n m e - rat n' m' e') (sub (.fin n m e) (.fin n' m' e')) := by
  have := add_nearest n (!n') m e m' e'
  rw [rat_not, ← sub_eq_add_neg] at this
  exact this

theorem rat_sign (n : Bool) (m e : Nat) : rat n m e = (if n then -1 else 1) * (((m * 2 ^ e : Nat) : ℚ) / 2 ^ 1074) := by
  cases n
  · rw [rat_pos]; simp
  · rw [rat_neg]; simp

theorem sign_mul (n n' : Bool) : (if n != n' then (-1 : ℚ) else 1) = (if n then -1 else 1) * (if n' then -1 else 1) := by
  cases n <;> cases n' <;> simp

theorem mul_nearest (n n' : Bool) (m e m' e' : Nat) :
    Nearest (rat n m e * rat n' m' e') (mul (.fin n m e) (.fin n' m' e')) := by
  unfold mul
  simp only
  refine nearest_of _ _ _ (Nat.pow_pos (by omega)) ?_
  rw [rat_sign, rat_sign, sign_mul, Nat.cast_mul, Nat.cast_pow, Nat.cast_ofNat]
  generalize ((m * 2 ^ e : Nat) : ℚ) = a
  generalize ((m' * 2 ^ e' : Nat) : ℚ) = b
  generalize (2 ^ 1074 : ℚ) = u
  ring

theorem div_nearest (n n' : Bool) (m e m' e' : Nat) (h : rat n' m' e' ≠ 0) :
    Nearest (rat n m e / rat n' m' e') (div (.fin n m e) (.fin n' m' e')) := by
  have hm : m' ≠ 0 := by
    intro h0; subst h0; apply h; unfold rat; simp
  unfold div
  simp only
  rw [if_neg hm]
  have hb : 0 < m' * 2 ^ e' := Nat.mul_pos (by omega) (Nat.pow_pos (by omega))
  refine nearest_of _ _ _ hb ?_
  have hbq : ((m' * 2 ^ e' : Nat) : ℚ) ≠ 0 := by exact_mod_cast (by omega : m' * 2 ^ e' ≠ 0)
  rw [rat_sign, rat_sign, sign_mul, Nat.cast_mul (m * 2 ^ e), Nat.cast_pow 2 1074, Nat.cast_ofNat]
  have hu := ne_of_gt u_pos
  generalize ((m * 2 ^ e : Nat) : ℚ) = a
  generalize ((m' * 2 ^ e' : Nat) : ℚ) = b at *
  generalize (2 ^ 1074 : ℚ) = u at *
  cases n <;> cases n' <;> simp <;> field_simp

end F64
end Vfilter
