import Verif.F64Text
/-!
# `F64.round` gives the nearest double
-/

set_option linter.all false
set_option exponentiation.threshold 3000

namespace Vfilter
namespace F64

/-- The distance of two numbers. -/
def dist (a b : Nat) : Nat := (a - b) + (b - a)

/-- No multiple of `d` is nearer to `a` than the one that `rhe` chooses. -/
theorem rhe_nearest (a d t : Nat) (hd : 0 < d) : dist (rhe a d * d) a ≤ dist (t * d) a := by
  have h := rhe_err a d hd
  rcases Nat.lt_trichotomy t (rhe a d) with ht | rfl | ht
  · obtain ⟨k, hk⟩ : ∃ k, rhe a d = t + 1 + k := ⟨rhe a d - t - 1, by omega⟩
    have : rhe a d * d = t * d + d + k * d := by rw [hk, Nat.add_mul, Nat.add_mul, Nat.one_mul]
    generalize rhe a d * d = R at *
    generalize t * d = T at *
    generalize k * d = K at *
    unfold dist; omega
  · exact Nat.le_refl _
  · obtain ⟨k, hk⟩ : ∃ k, t = rhe a d + 1 + k := ⟨t - rhe a d - 1, by omega⟩
    have : t * d = rhe a d * d + d + k * d := by rw [hk, Nat.add_mul, Nat.add_mul, Nat.one_mul]
    generalize rhe a d * d = R at *
    generalize t * d = T at *
    generalize k * d = K at *
    unfold dist; omega

/-- If another multiple is as near, the chosen one is even. -/
theorem rhe_tie (a d t : Nat) (hd : 0 < d) (hne : t ≠ rhe a d) (h : dist (t * d) a = dist (rhe a d * d) a) :
    rhe a d % 2 = 0 := by
  have hq := Nat.div_add_mod a d
  have hr := Nat.mod_lt a hd
  have hc : d * (a / d) = a / d * d := Nat.mul_comm _ _
  have herr := rhe_err a d hd
  have hdist : 2 * dist (rhe a d * d) a = d := by
    rcases Nat.lt_or_ge t (rhe a d) with ht | ht
    · obtain ⟨k, hk⟩ : ∃ k, rhe a d = t + 1 + k := ⟨rhe a d - t - 1, by omega⟩
      have : rhe a d * d = t * d + d + k * d := by rw [hk, Nat.add_mul, Nat.add_mul, Nat.one_mul]
      generalize rhe a d * d = R at *
      generalize t * d = T at *
      generalize k * d = K at *
      unfold dist at *; omega
    · obtain ⟨k, hk⟩ : ∃ k, t = rhe a d + 1 + k := ⟨t - rhe a d - 1, by omega⟩
      have : t * d = rhe a d * d + d + k * d := by rw [hk, Nat.add_mul, Nat.add_mul, Nat.one_mul]
      generalize rhe a d * d = R at *
      generalize t * d = T at *
      generalize k * d = K at *
      unfold dist at *; omega
  have key : rhe a d = (if d < 2 * (a % d) then a / d + 1
      else if 2 * (a % d) = d then (if (a / d) % 2 = 1 then a / d + 1 else a / d) else a / d) := rfl
  by_cases h1 : d < 2 * (a % d)
  · rw [if_pos h1] at key
    have : rhe a d * d = a / d * d + d := by rw [key, Nat.add_mul, Nat.one_mul]
    generalize rhe a d * d = R at *
    generalize a / d * d = Q at *
    unfold dist at *; omega
  · rw [if_neg h1] at key
    by_cases h2 : 2 * (a % d) = d
    · rw [if_pos h2] at key
      split at key <;> omega
    · rw [if_neg h2] at key
      have : rhe a d * d = a / d * d := by rw [key]
      generalize rhe a d * d = R at *
      generalize a / d * d = Q at *
      unfold dist at *; omega

/-- Every double that is not on the grid of `round` is below the numbers that it rounds. -/
theorem off_grid {num den m e : Nat} (hd : 0 < den) (hnf : NF m e) (he : e < expo num den) :
    m * 2 ^ e * den < 2 ^ 52 * (den * 2 ^ expo num den) ∧ 2 ^ 52 * (den * 2 ^ expo num den) ≤ num := by
  have hb : expo num den = bits (num / den) - 53 := rfl
  have h0 : num / den ≠ 0 := by
    intro h
    rw [h] at hb
    simp [bits] at hb
    omega
  constructor
  · have h1 : m * 2 ^ e < 2 ^ 52 * 2 ^ expo num den := by
      obtain ⟨k, hk⟩ : ∃ k, expo num den = e + 1 + k := ⟨expo num den - e - 1, by omega⟩
      have h2 : 2 ^ 52 * 2 ^ expo num den = 2 ^ 53 * 2 ^ e * 2 ^ k := by
        rw [hk, Nat.pow_add, Nat.pow_add]
        rw [show (2 : Nat) ^ 53 = 2 ^ 52 * 2 ^ 1 by rfl]
        simp only [Nat.mul_assoc, Nat.mul_left_comm, Nat.mul_comm]
      rw [h2]
      have h3 : m * 2 ^ e < 2 ^ 53 * 2 ^ e := Nat.mul_lt_mul_of_pos_right hnf.1 (Nat.pow_pos (by omega))
      exact Nat.lt_of_lt_of_le h3 (Nat.le_mul_of_pos_right _ (Nat.pow_pos (by omega)))
    have h2 := Nat.mul_lt_mul_of_pos_right h1 hd
    rw [Nat.mul_assoc (2 ^ 52), Nat.mul_comm (2 ^ expo num den) den] at h2
    exact h2
  · have h1 := le_bits h0
    have h2 : 2 ^ 52 * 2 ^ expo num den = 2 ^ (bits (num / den) - 1) := by
      rw [← Nat.pow_add]; congr 1; omega
    rw [← h2] at h1
    have h3 := Nat.mul_le_mul_right den h1
    have h4 := Nat.div_mul_le_self num den
    rw [Nat.mul_assoc, Nat.mul_comm (2 ^ expo num den) den] at h3
    omega

/-- What `round` chooses on its grid. -/
theorem round_grid {neg n : Bool} {num den m e : Nat} (h : round neg num den = .fin n m e) :
    n = neg ∧ m * 2 ^ e = rhe num (den * 2 ^ expo num den) * 2 ^ expo num den ∧
      (rhe num (den * 2 ^ expo num den) % 2 = 0 → m % 2 = 0) := by
  unfold round at h
  simp only at h
  by_cases hm : rhe num (den * 2 ^ expo num den) = 2 ^ 53
  · rw [if_pos hm] at h
    split at h
    · cases h
    · injection h with h1 h2 h3
      simp only at h2 h3
      subst h1 h2 h3
      refine ⟨rfl, ?_, fun _ => by decide⟩
      rw [hm, Nat.pow_succ (n := 2) (m := expo num den), Nat.mul_comm (2 ^ expo num den) 2, ← Nat.mul_assoc]
  · rw [if_neg hm] at h
    split at h
    · cases h
    · injection h with h1 h2 h3
      subst h1 h2 h3
      exact ⟨rfl, rfl, id⟩

/-- No double is nearer to `num / den` than the one `round` chooses; of two that are equally near it
chooses the one with the even mantissa. -/
theorem round_nearest {neg n : Bool} {num den m e : Nat} (hd : 0 < den) (h : round neg num den = .fin n m e) {m' e' : Nat}
    (hnf : NF m' e') : dist (m * 2 ^ e * den) num ≤ dist (m' * 2 ^ e' * den) num ∧
      (m' * 2 ^ e' ≠ m * 2 ^ e → dist (m' * 2 ^ e' * den) num = dist (m * 2 ^ e * den) num → m % 2 = 0) := by
  obtain ⟨-, hv, hev⟩ := round_grid h
  have hD : 0 < den * 2 ^ expo num den := Nat.mul_pos hd (Nat.pow_pos (by omega))
  have hx : m * 2 ^ e * den = rhe num (den * 2 ^ expo num den) * (den * 2 ^ expo num den) := by
    rw [hv, Nat.mul_assoc, Nat.mul_comm (2 ^ _) den]
  by_cases he : e' < expo num den
  · obtain ⟨h1, h2⟩ := off_grid hd hnf he
    have h3 := rhe_nearest num (den * 2 ^ expo num den) (2 ^ 52) hD
    rw [hx]
    generalize rhe num (den * 2 ^ expo num den) * (den * 2 ^ expo num den) = R at *
    generalize 2 ^ 52 * (den * 2 ^ expo num den) = T at *
    generalize m' * 2 ^ e' * den = C at *
    unfold dist at *
    exact ⟨by omega, fun _ h => by omega⟩
  · obtain ⟨k, rfl⟩ : ∃ k, e' = expo num den + k := ⟨e' - expo num den, by omega⟩
    have hy : m' * 2 ^ (expo num den + k) * den = m' * 2 ^ k * (den * 2 ^ expo num den) := by
      rw [Nat.pow_add]
      simp only [Nat.mul_assoc, Nat.mul_left_comm, Nat.mul_comm]
    refine ⟨?_, fun hne h => hev (rhe_tie num _ (m' * 2 ^ k) hD ?_ ?_)⟩
    · rw [hx, hy]; exact rhe_nearest _ _ _ hD
    · intro ht
      apply hne
      rw [hv, ← ht, Nat.pow_add]
      simp only [Nat.mul_assoc, Nat.mul_left_comm, Nat.mul_comm]
    · rw [← hx, ← hy]; exact h

/-- The numbers that are too large for a double: those at least half a step above the largest one. -/
theorem round_inf {neg : Bool} {num den : Nat} (hd : 0 < den) :
    round neg num den = .inf neg ↔ (2 ^ 54 - 1) * 2 ^ 2044 * den ≤ num := by
  have hq := bits_lt (num / den)
  have hb : expo num den = bits (num / den) - 53 := rfl
  have hup : rhe num (den * 2 ^ expo num den) ≤ 2 ^ 53 := by
    refine rhe_le_of_le_mul (Nat.mul_pos hd (Nat.pow_pos (by omega))) ?_
    have h1 : num / den < 2 ^ (53 + expo num den) :=
      Nat.lt_of_lt_of_le hq (Nat.pow_le_pow_right (by omega) (by omega))
    have h2 := (Nat.div_lt_iff_lt_mul hd).1 h1
    rw [Nat.pow_add, Nat.mul_assoc, Nat.mul_comm (2 ^ expo num den) den] at h2
    omega
  have hlow : expo num den ≠ 0 → 2 ^ 52 * (den * 2 ^ expo num den) ≤ num := fun h0 =>
    (off_grid hd (m := 0) (e := 0) ⟨by decide, .inl rfl, by omega⟩ (by omega)).2
  have hhigh : num < 2 ^ 53 * (den * 2 ^ expo num den) := by
    have h1 : num / den < 2 ^ (53 + expo num den) :=
      Nat.lt_of_lt_of_le hq (Nat.pow_le_pow_right (by omega) (by omega))
    have h2 := (Nat.div_lt_iff_lt_mul hd).1 h1
    rw [Nat.pow_add, Nat.mul_assoc, Nat.mul_comm (2 ^ expo num den) den] at h2
    exact h2
  obtain ⟨P, hP⟩ : ∃ P : Nat, 2 ^ 2044 = P := ⟨_, rfl⟩
  have hP0 : 0 < P := by rw [← hP]; exact Nat.pow_pos (by omega)
  have hT : (2 ^ 54 - 1) * P * den = (2 ^ 54 - 1) * (den * P) := by rw [Nat.mul_assoc, Nat.mul_comm den]
  rw [hP, hT]
  rcases Nat.lt_trichotomy (expo num den) 2045 with hE | hE | hE
  · -- below the last binade
    have hle : den * 2 ^ expo num den ≤ den * P := by
      rw [← hP]; exact Nat.mul_le_mul_left _ (Nat.pow_le_pow_right (by omega) (by omega))
    have h1 : round neg num den ≠ .inf neg := by
      unfold round
      simp only
      split <;> rename_i hm
      · split
        · rename_i hc; simp only at hc; omega
        · simp
      · split
        · rename_i hc; simp only at hc; omega
        · simp
    refine ⟨fun h => absurd h h1, fun h => ?_⟩
    generalize den * 2 ^ expo num den = X at *
    generalize den * P = Y at *
    omega
  · -- the last binade
    have hX : den * 2 ^ expo num den = 2 * (den * P) := by
      rw [hE, show (2045 : Nat) = 2044 + 1 from rfl, Nat.pow_succ, hP, ← Nat.mul_assoc, Nat.mul_comm]
    have hY : 0 < den * P := Nat.mul_pos hd hP0
    have hround : round neg num den = .inf neg ↔ rhe num (den * 2 ^ expo num den) = 2 ^ 53 := by
      unfold round
      simp only
      split <;> rename_i hm
      · refine ⟨fun _ => hm, fun _ => ?_⟩
        rw [if_pos (by show 2045 < expo num den + 1; omega)]
      · refine ⟨fun h => ?_, fun h => absurd h hm⟩
        rw [if_neg (by show ¬ 2045 < expo num den; omega)] at h
        cases h
    rw [hround]
    rw [hX] at hhigh hup ⊢
    clear hround hX hT hlow
    generalize den * P = Y at *
    have herr := rhe_err num (2 * Y) (by omega)
    constructor
    · intro h
      rw [h] at herr
      omega
    · intro h
      rcases Nat.lt_or_ge (rhe num (2 * Y)) (2 ^ 53) with hlt | hge
      · -- the tie goes to the even neighbour above
        have hlast : rhe num (2 * Y) * (2 * Y) ≤ (2 ^ 53 - 1) * (2 * Y) := Nat.mul_le_mul_right _ (by omega)
        have hnum : num = Y + (2 * Y) * (2 ^ 53 - 1) := by omega
        have hq1 : num / (2 * Y) = 2 ^ 53 - 1 := by
          rw [hnum, Nat.add_mul_div_left _ _ (by omega), Nat.div_eq_of_lt (by omega)]
        have hr1 : num % (2 * Y) = Y := by
          rw [hnum, Nat.add_mul_mod_self_left, Nat.mod_eq_of_lt (by omega)]
        unfold rhe
        simp only [hq1, hr1]
        rw [if_neg (by omega), if_pos trivial, if_pos (by decide)]
      · omega
  · have h1 : round neg num den = .inf neg := by
      unfold round
      simp only
      by_cases hm : rhe num (den * 2 ^ expo num den) = 2 ^ 53
      · rw [if_pos hm, if_pos (by show 2045 < expo num den + 1; omega)]
      · rw [if_neg hm, if_pos (by show 2045 < expo num den; omega)]
    refine ⟨fun _ => ?_, fun _ => h1⟩
    have h2 := hlow (by omega)
    obtain ⟨k, hk⟩ : ∃ k, expo num den = 2044 + 2 + k := ⟨expo num den - 2046, by omega⟩
    have hle : 4 * (den * P) ≤ den * 2 ^ expo num den := by
      rw [hk, Nat.pow_add, Nat.pow_add, hP]
      have : 1 ≤ 2 ^ k := Nat.pow_pos (by omega)
      have h3 : den * (P * 2 ^ 2 * 2 ^ k) = 4 * (den * P) * 2 ^ k := by
        rw [show (2 : Nat) ^ 2 = 4 from rfl]
        simp only [Nat.mul_assoc, Nat.mul_left_comm, Nat.mul_comm]
      rw [h3]
      exact Nat.le_mul_of_pos_right _ this
    generalize den * 2 ^ expo num den = X at *
    generalize den * P = Y at *
    omega

end F64
end Vfilter
