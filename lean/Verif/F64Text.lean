import Verif.Number
/-!
# Printing a double and reading it back

`fmtF64` prints a decimal that `ofDecimal` rounds to the same double: seventeen digits are always
enough, so the search in `shortest` succeeds.
-/

set_option linter.all false
set_option exponentiation.threshold 3000

namespace Vfilter
namespace F64

/-- Doubles as `round` makes them. -/
def NF (m e : Nat) : Prop := m < 2 ^ 53 ∧ (e = 0 ∨ 2 ^ 52 ≤ m) ∧ e ≤ 2045

theorem bits_le {n k : Nat} (h : n < 2 ^ k) : bits n ≤ k := by
  by_cases h0 : n = 0
  · simp [bits, h0]
  · have h1 := le_bits h0
    have h2 : 2 ^ (bits n - 1) < 2 ^ k := by omega
    have := (Nat.pow_lt_pow_iff_right (a := 2) (by omega)).1 h2
    omega

theorem bits_eq {n k : Nat} (h1 : 2 ^ k ≤ n) (h2 : n < 2 ^ (k + 1)) : bits n = k + 1 := by
  have h3 := bits_le h2
  have h4 := bits_lt n
  have h5 : 2 ^ k < 2 ^ bits n := by omega
  have := (Nat.pow_lt_pow_iff_right (a := 2) (by omega)).1 h5
  omega

theorem rhe_up {m d r : Nat} (h : 2 * r < d) : rhe (m * d + r) d = m := by
  have hd : 0 < d := by omega
  have h1 : (m * d + r) / d = m := by
    rw [Nat.mul_comm, Nat.mul_add_div hd, Nat.div_eq_of_lt (by omega)]; rfl
  have h2 : (m * d + r) % d = r := by
    rw [Nat.mul_comm, Nat.mul_add_mod, Nat.mod_eq_of_lt (by omega)]
  unfold rhe
  simp only [h1, h2]
  rw [if_neg (by omega), if_neg (by omega)]

theorem rhe_dn {a m d r : Nat} (ha : a + r = m * d) (h0 : 0 < r) (h : 2 * r < d) : rhe a d = m := by
  have hd : 0 < d := by omega
  cases m with
  | zero => omega
  | succ m =>
    have he : a = m * d + (d - r) := by rw [Nat.succ_mul] at ha; omega
    have h1 : a / d = m := by
      rw [he, Nat.mul_comm, Nat.mul_add_div hd, Nat.div_eq_of_lt (by omega)]; rfl
    have h2 : a % d = d - r := by
      rw [he, Nat.mul_comm, Nat.mul_add_mod, Nat.mod_eq_of_lt (by omega)]
    unfold rhe
    simp only [h1, h2]
    rw [if_pos (by omega)]

theorem rhe_err (a d : Nat) (hd : 0 < d) : 2 * (rhe a d * d) ≤ 2 * a + d ∧ 2 * a ≤ 2 * (rhe a d * d) + d := by
  have h := Nat.div_add_mod a d
  have hr := Nat.mod_lt a hd
  have hc : d * (a / d) = a / d * d := Nat.mul_comm _ _
  unfold rhe
  simp only
  split
  · rw [Nat.add_mul]; omega
  · split
    · split
      · rw [Nat.add_mul]; omega
      · omega
    · omega

/-- What `round` makes. -/
theorem round_nf {neg n : Bool} {num den m e : Nat} (hd : 0 < den) (h : round neg num den = .fin n m e) :
    n = neg ∧ NF m e := by
  unfold round at h
  simp only at h
  generalize hE : expo num den = E at h
  have hq := bits_lt (num / den)
  have hle : bits (num / den) ≤ 53 + E := by unfold expo at hE; omega
  have hlt : num / den < 2 ^ (53 + E) := Nat.lt_of_lt_of_le hq (Nat.pow_le_pow_right (by omega) hle)
  have hnum : num ≤ 2 ^ 53 * (den * 2 ^ E) := by
    have h1 := (Nat.div_lt_iff_lt_mul hd).1 hlt
    have h2 : 2 ^ (53 + E) * den = 2 ^ 53 * (den * 2 ^ E) := by
      rw [Nat.pow_add, Nat.mul_assoc, Nat.mul_comm (2 ^ E) den]
    omega
  have hpos : 0 < den * 2 ^ E := Nat.mul_pos hd (Nat.pow_pos (by omega))
  have hup := rhe_le_of_le_mul hpos hnum
  have hlow : E = 0 ∨ 2 ^ 52 ≤ rhe num (den * 2 ^ E) := by
    by_cases hz : E = 0
    · exact .inl hz
    · right
      have hb : bits (num / den) = 53 + E := by unfold expo at hE; omega
      have hne : num / den ≠ 0 := by
        intro h0
        rw [h0] at hb
        simp [bits] at hb
        omega
      have h1 := le_bits hne
      rw [hb, show 53 + E - 1 = 52 + E by omega] at h1
      have h2 : 2 ^ 52 ≤ num / (den * 2 ^ E) := by
        rw [Nat.le_div_iff_mul_le hpos]
        have h3 := (Nat.le_div_iff_mul_le hd).1 h1
        have h4 : 2 ^ (52 + E) * den = 2 ^ 52 * (den * 2 ^ E) := by
          rw [Nat.pow_add, Nat.mul_assoc, Nat.mul_comm (2 ^ E) den]
        omega
      exact Nat.le_trans h2 (rhe_ge _ _)
  by_cases hm : rhe num (den * 2 ^ E) = 2 ^ 53
  · simp only [hm, if_true] at h
    split at h
    · simp at h
    · simp only [F64.fin.injEq] at h
      obtain ⟨rfl, rfl, rfl⟩ := h
      exact ⟨rfl, by omega, .inr (by omega), by omega⟩
  · simp only [hm, if_false] at h
    split at h
    · simp at h
    · simp only [F64.fin.injEq] at h
      obtain ⟨rfl, rfl, rfl⟩ := h
      exact ⟨rfl, by omega, hlow, by omega⟩

theorem round_of {neg : Bool} {num den m e : Nat} (hE : expo num den = e) (hr : rhe num (den * 2 ^ e) = m)
    (hm : m < 2 ^ 53) (he : e ≤ 2045) : round neg num den = .fin neg m e := by
  have h1 : ¬ m = 2 ^ 53 := by omega
  have h2 : ¬ 2045 < e := by omega
  unfold round
  simp only [hE, hr, h1, h2, if_false]

theorem round_of_top {neg : Bool} {num den e : Nat} (hE : expo num den = e) (hr : rhe num (den * 2 ^ e) = 2 ^ 53)
    (he : e + 1 ≤ 2045) : round neg num den = .fin neg (2 ^ 52) (e + 1) := by
  have h2 : ¬ 2045 < e + 1 := by omega
  unfold round
  simp only [hE, hr, h2, if_false, if_true]

/-- A fraction close enough to a double is rounded to it. -/
theorem round_near {neg : Bool} {num den m e B : Nat} (hd : 0 < den) (hnf : NF m e) (hm : m ≠ 0)
    (h1 : 2 * num ≤ 2 * (m * (2 ^ e * den)) + B) (h2 : 2 * (m * (2 ^ e * den)) ≤ 2 * num + B)
    (hB : 10 ^ 16 * B ≤ m * (2 ^ e * den)) : round neg num den = .fin neg m e := by
  obtain ⟨hm53, hlow, he⟩ := hnf
  generalize hW : 2 ^ e * den = W at *
  have hWpos : 0 < W := by rw [← hW]; exact Nat.mul_pos (Nat.pow_pos (by omega)) hd
  -- B is smaller than the gap
  have hBW : B < W := by
    have h3 : m * W ≤ 2 ^ 53 * W := Nat.mul_le_mul_right _ (by omega)
    omega
  have hV : m * 2 ^ e * den = m * W := by rw [Nat.mul_assoc, hW]
  have hdW : den * 2 ^ e = W := by rw [Nat.mul_comm]; exact hW
  by_cases hge : m * W ≤ num
  · -- at or above
    obtain ⟨r, hr⟩ : ∃ r, num = m * W + r := ⟨num - m * W, by omega⟩
    have hr2 : 2 * r < W := by omega
    have hq1 : m * 2 ^ e ≤ num / den := by
      rw [Nat.le_div_iff_mul_le hd, hV]; exact hge
    have hq2 : num / den < (m + 1) * 2 ^ e := by
      rw [Nat.div_lt_iff_lt_mul hd, Nat.mul_assoc, hW, Nat.add_mul]; omega
    have hE : expo num den = e := by
      unfold expo
      rcases hlow with h0 | h52
      · subst h0
        have : bits (num / den) ≤ 53 := bits_le (by simp only [Nat.pow_zero, Nat.mul_one] at hq2; omega)
        omega
      · have hb : bits (num / den) = 52 + e + 1 := by
          refine bits_eq ?_ ?_
          · rw [Nat.pow_add]
            exact Nat.le_trans (Nat.mul_le_mul_right _ h52) hq1
          · rw [show 52 + e + 1 = 53 + e by omega, Nat.pow_add]
            exact Nat.lt_of_lt_of_le hq2 (Nat.mul_le_mul_right _ (by omega))
        omega
    exact round_of hE (by rw [hdW, hr]; exact rhe_up hr2) hm53 he
  · have hlt : num < m * W := by omega
    obtain ⟨r, hr⟩ : ∃ r, num + r = m * W := ⟨m * W - num, by omega⟩
    have hr0 : 0 < r := by omega
    have hr2 : 2 * r < W := by omega
    have hq2 : num / den < m * 2 ^ e := by
      rw [Nat.div_lt_iff_lt_mul hd, hV]; exact hlt
    by_cases hc : e = 0 ∨ 2 ^ 52 < m
    · have hq1 : (m - 1) * 2 ^ e ≤ num / den := by
        rw [Nat.le_div_iff_mul_le hd, Nat.mul_assoc, hW]
        have : m * W = (m - 1) * W + W := by
          rw [← Nat.succ_mul]; congr 1; omega
        omega
      have hE : expo num den = e := by
        unfold expo
        rcases hc with h0 | h52
        · subst h0
          have : bits (num / den) ≤ 53 := bits_le (by simp only [Nat.pow_zero, Nat.mul_one] at hq2; omega)
          omega
        · have hb : bits (num / den) = 52 + e + 1 := by
            refine bits_eq ?_ ?_
            · rw [Nat.pow_add]
              exact Nat.le_trans (Nat.mul_le_mul_right _ (by omega)) hq1
            · rw [show 52 + e + 1 = 53 + e by omega, Nat.pow_add]
              exact Nat.lt_of_lt_of_le hq2 (Nat.mul_le_mul_right _ (by omega))
          omega
      exact round_of hE (by rw [hdW]; exact rhe_dn hr hr0 hr2) hm53 he
    · -- the lower neighbour is closer
      have hm2 : m = 2 ^ 52 := by omega
      obtain ⟨k, rfl⟩ : ∃ k, e = k + 1 := ⟨e - 1, by omega⟩
      subst hm2
      generalize hX : den * 2 ^ k = X at *
      have hWX : W = 2 * X := by
        rw [← hdW, Nat.pow_succ, ← Nat.mul_assoc, hX]; omega
      have hr4 : 2 * r < X := by omega
      have hq1 : 2 ^ 51 * 2 ^ (k + 1) ≤ num / den := by
        rw [Nat.le_div_iff_mul_le hd, Nat.mul_assoc, hW]
        omega
      have hb : bits (num / den) = 52 + k + 1 := by
        refine bits_eq ?_ ?_
        · rw [show 52 + k = 51 + (k + 1) by omega, Nat.pow_add]; exact hq1
        · rw [show 52 + k + 1 = 52 + (k + 1) by omega, Nat.pow_add]; exact hq2
      have hE : expo num den = k := by unfold expo; omega
      have hr' : num + r = 2 ^ 53 * X := by omega
      exact round_of_top hE (by rw [hX]; exact rhe_dn hr' hr0 hr4) he

theorem round_zero (neg : Bool) (den : Nat) : round neg 0 den = .fin neg 0 0 := by
  unfold round expo
  simp [bits, rhe]

theorem rhe_scale {a d c : Nat} (hc : 0 < c) : rhe (c * a) (c * d) = rhe a d := by
  unfold rhe
  simp only [Nat.mul_div_mul_left _ _ hc, Nat.mul_mod_mul_left]
  have h1 : (c * d < 2 * (c * (a % d))) ↔ d < 2 * (a % d) := by
    rw [show 2 * (c * (a % d)) = c * (2 * (a % d)) by rw [← Nat.mul_assoc, Nat.mul_comm 2 c, Nat.mul_assoc]]
    exact Nat.mul_lt_mul_left hc
  have h2 : (2 * (c * (a % d)) = c * d) ↔ 2 * (a % d) = d := by
    rw [show 2 * (c * (a % d)) = c * (2 * (a % d)) by rw [← Nat.mul_assoc, Nat.mul_comm 2 c, Nat.mul_assoc]]
    exact Nat.mul_right_inj (by omega)
  simp only [h1, h2]

theorem round_scale (neg : Bool) {num den c : Nat} (hc : 0 < c) :
    round neg (c * num) (c * den) = round neg num den := by
  have h : expo (c * num) (c * den) = expo num den := by
    unfold expo
    rw [Nat.mul_div_mul_left _ _ hc]
  unfold round
  simp only [h, Nat.mul_assoc, rhe_scale hc]

end F64

/-! ## Decimals -/

theorem ofDecimal_nf {neg n : Bool} {d m e : Nat} {x : Int} (h : ofDecimal neg d x = .fin n m e) :
    n = neg ∧ F64.NF m e := by
  unfold ofDecimal at h
  split at h
  · exact F64.round_nf (by omega) h
  · exact F64.round_nf (Nat.pow_pos (by omega)) h

/-- A digit more is the same value. -/
theorem ofDecimal_shift (neg : Bool) (d : Nat) (x : Int) : ofDecimal neg (d * 10) x = ofDecimal neg d (x + 1) := by
  unfold ofDecimal
  generalize 2 ^ 1074 = D
  by_cases h : 0 ≤ x
  · rw [if_pos h, if_pos (by omega)]
    have : (x + 1).toNat = x.toNat + 1 := by omega
    rw [this, Nat.pow_succ, Nat.mul_assoc d, Nat.mul_comm 10]
  · rw [if_neg h]
    by_cases h1 : 0 ≤ x + 1
    · have hx : x = -1 := by omega
      subst hx
      rw [if_pos h1]
      have := F64.round_scale neg (num := d * D) (den := 1) (c := 10) (by omega)
      simp only [Int.reduceNeg, Int.neg_neg, Int.toNat_one, Int.reduceAdd, Int.toNat_zero, Nat.pow_zero, Nat.mul_one,
        Nat.pow_one] at this ⊢
      rw [← this]
      congr 1
      rw [Nat.mul_comm d 10, Nat.mul_assoc]
    · rw [if_neg h1]
      have hx : (-x).toNat = (-(x + 1)).toNat + 1 := by omega
      have := F64.round_scale neg (num := d * D) (den := 10 ^ (-(x + 1)).toNat) (c := 10) (by omega)
      rw [hx, Nat.pow_succ, Nat.mul_comm d 10, Nat.mul_comm _ 10, ← this]
      congr 1
      rw [Nat.mul_assoc]

theorem ofDecimal_shifts (neg : Bool) (d : Nat) : ∀ (k : Nat) (x : Int),
    ofDecimal neg (d * 10 ^ k) x = ofDecimal neg d (x + k)
  | 0, x => by simp
  | k + 1, x => by
    rw [Nat.pow_succ, ← Nat.mul_assoc, ofDecimal_shift, ofDecimal_shifts neg d k]
    congr 1
    omega

theorem trimZeros_same (neg : Bool) : ∀ (fuel d : Nat) (x : Int),
    ofDecimal neg (trimZeros fuel d x).1 (trimZeros fuel d x).2 = ofDecimal neg d x
  | 0, d, x => rfl
  | fuel + 1, d, x => by
    unfold trimZeros
    split
    · rename_i h
      rw [trimZeros_same neg fuel, ← ofDecimal_shift]
      congr 1
      omega
    · rfl

/-- `num / den < 10 ^ k` -/
def LtPow (num den : Nat) (k : Int) : Prop :=
  if 0 ≤ k then num < 10 ^ k.toNat * den else num * 10 ^ (-k).toNat < den

theorem decExp_spec (num den : Nat) : ∀ (fuel : Nat) (k : Int),
    decExp num den fuel k = k ∨ ¬ LtPow num den (decExp num den fuel k - 1)
  | 0, k => .inl rfl
  | fuel + 1, k => by
    unfold decExp
    by_cases h : LtPow num den k
    · left
      unfold LtPow at h
      exact if_pos h
    · right
      unfold LtPow at h
      simp only [if_neg h]
      rcases decExp_spec num den fuel (k + 1) with h1 | h1
      · rw [h1]
        have : k + 1 - 1 = k := by omega
        rwa [this]
      · exact h1

theorem low_enough {m e : Nat} (hm : m ≠ 0) : ¬ LtPow (m * 2 ^ e) (2 ^ 1074) (-331) := by
  unfold LtPow
  rw [if_neg (by omega)]
  have h1 : 1 ≤ m * 2 ^ e := Nat.mul_pos (by omega) (Nat.pow_pos (by omega))
  have h2 : 2 ^ 1074 ≤ 10 ^ (331 : Nat) := by decide +kernel
  have h3 : (-(-331 : Int)).toNat = 331 := by decide
  rw [h3]
  generalize 2 ^ 1074 = D at *
  generalize m * 2 ^ e = V at *
  generalize 10 ^ 331 = T at *
  have h4 : 1 * T ≤ V * T := Nat.mul_le_mul_right _ h1
  omega

/-- Seventeen digits are enough. -/
theorem seventeen_of {neg : Bool} {m e D : Nat} (hnf : F64.NF m e) (hm : m ≠ 0) (hDpos : 0 < D) {k : Int}
    (hk : ¬ LtPow (m * 2 ^ e) D (k - 1)) :
    (if 0 ≤ k - 17 then F64.round neg (scaled (m * 2 ^ e) D (k - 17) * 10 ^ (k - 17).toNat * D) 1
      else F64.round neg (scaled (m * 2 ^ e) D (k - 17) * D) (10 ^ (-(k - 17)).toNat)) = .fin neg m e := by
  by_cases hx : 0 ≤ k - 17
  · have hb : 10 ^ 16 * (D * 10 ^ (k - 17).toNat) ≤ m * 2 ^ e := by
      unfold LtPow at hk
      rw [if_pos (by omega)] at hk
      have h1 : (k - 1).toNat = (k - 17).toNat + 16 := by omega
      rw [h1, Nat.pow_add] at hk
      have h2 : 10 ^ (k - 17).toNat * 10 ^ 16 * D = 10 ^ 16 * (D * 10 ^ (k - 17).toNat) := by
        rw [Nat.mul_comm (10 ^ (k - 17).toNat), Nat.mul_assoc, Nat.mul_comm D]
      rw [h2] at hk
      exact Nat.le_of_not_lt hk
    unfold scaled
    rw [if_pos hx, if_pos hx]
    have hpos : 0 < D * 10 ^ (k - 17).toNat := Nat.mul_pos hDpos (Nat.pow_pos (by omega))
    generalize hbb : D * 10 ^ (k - 17).toNat = b at *
    obtain ⟨he1, he2⟩ := F64.rhe_err (m * 2 ^ e) b hpos
    have hnum : F64.rhe (m * 2 ^ e) b * 10 ^ (k - 17).toNat * D = F64.rhe (m * 2 ^ e) b * b := by
      rw [Nat.mul_assoc, Nat.mul_comm _ D, hbb]
    rw [hnum]
    exact F64.round_near (B := b) (by omega) hnf hm (by rw [Nat.mul_one]; exact he1) (by rw [Nat.mul_one]; exact he2)
      (by rw [Nat.mul_one]; exact hb)
  · have hb : 10 ^ 16 * D ≤ m * (2 ^ e * 10 ^ (-(k - 17)).toNat) := by
      unfold LtPow at hk
      rw [← Nat.mul_assoc]
      by_cases h0 : 0 ≤ k - 1
      · rw [if_pos h0] at hk
        have h1 : (k - 1).toNat + (-(k - 17)).toNat = 16 := by omega
        have h2 : 10 ^ 16 * D = 10 ^ (k - 1).toNat * D * 10 ^ (-(k - 17)).toNat := by
          rw [← h1, Nat.pow_add, Nat.mul_assoc, Nat.mul_assoc, Nat.mul_comm D]
        rw [h2]
        exact Nat.mul_le_mul_right _ (Nat.le_of_not_lt hk)
      · rw [if_neg h0] at hk
        have h1 : (-(k - 17)).toNat = (-(k - 1)).toNat + 16 := by omega
        rw [h1, Nat.pow_add, ← Nat.mul_assoc, Nat.mul_comm _ (10 ^ 16)]
        exact Nat.mul_le_mul_left _ (Nat.le_of_not_lt hk)
    unfold scaled
    rw [if_neg hx, if_neg hx]
    obtain ⟨he1, he2⟩ := F64.rhe_err (m * 2 ^ e * 10 ^ (-(k - 17)).toNat) D hDpos
    rw [Nat.mul_assoc] at he1 he2
    refine F64.round_near (B := D) (Nat.pow_pos (by omega)) hnf hm ?_ ?_ hb
    · rw [Nat.mul_assoc]; exact he1
    · rw [Nat.mul_assoc]; exact he2

theorem seventeen {neg : Bool} {m e : Nat} (hnf : F64.NF m e) (hm : m ≠ 0) {k : Int}
    (hk : k = decExp (m * 2 ^ e) (2 ^ 1074) 700 (-330)) :
    ofDecimal neg (scaled (m * 2 ^ e) (2 ^ 1074) (k - 17)) (k - 17) = .fin neg m e := by
  have hk' : ¬ LtPow (m * 2 ^ e) (2 ^ 1074) (k - 1) := by
    rcases decExp_spec (m * 2 ^ e) (2 ^ 1074) 700 (-330) with h | h
    · rw [← hk] at h
      rw [h]
      exact low_enough hm
    · rw [← hk] at h
      exact h
  unfold ofDecimal
  have hD : 0 < 2 ^ 1074 := Nat.pow_pos (by omega)
  clear hk
  generalize 2 ^ 1074 = D at *
  exact seventeen_of hnf hm hD hk'

theorem nf_unique {m e m' e' : Nat} (h : F64.NF m e) (h' : F64.NF m' e') (he : m * 2 ^ e = m' * 2 ^ e') :
    m = m' ∧ e = e' := by
  obtain ⟨h1, h2, _⟩ := h
  obtain ⟨h1', h2', _⟩ := h'
  have key : ∀ (a x b y : Nat), a < 2 ^ 53 → (x = 0 ∨ 2 ^ 52 ≤ a) → b < 2 ^ 53 → (y = 0 ∨ 2 ^ 52 ≤ b) →
      a * 2 ^ x = b * 2 ^ y → ¬ x < y := by
    intro a x b y ha hx hb hy he hlt
    obtain ⟨d, rfl⟩ : ∃ d, y = x + 1 + d := ⟨y - x - 1, by omega⟩
    have hbig : 2 ^ 52 ≤ b := by omega
    have h2 : b * 2 ^ (x + 1 + d) = b * 2 ^ (1 + d) * 2 ^ x := by
      rw [show x + 1 + d = (1 + d) + x by omega, Nat.pow_add, Nat.mul_assoc]
    rw [h2] at he
    have he := Nat.eq_of_mul_eq_mul_right (Nat.pow_pos (by omega)) he
    have h3 : 2 ^ 1 ≤ 2 ^ (1 + d) := Nat.pow_le_pow_right (by omega) (by omega)
    have h4 : 2 ^ 52 * 2 ^ 1 ≤ b * 2 ^ (1 + d) := Nat.mul_le_mul hbig h3
    omega
  have hee : e = e' := by
    have := key m e m' e' h1 h2 h1' h2' he
    have := key m' e' m e h1' h2' h1 h2 he.symm
    omega
  subst hee
  exact ⟨Nat.eq_of_mul_eq_mul_right (Nat.pow_pos (by omega)) he, rfl⟩

/-- Equal decimals give the same double. -/
theorem ofDecimal_eq {neg : Bool} {d m e : Nat} {x : Int} (hnf : F64.NF m e)
    (h : F64.eq (ofDecimal neg d x) (.fin neg m e) = true) : ofDecimal neg d x = .fin neg m e := by
  cases hx : ofDecimal neg d x with
  | nan => rw [hx] at h; simp [F64.eq] at h
  | inf n => rw [hx] at h; simp [F64.eq] at h
  | fin n m' e' =>
    rw [hx] at h
    obtain ⟨rfl, hnf'⟩ := ofDecimal_nf hx
    have h : F64.sc n m' e' = F64.sc n m e := of_decide_eq_true h
    unfold F64.sc at h
    have : m' * 2 ^ e' = m * 2 ^ e := by
      generalize m' * 2 ^ e' = A at h ⊢
      generalize m * 2 ^ e = A' at h ⊢
      cases n <;> simp only [if_true, if_false, Bool.false_eq_true] at h <;> omega
    obtain ⟨rfl, rfl⟩ := nf_unique hnf' hnf this
    rfl

theorem shortest_spec {neg : Bool} {x : F64} {num den : Nat} {k : Int}
    (h17 : F64.eq (ofDecimal neg (scaled num den (k - 17)) (k - 17)) x = true) :
    ∀ (fuel n : Nat), n + fuel = 18 → 0 < fuel →
    F64.eq (ofDecimal neg (shortest neg x num den k fuel n).1 (shortest neg x num den k fuel n).2) x = true
  | 0, n, _, h => by omega
  | fuel + 1, n, hn, _ => by
    unfold shortest
    simp only
    split
    · rename_i h; exact h
    · rename_i h
      by_cases hf : 0 < fuel
      · exact shortest_spec h17 fuel (n + 1) (by omega) hf
      · exfalso
        have hn : n = 17 := by omega
        have hc : ((n : Nat) : Int) = 17 := by omega
        rw [hc] at h
        exact h h17

/-- The decimal that is printed for a double. -/
theorem fmt_decimal {neg : Bool} {m e : Nat} (hnf : F64.NF m e) (hm : m ≠ 0) :
    ∃ d x, fmtF64 (.fin neg m e) = (if neg then [45] else []) ++ fmtDecimal d x ∧
      ofDecimal neg d x = .fin neg m e := by
  generalize hk : decExp (m * 2 ^ e) (2 ^ 1074) 700 (-330) = k
  have h17 := seventeen (neg := neg) hnf hm hk.symm
  have heq : F64.eq (.fin neg m e) (.fin neg m e) = true := by simp [F64.eq]
  have hs := shortest_spec (neg := neg) (x := .fin neg m e) (num := m * 2 ^ e) (den := 2 ^ 1074)
    (k := k) (by rw [h17]; exact heq) 17 1 rfl (by omega)
  have hd := ofDecimal_eq hnf hs
  clear hs h17 heq
  have ht := (trimZeros_same neg 20 _ _).trans hd
  refine ⟨_, _, ?_, ht⟩
  have h : fmtF64 (.fin neg m e) = (if m = 0 then (if neg then [45] else []) ++ [48] else
      (if neg then [45] else []) ++ fmtDecimal
        (trimZeros 20 (shortest neg (.fin neg m e) (m * 2 ^ e) (2 ^ 1074)
          (decExp (m * 2 ^ e) (2 ^ 1074) 700 (-330)) 17 1).1
          (shortest neg (.fin neg m e) (m * 2 ^ e) (2 ^ 1074)
          (decExp (m * 2 ^ e) (2 ^ 1074) 700 (-330)) 17 1).2).1
        (trimZeros 20 (shortest neg (.fin neg m e) (m * 2 ^ e) (2 ^ 1074)
          (decExp (m * 2 ^ e) (2 ^ 1074) 700 (-330)) 17 1).1
          (shortest neg (.fin neg m e) (m * 2 ^ e) (2 ^ 1074)
          (decExp (m * 2 ^ e) (2 ^ 1074) 700 (-330)) 17 1).2).2) := rfl
  rw [h, if_neg hm, hk]

end Vfilter
