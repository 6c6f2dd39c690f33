import Verif.F64Text
import Verif.RoundWhole
/-!
# The printed form of a number is a number token with the same value
-/

set_option linter.all false
set_option exponentiation.threshold 3000

namespace Vfilter.Fmt

/-! ## Digits -/

/-- Only decimal digits. -/
def Dig (s : Str) : Prop := ∀ c ∈ s, isDigit c = true

theorem dig_byte {k : Nat} (h : k < 10) : isDigit (UInt8.ofNat (48 + k)) = true ∧
    digitVal (UInt8.ofNat (48 + k)) = k ∧ (UInt8.ofNat (48 + k) = 48 → k = 0) ∧
    UInt8.ofNat (Nat.digitChar k).toNat = UInt8.ofNat (48 + k) := by
  have : ∀ k : Fin 10, isDigit (UInt8.ofNat (48 + k.1)) = true ∧
    digitVal (UInt8.ofNat (48 + k.1)) = k.1 ∧ (UInt8.ofNat (48 + k.1) = 48 → k.1 = 0) ∧
    UInt8.ofNat (Nat.digitChar k.1).toNat = UInt8.ofNat (48 + k.1) := by decide +kernel
  exact this ⟨k, h⟩

theorem dec_fold (s : Str) : ∀ a : Nat, s.foldl (fun n c => n * 10 + digitVal c) a = a * 10 ^ s.length + decVal s := by
  unfold decVal
  induction s with
  | nil => intro a; simp
  | cons c t ih =>
    intro a
    simp only [List.foldl_cons, List.length_cons]
    rw [ih, ih (0 * 10 + digitVal c), Nat.pow_succ]
    generalize 10 ^ t.length = T
    rw [Nat.zero_mul, Nat.zero_add, Nat.add_mul, Nat.mul_assoc, Nat.mul_comm 10 T, Nat.add_assoc]

theorem dec_append (a b : Str) : decVal (a ++ b) = decVal a * 10 ^ b.length + decVal b := by
  have : decVal (a ++ b) = b.foldl (fun n c => n * 10 + digitVal c) (decVal a) := by
    unfold decVal; rw [List.foldl_append]
  rw [this, dec_fold]

theorem dec_zeros (k : Nat) : decVal (List.replicate k 48) = 0 := by
  induction k with
  | zero => rfl
  | succ k ih =>
    rw [List.replicate_succ, show (48 : UInt8) :: List.replicate k 48 = [48] ++ List.replicate k 48 from rfl, dec_append, ih]
    have : decVal [48] = 0 := by decide +kernel
    rw [this]; simp

theorem dig_zeros (k : Nat) : Dig (List.replicate k 48) := fun c hc => by
  rw [List.eq_of_mem_replicate hc]; decide

/-- The digits of a number. -/
structure Digits (n : Nat) (ds : Str) : Prop where
  ne : ds ≠ []
  dig : Dig ds
  val : decVal ds = n
  lead : n ≠ 0 → ∀ r, ds ≠ 48 :: r
  zero : n = 0 → ds = [48]

theorem digits_step {n : Nat} (hn : 10 ≤ n) {ds : Str} (h : Digits (n / 10) ds) :
    Digits n (ds ++ [UInt8.ofNat (48 + n % 10)]) := by
  obtain ⟨h1, h2, h3, h4⟩ := dig_byte (k := n % 10) (by omega)
  refine ⟨by simp, ?_, ?_, ?_, by omega⟩
  · intro c hc
    rcases List.mem_append.1 hc with hc | hc
    · exact h.dig c hc
    · rw [List.mem_singleton.1 hc]; exact h1
  · rw [dec_append, h.val]
    have : decVal [UInt8.ofNat (48 + n % 10)] = n % 10 := by
      show 0 * 10 + digitVal _ = _
      rw [h2]; omega
    rw [this]
    simp only [List.length_singleton, Nat.pow_one]
    omega
  · intro _ r he
    cases hd : ds with
    | nil => exact h.ne hd
    | cons c t =>
      rw [hd] at he
      simp only [List.cons_append, List.cons.injEq] at he
      exact h.lead (by omega) t (by rw [hd, he.1])

theorem digits_one {n : Nat} (hn : n < 10) : Digits n [UInt8.ofNat (48 + n)] := by
  obtain ⟨h1, h2, h3, h4⟩ := dig_byte hn
  refine ⟨by simp, ?_, ?_, ?_, ?_⟩
  · intro c hc; rw [List.mem_singleton.1 hc]; exact h1
  · show 0 * 10 + digitVal _ = _
    rw [h2]; omega
  · intro hn0 r he
    simp only [List.cons.injEq] at he
    exact hn0 (h3 he.1)
  · intro h0; subst h0; rfl

theorem natText_small {n : Nat} (hn : n < 10) : natText n = [UInt8.ofNat (48 + n)] := by
  unfold natText
  rw [Nat.toDigits_of_lt_base hn]
  simp only [List.map_cons, List.map_nil, (dig_byte hn).2.2.2]

theorem natText_step {n : Nat} (hn : 10 ≤ n) : natText n = natText (n / 10) ++ [UInt8.ofNat (48 + n % 10)] := by
  unfold natText
  rw [Nat.toDigits_of_base_le (by omega) hn]
  simp only [List.map_append, List.map_cons, List.map_nil, (dig_byte (k := n % 10) (by omega)).2.2.2]

theorem digits_nat (n : Nat) : Digits n (natText n) := by
  induction n using Nat.strongRecOn with
  | ind n ih =>
    by_cases hn : n < 10
    · rw [natText_small hn]; exact digits_one hn
    · rw [natText_step (by omega)]; exact digits_step (by omega) (ih _ (by omega))

theorem natDigits_text : ∀ (fuel n : Nat) (acc : Str), n < fuel → natDigits fuel n acc = natText n ++ acc
  | 0, n, acc, h => by omega
  | fuel + 1, n, acc, h => by
    unfold natDigits
    by_cases hn : n < 10
    · simp only [hn, if_true]
      rw [natText_small hn, Nat.mod_eq_of_lt hn]; rfl
    · simp only [hn, if_false]
      rw [natDigits_text fuel (n / 10) _ (by omega), natText_step (n := n) (by omega), List.append_assoc]; rfl

theorem fmtI64_text (i : I64) : fmtI64 i = intText i.toInt := by
  unfold fmtI64
  simp only
  rw [natDigits_text _ _ _ (by omega)]
  cases i.toInt with
  | ofNat n => simp [intText]
  | negSucc n =>
    have : Int.negSucc n < 0 := Int.negSucc_lt_zero n
    simp [intText, this]

/-! ## The tokens -/

/-- The text of a number without its sign. -/
inductive Plain : Str → Prop
  | whole {ds : Str} : ds ≠ [] → Dig ds → Plain ds
  | point {a b : Str} : a ≠ [] → Dig a → b ≠ [] → Dig b → Plain (a ++ 46 :: b)

theorem plain_head {s : Str} (h : Plain s) : ∃ c t, s = c :: t ∧ isDigit c = true ∧ headNot (· == 120) t = true := by
  have hx : ∀ c : UInt8, isDigit c = true → (c == 120) = false := forall_byte (by decide +kernel)
  cases h with
  | whole h0 h1 =>
    cases s with
    | nil => exact absurd rfl h0
    | cons c t =>
      refine ⟨c, t, rfl, h1 c (by simp), ?_⟩
      cases t with
      | nil => rfl
      | cons d t => simp only [headNot, hx d (h1 d (by simp))]; rfl
  | @point a b h0 h1 h2 h3 =>
    cases a with
    | nil => exact absurd rfl h0
    | cons c t =>
      refine ⟨c, t ++ 46 :: b, rfl, h1 c (by simp), ?_⟩
      cases t with
      | nil => rfl
      | cons d t => simp only [List.cons_append, headNot, hx d (h1 d (by simp))]; rfl

theorem plain_hex {s : Str} (h : Plain s) (r : Str) : s ≠ 48 :: 120 :: r := by
  obtain ⟨c, t, rfl, hc, ht⟩ := plain_head h
  intro he
  simp only [List.cons.injEq] at he
  rw [he.2] at ht
  simp [headNot] at ht

theorem plain_dash {s : Str} (h : Plain s) (r : Str) : s ≠ 45 :: r := by
  obtain ⟨c, t, rfl, hc, ht⟩ := plain_head h
  intro he
  simp only [List.cons.injEq] at he
  exact digit_ne c hc he.1

theorem plain_unsigned {s : Str} (h : Plain s) : unsigned s = some (s, []) := by
  rw [unsigned_dec (plain_hex h)]
  have hd : decimal (s ++ []) = some (s, []) := by
    refine decimal_of ?_ rfl
    cases h with
    | whole h0 h1 => exact .inl ⟨h0, h1⟩
    | point h0 h1 h2 h3 => exact .inr ⟨_, _, rfl, h1, h2, h3⟩
  rw [List.append_nil] at hd
  unfold decNum
  rw [hd]
  simp [exponent]

theorem plain_tok {s : Str} (h : Plain s) : IsTok .number s := by
  refine isTok_of 22 _ rfl ?_ ((number_uns (plain_dash h)).trans (plain_unsigned h))
  obtain ⟨c, t, rfl, hc, ht⟩ := plain_head h
  have := digit_head c hc
  simp only [List.mem_cons, List.not_mem_nil, or_false] at this
  rcases this with rfl | rfl | rfl | rfl | rfl | rfl | rfl | rfl | rfl | rfl <;> rfl

theorem dash_tok {s : Str} (h : Plain s) : IsTok .number (45 :: s) := by
  refine isTok_of 22 _ rfl ?_ ?_
  · obtain ⟨c, t, rfl, hc, ht⟩ := plain_head h
    exact dash_head (digit_ne c hc) t
  · show (unsigned s).map (fun p => ((45 : UInt8) :: p.1, p.2)) = some (45 :: s, [])
    rw [plain_unsigned h]; rfl

/-- A sign. -/
def sgn (neg : Bool) : Str := if neg then [45] else []

theorem sgn_tok {neg : Bool} {s : Str} (h : Plain s) : IsTok .number (sgn neg ++ s) := by
  cases neg
  · exact plain_tok h
  · exact dash_tok h

/-! ## Integers -/

/-- `parseInt0` without the sign. -/
def intBody (u : Str) : Option Nat :=
  match u with
  | 48 :: 120 :: h => baseVal 16 h
  | 48 :: [] => some 0
  | 48 :: o => baseVal 8 o
  | d => baseVal 10 d

theorem parseInt_sgn {neg : Bool} {s : Str} (h : ∀ r, s ≠ 45 :: r) : parseInt0 (sgn neg ++ s) = (intBody s).bind (fitI64 neg) := by
  cases neg
  · show parseInt0 s = _
    unfold parseInt0
    split
    · rename_i neg u hu
      split at hu
      · rename_i r
        exact absurd rfl (h r)
      · simp only [Prod.mk.injEq] at hu
        obtain ⟨rfl, rfl⟩ := hu
        rfl
  · rfl

theorem intBody_whole {n : Nat} {ds : Str} (h : Digits n ds) : intBody ds = some n := by
  have hp : Plain ds := .whole h.ne h.dig
  by_cases hn : n = 0
  · rw [h.zero hn, hn]; rfl
  · unfold intBody
    split
    · exact absurd rfl (plain_hex hp _)
    · exact absurd rfl (h.lead hn _)
    · exact absurd rfl (h.lead hn _)
    · unfold baseVal
      rw [if_neg h.ne, if_pos, ← h.val]
      · rfl
      · rw [List.all_eq_true]
        intro c hc
        have : ∀ c : UInt8, isDigit c = true → decide (digitVal c < 10) = true := forall_byte (by decide +kernel)
        exact this c (h.dig c hc)

theorem base_point {b : Nat} (hb : b ≤ 99) {s : Str} (h : (46 : UInt8) ∈ s) : baseVal b s = none := by
  unfold baseVal
  split
  · rfl
  · rw [if_neg]
    intro ha
    have := List.all_eq_true.1 ha 46 h
    have hv : digitVal 46 = 99 := by decide +kernel
    rw [hv] at this
    simp at this
    omega

theorem intBody_point {s : Str} (h : (46 : UInt8) ∈ s) : intBody s = none := by
  unfold intBody
  split
  · simp at h; exact base_point (by omega) h
  · simp at h
  · simp at h; exact base_point (by omega) h
  · exact base_point (by omega) h

theorem fit_toInt (i : I64) : fitI64 (decide (i.toInt < 0)) i.toInt.natAbs = some i := by
  unfold fitI64
  have h1 : -(2 ^ 63 : Int) ≤ i.toInt := by have := BitVec.le_toInt i; simpa using this
  have h2 : i.toInt < 2 ^ 63 := by have := BitVec.toInt_lt (x := i); simpa using this
  have hv : (if decide (i.toInt < 0) = true then -(i.toInt.natAbs : Int) else i.toInt.natAbs) = i.toInt := by
    by_cases h : i.toInt < 0
    · simp only [h, decide_true, if_true]; omega
    · simp only [h, decide_false, Bool.false_eq_true, if_false]; omega
  simp only [hv]
  rw [if_pos ⟨h1, h2⟩, BitVec.ofInt_toInt]

theorem intText_sgn (i : Int) : intText i = sgn (decide (i < 0)) ++ natText i.natAbs := by
  cases i with
  | ofNat n => simp [intText, sgn]
  | negSucc n =>
    have : Int.negSucc n < 0 := Int.negSucc_lt_zero n
    simp [intText, sgn, this]

theorem intText_plain (i : Int) : Plain (natText i.natAbs) := .whole (digits_nat _).ne (digits_nat _).dig

theorem intText_tok (i : Int) : IsTok .number (intText i) := by
  rw [intText_sgn]; exact sgn_tok (intText_plain i)

theorem parse_intText (i : I64) : parseInt0 (intText i.toInt) = some i := by
  rw [intText_sgn, parseInt_sgn (plain_dash (intText_plain _)), intBody_whole (digits_nat _)]
  exact fit_toInt i

/-- `LIMIT` values are read back. -/
theorem limOK_limitVal : LimOK limitVal := by
  intro t n h
  refine ⟨intText_tok n, ?_⟩
  unfold limitVal at h ⊢
  simp only [Option.map_eq_some_iff] at h ⊢
  obtain ⟨i, -, rfl⟩ := h
  exact ⟨i, parse_intText i, rfl⟩

/-! ## Decimals -/

theorem span_stop {p : UInt8 → Bool} {a : Str} {c : UInt8} {b : Str} (ha : ∀ x ∈ a, p x = true) (hc : p c = false) :
    (a ++ c :: b).span p = (a, c :: b) := by
  rw [span_eq]
  induction a with
  | nil => simp [hc]
  | cons x t ih =>
    have h := ih (fun y hy => ha y (by simp [hy]))
    simp only [Prod.mk.injEq] at h
    simp [ha x (by simp), h.1, h.2]

theorem span_all {p : UInt8 → Bool} {a : Str} (ha : ∀ x ∈ a, p x = true) : a.span p = (a, []) := by
  rw [span_eq]
  induction a with
  | nil => rfl
  | cons x t ih =>
    have h := ih (fun y hy => ha y (by simp [hy]))
    simp only [Prod.mk.injEq] at h
    simp [ha x (by simp), h.1, h.2]

/-- `parseF64` without the sign. -/
def f64Body (neg : Bool) (u : Str) : Option F64 :=
  match u with
  | 48 :: 120 :: _ => none
  | u =>
    let (m, e) := cutAt (fun c => c == 101 || c == 69) u
    let (i, f) := cutAt (· == 46) m
    let f := f.getD []
    match ofDecimal neg (decVal (i ++ f)) (expVal e - f.length) with
    | .inf _ => none
    | x => some x

theorem parseF64_sgn {neg : Bool} {s : Str} (h : ∀ r, s ≠ 45 :: r) : parseF64 (sgn neg ++ s) = f64Body neg s := by
  cases neg
  · show parseF64 s = _
    unfold parseF64
    split
    · rename_i neg u hu
      split at hu
      · rename_i r
        exact absurd rfl (h r)
      · simp only [Prod.mk.injEq] at hu
        obtain ⟨rfl, rfl⟩ := hu
        rfl
  · rfl

theorem f64Body_point {neg : Bool} {a b : Str} (ha : Dig a) (hb : Dig b) (h0 : a ≠ []) (h1 : b ≠ [])
    {m e : Nat} (hd : ofDecimal neg (decVal (a ++ b)) (-(b.length : Int)) = .fin neg m e) :
    f64Body neg (a ++ 46 :: b) = some (.fin neg m e) := by
  have hx : ∀ c : UInt8, isDigit c = true → (!(c == 101 || c == 69)) = true := forall_byte (by decide +kernel)
  have hy : ∀ c : UInt8, isDigit c = true → (!(c == 46)) = true := forall_byte (by decide +kernel)
  have hc1 : cutAt (fun c => c == 101 || c == 69) (a ++ 46 :: b) = (a ++ 46 :: b, none) := by
    unfold cutAt
    rw [span_all]
    intro x hm
    rcases List.mem_append.1 hm with hm | hm
    · exact hx x (ha x hm)
    · rcases List.mem_cons.1 hm with rfl | hm
      · decide
      · exact hx x (hb x hm)
  have hc2 : cutAt (· == 46) (a ++ 46 :: b) = (a, some b) := by
    unfold cutAt
    rw [span_stop (fun x hm => hy x (ha x hm)) (by decide)]
  unfold f64Body
  split
  · rename_i r he
    exact absurd he (plain_hex (.point h0 ha h1 hb) _)
  · simp only [hc1, hc2, Option.getD_some, expVal, Int.zero_sub, hd]

/-- The text of a double in a query. -/
def floatText (f : F64) : Str := if (fmtF64 f).contains 46 then fmtF64 f else fmtF64 f ++ bs ".0"

theorem dig_no_point {s : Str} (h : Dig s) : (46 : UInt8) ∉ s := fun hm => by
  have := h 46 hm
  revert this; decide

theorem floatText_point {neg : Bool} {s : Str} {f : F64} (h : fmtF64 f = sgn neg ++ s) (hs : (46 : UInt8) ∈ s) :
    floatText f = sgn neg ++ s := by
  unfold floatText
  rw [if_pos, h]
  rw [h]
  simp [hs]

theorem floatText_whole {neg : Bool} {s : Str} {f : F64} (h : fmtF64 f = sgn neg ++ s) (hs : Dig s) :
    floatText f = sgn neg ++ (s ++ 46 :: [48]) := by
  unfold floatText
  rw [if_neg, h, List.append_assoc]
  · rfl
  · rw [h]
    have := dig_no_point hs
    cases neg <;> simp [sgn, this]

theorem dig_append {a b : Str} (ha : Dig a) (hb : Dig b) : Dig (a ++ b) := fun c hc => by
  rcases List.mem_append.1 hc with h | h
  · exact ha c h
  · exact hb c h

/-- How a double is printed. -/
theorem floatText_shape {neg : Bool} {m e : Nat} (hnf : F64.NF m e) :
    ∃ a b, floatText (.fin neg m e) = sgn neg ++ (a ++ 46 :: b) ∧ a ≠ [] ∧ Dig a ∧ b ≠ [] ∧ Dig b ∧
      ofDecimal neg (decVal (a ++ b)) (-(b.length : Int)) = .fin neg m e := by
  have hz : Dig [48] := fun c hc => by rw [List.mem_singleton.1 hc]; decide
  by_cases hm : m = 0
  · subst hm
    have he : e = 0 := by obtain ⟨_, h, _⟩ := hnf; omega
    subst he
    refine ⟨[48], [48], ?_, by simp, hz, by simp, hz, ?_⟩
    · refine floatText_whole ?_ hz
      unfold sgn
      delta fmtF64
      exact if_pos rfl
    · have : decVal ([48] ++ [48]) = 0 := by decide +kernel
      rw [this]
      unfold ofDecimal
      rw [if_neg (by simp), Nat.zero_mul, F64.round_zero]
  · obtain ⟨d, x, hf, ho⟩ := fmt_decimal (neg := neg) hnf hm
    have hD := digits_nat d
    unfold fmtDecimal at hf
    simp only at hf
    rw [natDigits_text _ _ _ (Nat.lt_succ_self d), List.append_nil] at hf
    change _ = sgn neg ++ _ at hf
    by_cases hx : 0 ≤ x
    · rw [if_pos hx] at hf
      refine ⟨natText d ++ List.replicate x.toNat 48, [48], floatText_whole hf (dig_append hD.dig (dig_zeros _)),
        by simp [hD.ne], dig_append hD.dig (dig_zeros _), by simp, hz, ?_⟩
      rw [← ho, List.append_assoc, dec_append, dec_append, dec_zeros, hD.val]
      have h1 : decVal [48] = 0 := by decide +kernel
      rw [h1, Nat.zero_mul, Nat.add_zero, ofDecimal_shifts]
      congr 1
      simp
      omega
    · rw [if_neg hx] at hf
      by_cases hp : (-x).toNat < (natText d).length
      · rw [if_pos hp, List.append_assoc] at hf
        have htake : Dig ((natText d).take ((natText d).length - (-x).toNat)) :=
          fun c hc => hD.dig c (List.mem_of_mem_take hc)
        have hdrop : Dig ((natText d).drop ((natText d).length - (-x).toNat)) :=
          fun c hc => hD.dig c (List.mem_of_mem_drop hc)
        refine ⟨(natText d).take ((natText d).length - (-x).toNat), (natText d).drop ((natText d).length - (-x).toNat),
          floatText_point hf (by simp), ?_, htake, ?_, hdrop, ?_⟩
        · intro h
          have := congrArg List.length h
          simp only [List.length_take, List.length_nil] at this
          omega
        · intro h
          have := congrArg List.length h
          simp only [List.length_drop, List.length_nil] at this
          omega
        · rw [List.take_append_drop, hD.val, ← ho]
          congr 1
          simp only [List.length_drop]
          omega
      · rw [if_neg hp] at hf
        refine ⟨[48], List.replicate ((-x).toNat - (natText d).length) 48 ++ natText d, ?_, by simp, hz, by simp [hD.ne],
          dig_append (dig_zeros _) hD.dig, ?_⟩
        · refine (floatText_point (s := [48] ++ 46 :: (List.replicate ((-x).toNat - (natText d).length) 48 ++ natText d))
            ?_ (by simp))
          rw [hf]
          rfl
        · rw [dec_append, dec_append, dec_zeros, hD.val]
          have h1 : decVal [48] = 0 := by decide +kernel
          rw [h1, Nat.zero_mul, Nat.zero_mul, Nat.zero_add, Nat.zero_add, ← ho]
          congr 1
          simp only [List.length_append, List.length_replicate]
          omega

theorem floatText_back {neg : Bool} {m e : Nat} (hnf : F64.NF m e) :
    IsTok .number (floatText (.fin neg m e)) ∧ parseInt0 (floatText (.fin neg m e)) = none ∧
      parseF64 (floatText (.fin neg m e)) = some (.fin neg m e) := by
  obtain ⟨a, b, ht, ha, hda, hb, hdb, ho⟩ := floatText_shape (neg := neg) hnf
  have hp : Plain (a ++ 46 :: b) := .point ha hda hb hdb
  rw [ht]
  refine ⟨sgn_tok hp, ?_, ?_⟩
  · rw [parseInt_sgn (plain_dash hp), intBody_point (by simp)]; rfl
  · rw [parseF64_sgn (plain_dash hp)]
    exact f64Body_point hda hdb ha hb ho

theorem round_not_nan (neg : Bool) (a b : Nat) : F64.round neg a b ≠ .nan := by
  unfold F64.round
  simp only
  split <;> split <;> simp

theorem ofDecimal_not_nan (neg : Bool) (d : Nat) (x : Int) : ofDecimal neg d x ≠ .nan := by
  unfold ofDecimal
  split <;> exact round_not_nan _ _ _

theorem parseF64_nf {t : Str} {f : F64} (h : parseF64 t = some f) : ∃ neg m e, f = .fin neg m e ∧ F64.NF m e := by
  have key : ∀ neg s, f64Body neg s = some f → ∃ neg m e, f = .fin neg m e ∧ F64.NF m e := by
    intro neg s h
    unfold f64Body at h
    split at h
    · simp at h
    · simp only at h
      split at h
      · simp at h
      · rename_i x hx
        cases hv : ofDecimal neg (decVal ((cutAt (· == 46) (cutAt (fun c => c == 101 || c == 69) s).1).1 ++
            (cutAt (· == 46) (cutAt (fun c => c == 101 || c == 69) s).1).2.getD []))
            (expVal (cutAt (fun c => c == 101 || c == 69) s).2 -
              ((cutAt (· == 46) (cutAt (fun c => c == 101 || c == 69) s).1).2.getD []).length) with
        | inf n => exact absurd hv (hx n)
        | nan =>
          exact absurd hv (ofDecimal_not_nan _ _ _)
        | fin n m e =>
          rw [hv] at h
          simp only [Option.some.injEq] at h
          subst h
          exact ⟨n, m, e, rfl, (ofDecimal_nf hv).2⟩
  by_cases ht : ∃ r, t = 45 :: r
  · obtain ⟨r, rfl⟩ := ht
    exact key true r h
  · refine key false t ?_
    rw [← parseF64_sgn (neg := false) (fun r he => ht ⟨r, he⟩)]
    exact h

/-! ## What the formatter prints for a number -/

/-- A text with a value. -/
def IsNum (t : Str) : Prop := parseInt0 t ≠ none ∨ parseF64 t ≠ none

instance (t : Str) : Decidable (IsNum t) := inferInstanceAs (Decidable (_ ∨ _))

theorem numberText_tok {t : Str} (h : IsNum t) : IsTok .number (numberText t) ∧ numberText (numberText t) = numberText t ∧
    ∀ X : Type, numberV (X := X) (numberText t) = numberV t := by
  cases hi : parseInt0 t with
  | some i =>
    have ht : numberText t = intText i.toInt := by
      unfold numberText; rw [hi]; exact fmtI64_text i
    rw [ht]
    have hb := parse_intText i
    refine ⟨intText_tok _, ?_, fun X => ?_⟩
    · unfold numberText; rw [hb]; exact fmtI64_text i
    · unfold numberV; rw [hb, hi]
  | none =>
    cases hf : parseF64 t with
    | none => rcases h with h | h <;> contradiction
    | some f =>
      obtain ⟨neg, m, e, rfl, hnf⟩ := parseF64_nf hf
      obtain ⟨h1, h2, h3⟩ := floatText_back (neg := neg) hnf
      have ht : numberText t = floatText (.fin neg m e) := by
        unfold numberText; rw [hi, hf]; rfl
      rw [ht]
      refine ⟨h1, ?_, fun X => ?_⟩
      · unfold numberText; rw [h2, h3]; rfl
      · unfold numberV; rw [h2, h3, hi, hf]

end Vfilter.Fmt
