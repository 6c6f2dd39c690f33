import Verif.F64Near
import Verif.RoundNum
import Verif.EvalLemmas
/-!
# C86: what a number in a query stands for
-/

set_option linter.all false
set_option exponentiation.threshold 3000

namespace Vfilter.Fmt

/-! ## The numbers of the language, as they are written -/

/-- The number that a list of digits spells. -/
def natOf (b : Nat) (ds : List Nat) : Nat := ds.foldl (fun n d => n * b + d) 0

/-- A decimal digit. -/
def decCh (d : Nat) : UInt8 := UInt8.ofNat (48 + d)

/-- A hexadecimal digit, in capitals or not. -/
def hexCh (d : Nat × Bool) : UInt8 := UInt8.ofNat (if d.1 < 10 then 48 + d.1 else if d.2 then 55 + d.1 else 87 + d.1)

/-- An exponent: the letter, the sign if there is one, and the digits. -/
structure ExpPart where
  capital : Bool
  sign : Option Bool
  digits : List Nat

/-- A decimal: the digits in front of the point, those behind it, and the exponent.  There is a point
if there are digits behind it. -/
structure Decimal where
  whole : List Nat
  frac : List Nat
  exp : Option ExpPart

/-- The text of an exponent. -/
def ExpPart.text (x : ExpPart) : Str :=
  (if x.capital then 69 else 101) :: ((match x.sign with
    | none => ([] : Str)
    | some true => [45]
    | some false => [43]) ++ x.digits.map decCh)

/-- The value of an exponent. -/
def ExpPart.value (x : ExpPart) : Int := if x.sign = some true then -(natOf 10 x.digits : Int) else natOf 10 x.digits

/-- The digits and the point. -/
def Decimal.mant (d : Decimal) : Str := d.whole.map decCh ++ (if d.frac = [] then [] else 46 :: d.frac.map decCh)

/-- The text of a decimal. -/
def Decimal.text (d : Decimal) : Str := d.mant ++ (match d.exp with
  | none => []
  | some x => x.text)

/-- There are digits, and they are decimal digits. -/
structure Decimal.Ok (d : Decimal) : Prop where
  some_digit : d.whole ≠ [] ∨ d.frac ≠ []
  whole : ∀ x ∈ d.whole, x < 10
  frac : ∀ x ∈ d.frac, x < 10
  exp : ∀ x, d.exp = some x → x.digits ≠ [] ∧ ∀ y ∈ x.digits, y < 10

/-- The power of ten that the digits are multiplied with. -/
def Decimal.power (d : Decimal) : Int := (match d.exp with
  | none => 0
  | some x => x.value) - d.frac.length

/-- The decimal is the fraction `num / den`. -/
def Decimal.num (d : Decimal) : Nat := natOf 10 (d.whole ++ d.frac) * 10 ^ d.power.toNat
def Decimal.den (d : Decimal) : Nat := 10 ^ (-d.power).toNat

/-- `m * 2 ^ (e - 1074)` is a double, no double is nearer to `num / den`, and if another one is as near
then `m` is even. -/
structure Nearest (num den m e : Nat) : Prop where
  double : F64.NF m e
  nearest : ∀ m' e', F64.NF m' e' →
    F64.dist (m * 2 ^ e * den) (num * 2 ^ 1074) ≤ F64.dist (m' * 2 ^ e' * den) (num * 2 ^ 1074)
  even : ∀ m' e', F64.NF m' e' → m' * 2 ^ e' ≠ m * 2 ^ e →
    F64.dist (m' * 2 ^ e' * den) (num * 2 ^ 1074) = F64.dist (m * 2 ^ e * den) (num * 2 ^ 1074) → m % 2 = 0

/-- `num / den` is too large for a double: by half a step or more. -/
def TooLarge (num den : Nat) : Prop := (2 ^ 54 - 1) * 2 ^ 970 * den ≤ num

/-! ## Lemmas -/

theorem decCh_digit {d : Nat} (h : d < 10) : isDigit (decCh d) = true ∧ digitVal (decCh d) = d :=
  ⟨(dig_byte h).1, (dig_byte h).2.1⟩

theorem dig_map {ds : List Nat} (h : ∀ x ∈ ds, x < 10) : Dig (ds.map decCh) := by
  intro c hc
  obtain ⟨d, hd, rfl⟩ := List.mem_map.1 hc
  exact (decCh_digit (h d hd)).1

theorem decVal_map {ds : List Nat} (h : ∀ x ∈ ds, x < 10) : decVal (ds.map decCh) = natOf 10 ds := by
  unfold decVal natOf
  generalize 0 = a
  induction ds generalizing a with
  | nil => rfl
  | cons d t ih =>
    simp only [List.map_cons, List.foldl_cons, (decCh_digit (h d (by simp))).2]
    exact ih (fun x hx => h x (by simp [hx])) _

/-- The characters of decimals. -/
def decChar (c : UInt8) : Bool := isDigit c || c == 46 || c == 101 || c == 69 || c == 43 || c == 45

theorem mant_chars {d : Decimal} (h : d.Ok) : ∀ c ∈ d.mant, isDigit c = true ∨ c = 46 := by
  intro c hc
  unfold Decimal.mant at hc
  rcases List.mem_append.1 hc with hc | hc
  · exact .inl (dig_map h.whole c hc)
  · split at hc
    · cases hc
    · rcases List.mem_cons.1 hc with rfl | hc
      · exact .inr rfl
      · exact .inl (dig_map h.frac c hc)

theorem text_chars {d : Decimal} (h : d.Ok) : ∀ c ∈ d.text, decChar c = true := by
  intro c hc
  unfold Decimal.text at hc
  rcases List.mem_append.1 hc with hc | hc
  · rcases mant_chars h c hc with hd | rfl
    · simp [decChar, hd]
    · decide
  · cases hx : d.exp with
    | none => rw [hx] at hc; cases hc
    | some x =>
      rw [hx] at hc
      simp only [ExpPart.text, List.cons_append, List.mem_cons, List.mem_append] at hc
      rcases hc with rfl | hc | hc
      · split <;> decide
      · split at hc
        · cases hc
        · rw [List.mem_singleton.1 hc]; decide
        · rw [List.mem_singleton.1 hc]; decide
      · have := dig_map (h.exp x hx).2 c hc
        simp [decChar, this]

theorem text_hex {d : Decimal} (h : d.Ok) (r : Str) : d.text ≠ 48 :: 120 :: r := by
  intro he
  have := text_chars h 120 (by rw [he]; simp)
  exact absurd this (by decide)

theorem mant_head {d : Decimal} (h : d.Ok) : ∃ c t, d.mant = c :: t ∧ (isDigit c = true ∨ c = 46) := by
  cases hm : d.mant with
  | nil =>
    exfalso
    unfold Decimal.mant at hm
    rcases h.some_digit with hw | hf
    · cases hd : d.whole with
      | nil => exact hw hd
      | cons a b => rw [hd] at hm; simp at hm
    · rw [if_neg hf] at hm; simp at hm
  | cons c t => exact ⟨c, t, rfl, mant_chars h c (by rw [hm]; simp)⟩

theorem text_head {d : Decimal} (h : d.Ok) : ∃ c t, d.text = c :: t ∧ (isDigit c = true ∨ c = 46) := by
  obtain ⟨c, t, hm, hc⟩ := mant_head h
  exact ⟨c, t ++ (match d.exp with | none => [] | some x => x.text), by unfold Decimal.text; rw [hm]; rfl, hc⟩

theorem text_dash {d : Decimal} (h : d.Ok) (r : Str) : d.text ≠ 45 :: r := by
  obtain ⟨c, t, he, hc⟩ := text_head h
  intro hr
  rw [he] at hr
  simp only [List.cons.injEq] at hr
  rcases hc with hc | hc
  · exact digit_ne c hc hr.1
  · rw [hc] at hr; exact absurd hr.1 (by decide)

theorem cut_exp {d : Decimal} (h : d.Ok) : cutAt (fun c => c == 101 || c == 69) d.text =
    (d.mant, d.exp.map fun x => x.text.tail) := by
  have hx : ∀ c : UInt8, isDigit c = true ∨ c = 46 → (!(c == 101 || c == 69)) = true := by
    intro c hc
    rcases hc with hc | rfl
    · exact (forall_byte (p := fun c => isDigit c = true → (!(c == 101 || c == 69)) = true) (by decide +kernel)) c hc
    · decide
  unfold Decimal.text cutAt
  cases he : d.exp with
  | none =>
    simp only [List.append_nil, Option.map_none]
    rw [span_all (fun c hc => hx c (mant_chars h c hc))]
  | some x =>
    simp only [Option.map_some, ExpPart.text, List.cons_append, List.tail_cons]
    rw [span_stop (fun c hc => hx c (mant_chars h c hc)) (by cases x.capital <;> decide)]

theorem cut_point {d : Decimal} (h : d.Ok) : ∃ i f, cutAt (· == 46) d.mant = (i, f) ∧ i = d.whole.map decCh ∧
    f.getD [] = d.frac.map decCh := by
  have hy : ∀ c : UInt8, isDigit c = true → (!(c == 46)) = true := forall_byte (by decide +kernel)
  have hw : ∀ c ∈ d.whole.map decCh, (!(c == 46)) = true := fun c hc => hy c (dig_map h.whole c hc)
  unfold Decimal.mant cutAt
  by_cases hf : d.frac = []
  · rw [if_pos hf, List.append_nil, span_all hw, hf]
    exact ⟨_, _, rfl, rfl, rfl⟩
  · rw [if_neg hf, span_stop hw (by decide)]
    exact ⟨_, _, rfl, rfl, rfl⟩

theorem exp_value {d : Decimal} (h : d.Ok) : expVal (d.exp.map fun x => x.text.tail) = d.power + d.frac.length := by
  unfold Decimal.power
  cases he : d.exp with
  | none => simp only [Option.map_none, expVal]; omega
  | some x =>
    obtain ⟨hne, hd⟩ := h.exp x he
    have hv := decVal_map hd
    simp only [Option.map_some, ExpPart.text, List.cons_append, List.tail_cons, ExpPart.value]
    cases hs : x.sign with
    | some b =>
      cases b
      · simp [expVal, hv]
      · simp [expVal, hv]
    | none =>
      simp only [List.nil_append, reduceCtorEq, if_false, Int.sub_add_cancel]
      cases hds : x.digits with
      | nil => exact absurd hds hne
      | cons a t =>
        have ha : isDigit (decCh a) = true := (decCh_digit (hd a (by rw [hds]; simp))).1
        have h1 : decCh a ≠ 45 := digit_ne _ ha
        have h2 : decCh a ≠ 43 := by
          intro e; rw [e] at ha; exact absurd ha (by decide)
        rw [hds] at hv
        rw [← hv, List.map_cons]
        unfold expVal
        split
        · rename_i e; cases e
        · rename_i r e; injection e with e; injection e with e _; exact absurd e h1
        · rename_i r e; injection e with e; injection e with e _; exact absurd e h2
        · rename_i r _ _ e; injection e with e; rw [e]

/-- How decimals are rounded. -/
theorem ofDecimal_spec (neg : Bool) (n : Nat) (p : Int) :
    (TooLarge (n * 10 ^ p.toNat) (10 ^ (-p).toNat) → ofDecimal neg n p = .inf neg) ∧
    (¬ TooLarge (n * 10 ^ p.toNat) (10 ^ (-p).toNat) → ∃ m e, ofDecimal neg n p = .fin neg m e ∧
      Nearest (n * 10 ^ p.toNat) (10 ^ (-p).toNat) m e) := by
  have hden : 0 < 10 ^ (-p).toNat := Nat.pow_pos (by omega)
  have heq : ofDecimal neg n p = F64.round neg (n * 10 ^ p.toNat * 2 ^ 1074) (10 ^ (-p).toNat) := by
    unfold ofDecimal
    by_cases hp : 0 ≤ p
    · have : (-p).toNat = 0 := by omega
      rw [if_pos hp, this, Nat.pow_zero]
    · have : p.toNat = 0 := by omega
      rw [if_neg hp, this, Nat.pow_zero, Nat.mul_one]
  rw [heq]
  generalize n * 10 ^ p.toNat = num
  generalize 10 ^ (-p).toNat = den at hden ⊢
  have hinf := F64.round_inf (neg := neg) (num := num * 2 ^ 1074) hden
  have hT : TooLarge num den ↔ (2 ^ 54 - 1) * 2 ^ 2044 * den ≤ num * 2 ^ 1074 := by
    unfold TooLarge
    obtain ⟨P, hP⟩ : ∃ P : Nat, 2 ^ 1074 = P := ⟨_, rfl⟩
    have hP0 : 0 < P := by rw [← hP]; exact Nat.pow_pos (by omega)
    have : (2 : Nat) ^ 2044 = 2 ^ 970 * P := by rw [← hP, ← Nat.pow_add]
    rw [this, hP]
    have h2 : (2 ^ 54 - 1) * (2 ^ 970 * P) * den = (2 ^ 54 - 1) * 2 ^ 970 * den * P := by
      simp only [Nat.mul_assoc, Nat.mul_left_comm, Nat.mul_comm]
    rw [h2]
    exact ⟨fun h => Nat.mul_le_mul_right _ h, fun h => Nat.le_of_mul_le_mul_right h hP0⟩
  refine ⟨fun h => hinf.2 (hT.1 h), fun h => ?_⟩
  cases hr : F64.round neg (num * 2 ^ 1074) den with
  | nan => exact absurd hr (round_not_nan _ _ _)
  | inf b =>
    exfalso
    have hb : b = neg := by
      unfold F64.round at hr
      simp only at hr
      by_cases hm : F64.rhe (num * 2 ^ 1074) (den * 2 ^ F64.expo (num * 2 ^ 1074) den) = 2 ^ 53
      · rw [if_pos hm] at hr
        split at hr
        · injection hr with hr; exact hr.symm
        · cases hr
      · rw [if_neg hm] at hr
        split at hr
        · injection hr with hr; exact hr.symm
        · cases hr
    rw [hb] at hr
    exact h (hT.2 (hinf.1 hr))
  | fin b m e =>
    obtain ⟨rfl, hnf⟩ := F64.round_nf hden hr
    exact ⟨m, e, rfl, hnf, fun m' e' h' => (F64.round_nearest hden hr h').1, fun m' e' h' => (F64.round_nearest hden hr h').2⟩

/-- What `ParseFloat` makes of a decimal, as a rounded decimal. -/
theorem parseF64_body {d : Decimal} (h : d.Ok) (neg : Bool) :
    parseF64 (sgn neg ++ d.text) = match ofDecimal neg (natOf 10 (d.whole ++ d.frac)) d.power with
      | .inf _ => none
      | x => some x := by
  rw [parseF64_sgn (text_dash h)]
  unfold f64Body
  split
  · rename_i r he
    exact absurd he (text_hex h _)
  · obtain ⟨i, f, hif, hi, hf⟩ := cut_point h
    simp only [cut_exp h, hif, hf, hi]
    rw [exp_value h, ← List.map_append, decVal_map, List.length_map]
    · rw [Int.add_sub_cancel]
      cases ofDecimal neg (natOf 10 (d.whole ++ d.frac)) d.power <;> rfl
    · intro x hx
      rcases List.mem_append.1 hx with hx | hx
      · exact h.whole x hx
      · exact h.frac x hx

/-- What `ParseFloat` makes of a decimal. -/
theorem parseF64_decimal {d : Decimal} (h : d.Ok) (neg : Bool) :
    (TooLarge d.num d.den → parseF64 (sgn neg ++ d.text) = none) ∧
    (¬ TooLarge d.num d.den → ∃ m e, parseF64 (sgn neg ++ d.text) = some (.fin neg m e) ∧ Nearest d.num d.den m e) := by
  obtain ⟨h1, h2⟩ := ofDecimal_spec neg (natOf 10 (d.whole ++ d.frac)) d.power
  rw [parseF64_body h neg]
  constructor
  · intro ht
    rw [h1 ht]
  · intro ht
    obtain ⟨m, e, he, hn⟩ := h2 ht
    rw [he]
    exact ⟨m, e, rfl, hn⟩

theorem base_bad {b : Nat} {s : Str} {c : UInt8} (h : c ∈ s) (hc : b ≤ digitVal c) : baseVal b s = none := by
  unfold baseVal
  split
  · rfl
  · rw [if_neg]
    intro ha
    have := List.all_eq_true.1 ha c h
    simp at this
    omega

theorem intBody_bad {s : Str} (hx : ∀ r, s ≠ 48 :: 120 :: r) {c : UInt8} (h : c ∈ s) (hc : 10 ≤ digitVal c) : intBody s = none := by
  have h48 : c ≠ 48 := by rintro rfl; exact absurd hc (by decide)
  unfold intBody
  split
  · exact absurd rfl (hx _)
  · simp at h; exact absurd h h48
  · rename_i o _ 
    rcases List.mem_cons.1 h with h | h
    · exact absurd h h48
    · exact base_bad h (by omega)
  · exact base_bad h hc

theorem baseVal_map {b : Nat} (f : Nat → UInt8) {ds : List Nat} (hne : ds ≠ []) (h : ∀ x ∈ ds, x < b ∧ digitVal (f x) = x) :
    baseVal b (ds.map f) = some (natOf b ds) := by
  unfold baseVal natOf
  rw [if_neg (by simpa using hne), if_pos]
  · congr 1
    generalize 0 = a
    clear hne
    induction ds generalizing a with
    | nil => rfl
    | cons d t ih =>
      simp only [List.map_cons, List.foldl_cons, (h d (by simp)).2]
      exact ih (fun x hx => h x (by simp [hx])) _
  · rw [List.all_eq_true]
    intro c hc
    obtain ⟨d, hd, rfl⟩ := List.mem_map.1 hc
    simp [h d hd]

/-- The number with its sign. -/
def signed (neg : Bool) (n : Nat) : Int := if neg then -(n : Int) else n

/-- It fits into 64 bits. -/
def Fits (v : Int) : Prop := -(2 ^ 63 : Int) ≤ v ∧ v < 2 ^ 63

instance (v : Int) : Decidable (Fits v) := inferInstanceAs (Decidable (_ ∧ _))

theorem fit_eq (neg : Bool) (n : Nat) : fitI64 neg n =
    if Fits (signed neg n) then some (BitVec.ofInt 64 (signed neg n)) else none := rfl

theorem toInt_fit {v : Int} (h : Fits v) : (BitVec.ofInt 64 v).toInt = v := by
  obtain ⟨h1, h2⟩ := h
  rw [BitVec.toInt_ofInt, Int.bmod_eq_of_le] <;> omega

/-! ## The property -/

/-- **C86** Decimals with a point or an exponent: the number is the double nearest to what is written,
of two that are as near the even one.  Nothing else is lost.  Numbers beyond the largest double are not
numbers. -/
theorem C86_decimal {X : Type} {d : Decimal} (h : d.Ok) (hd : d.frac ≠ [] ∨ d.exp.isSome) (neg : Bool) :
    (TooLarge d.num d.den → numberV (X := X) (sgn neg ++ d.text) = none) ∧
    (¬ TooLarge d.num d.den → ∃ m e, numberV (X := X) (sgn neg ++ d.text) = some (.float (.fin neg m e)) ∧
      Nearest d.num d.den m e) := by
  have hint : parseInt0 (sgn neg ++ d.text) = none := by
    rw [parseInt_sgn (text_dash h)]
    have : intBody d.text = none := by
      rcases hd with hf | hx
      · refine intBody_bad (text_hex h) (c := 46) ?_ (by decide)
        unfold Decimal.text Decimal.mant
        rw [if_neg hf]; simp
      · obtain ⟨x, hx⟩ := Option.isSome_iff_exists.1 hx
        refine intBody_bad (text_hex h) (c := if x.capital then 69 else 101) ?_ (by split <;> decide)
        unfold Decimal.text
        rw [hx]
        simp [ExpPart.text]
    rw [this]; rfl
  obtain ⟨h1, h2⟩ := parseF64_decimal h neg
  unfold numberV
  rw [hint]
  refine ⟨fun ht => by rw [h1 ht]; rfl, fun ht => ?_⟩
  obtain ⟨m, e, he, hn⟩ := h2 ht
  exact ⟨m, e, by rw [he]; rfl, hn⟩

/-- What happens to digits that are no integer of the language. -/
theorem not_int {X : Type} {ds : List Nat} (hne : ds ≠ []) (hd : ∀ x ∈ ds, x < 10) (neg : Bool)
    (hint : parseInt0 (sgn neg ++ ds.map decCh) = none) :
    (TooLarge (natOf 10 ds) 1 → numberV (X := X) (sgn neg ++ ds.map decCh) = none) ∧
    (¬ TooLarge (natOf 10 ds) 1 → ∃ m e, numberV (X := X) (sgn neg ++ ds.map decCh) = some (.float (.fin neg m e)) ∧
      Nearest (natOf 10 ds) 1 m e) := by
  have hok : (Decimal.mk ds [] none).Ok := ⟨.inl hne, hd, by simp, by simp⟩
  have ht : (Decimal.mk ds [] none).text = ds.map decCh := by simp [Decimal.text, Decimal.mant]
  obtain ⟨h1, h2⟩ := parseF64_decimal hok neg
  rw [ht] at h1 h2
  have hn : (Decimal.mk ds [] none).num = natOf 10 ds := by simp [Decimal.num, Decimal.power]
  have hden : (Decimal.mk ds [] none).den = 1 := by simp [Decimal.den, Decimal.power]
  rw [hn, hden] at h1 h2
  unfold numberV
  rw [hint]
  refine ⟨fun ht => by rw [h1 ht]; rfl, fun ht => ?_⟩
  obtain ⟨m, e, he, hn⟩ := h2 ht
  exact ⟨m, e, by rw [he]; rfl, hn⟩

/-- **C86** Whole numbers that do not begin with a zero are the integers they spell if these fit into 64
bits, and otherwise the nearest doubles. -/
theorem C86_whole {X : Type} {ds : List Nat} (hne : ds ≠ []) (hd : ∀ x ∈ ds, x < 10) (h0 : ds = [0] ∨ ds.head? ≠ some 0)
    (neg : Bool) :
    (Fits (signed neg (natOf 10 ds)) → ∃ i : I64, numberV (X := X) (sgn neg ++ ds.map decCh) = some (.int i) ∧
      i.toInt = signed neg (natOf 10 ds)) ∧
    (¬ Fits (signed neg (natOf 10 ds)) →
      (TooLarge (natOf 10 ds) 1 → numberV (X := X) (sgn neg ++ ds.map decCh) = none) ∧
      (¬ TooLarge (natOf 10 ds) 1 → ∃ m e, numberV (X := X) (sgn neg ++ ds.map decCh) = some (.float (.fin neg m e)) ∧
        Nearest (natOf 10 ds) 1 m e)) := by
  have hok : (Decimal.mk ds [] none).Ok := ⟨.inl hne, hd, by simp, by simp⟩
  have ht : (Decimal.mk ds [] none).text = ds.map decCh := by simp [Decimal.text, Decimal.mant]
  have hbody : intBody (ds.map decCh) = some (natOf 10 ds) := by
    rcases h0 with rfl | h0
    · rfl
    · have hb := baseVal_map (b := 10) decCh hne (fun x hx => ⟨hd x hx, (decCh_digit (hd x hx)).2⟩)
      have h48 : ∀ r, ds.map decCh ≠ 48 :: r := by
        intro r he
        cases hds : ds with
        | nil => exact hne hds
        | cons a t =>
          rw [hds, List.map_cons] at he
          injection he with he _
          have ha := hd a (by rw [hds]; simp)
          have := (dig_byte ha).2.2.1 he
          rw [hds, this] at h0
          exact h0 rfl
      unfold intBody
      split
      · rename_i he; exact absurd he (h48 _)
      · rename_i he; exact absurd he (h48 _)
      · rename_i he; exact absurd he (h48 _)
      · exact hb
  have hp : parseInt0 (sgn neg ++ ds.map decCh) = fitI64 neg (natOf 10 ds) := by
    rw [← ht, parseInt_sgn (text_dash hok), ht, hbody]; rfl
  constructor
  · intro hf
    refine ⟨BitVec.ofInt 64 (signed neg (natOf 10 ds)), ?_, toInt_fit hf⟩
    unfold numberV
    rw [hp, fit_eq, if_pos hf]
  · intro hf
    exact not_int hne hd neg (by rw [hp, fit_eq, if_neg hf])

/-- **C86** Hexadecimal numbers are the integers they spell, whatever the case of their letters; those that
do not fit into 64 bits are not numbers. -/
theorem C86_hex {X : Type} {ds : List (Nat × Bool)} (hne : ds ≠ []) (hd : ∀ x ∈ ds, x.1 < 16) (neg : Bool) :
    (Fits (signed neg (natOf 16 (ds.map Prod.fst))) → ∃ i : I64,
      numberV (X := X) (sgn neg ++ bs "0x" ++ ds.map hexCh) = some (.int i) ∧ i.toInt = signed neg (natOf 16 (ds.map Prod.fst))) ∧
    (¬ Fits (signed neg (natOf 16 (ds.map Prod.fst))) → numberV (X := X) (sgn neg ++ bs "0x" ++ ds.map hexCh) = none) := by
  have hv : ∀ x : Nat × Bool, x.1 < 16 → digitVal (hexCh x) = x.1 := by
    have : ∀ (n : Fin 16) (b : Bool), digitVal (hexCh (n.1, b)) = n.1 := by decide +kernel
    exact fun x hx => this ⟨x.1, hx⟩ x.2
  have hb : baseVal 16 (ds.map hexCh) = some (natOf 16 (ds.map Prod.fst)) := by
    unfold baseVal natOf
    rw [if_neg (by simpa using hne), if_pos]
    · congr 1
      generalize 0 = a
      clear hne
      induction ds generalizing a with
      | nil => rfl
      | cons d t ih =>
        simp only [List.map_cons, List.foldl_cons, hv d (hd d (by simp))]
        exact ih (fun x hx => hd x (by simp [hx])) _
    · rw [List.all_eq_true]
      intro c hc
      obtain ⟨d, hd', rfl⟩ := List.mem_map.1 hc
      simp [hv d (hd d hd'), hd d hd']
  have htext : sgn neg ++ bs "0x" ++ ds.map hexCh = sgn neg ++ 48 :: 120 :: ds.map hexCh := by
    rw [List.append_assoc]; rfl
  have hp : parseInt0 (sgn neg ++ 48 :: 120 :: ds.map hexCh) = fitI64 neg (natOf 16 (ds.map Prod.fst)) := by
    rw [parseInt_sgn (by intro r he; injection he with he _; exact absurd he (by decide))]
    show (baseVal 16 (ds.map hexCh)).bind _ = _
    rw [hb]; rfl
  have hf64 : parseF64 (sgn neg ++ 48 :: 120 :: ds.map hexCh) = none := by
    rw [parseF64_sgn (by intro r he; injection he with he _; exact absurd he (by decide))]; rfl
  rw [htext]
  unfold numberV
  rw [hp, fit_eq]
  constructor
  · intro hf
    exact ⟨_, by rw [if_pos hf], toInt_fit hf⟩
  · intro hf
    rw [if_neg hf, hf64]; rfl

/-- **C86** A zero in front makes a number octal, if its digits allow it and it fits into 64 bits. -/
theorem C86_octal {X : Type} {ds : List Nat} (hne : ds ≠ []) (hd : ∀ x ∈ ds, x < 8) (neg : Bool)
    (hf : Fits (signed neg (natOf 8 ds))) :
    ∃ i : I64, numberV (X := X) (sgn neg ++ (0 :: ds).map decCh) = some (.int i) ∧ i.toInt = signed neg (natOf 8 ds) := by
  have hd10 : ∀ x ∈ 0 :: ds, x < 10 := by
    intro x hx
    rcases List.mem_cons.1 hx with rfl | hx
    · omega
    · have := hd x hx; omega
  have hok : (Decimal.mk (0 :: ds) [] none).Ok := ⟨.inl (by simp), hd10, by simp, by simp⟩
  have ht : (Decimal.mk (0 :: ds) [] none).text = (0 :: ds).map decCh := by simp [Decimal.text, Decimal.mant]
  have hb := baseVal_map (b := 8) decCh hne (fun x hx => ⟨hd x hx, (decCh_digit (hd10 x (by simp [hx]))).2⟩)
  have hbody : intBody ((0 :: ds).map decCh) = some (natOf 8 ds) := by
    rw [← hb]
    have hx := text_hex hok
    rw [ht] at hx
    have h0 : (0 :: ds).map decCh = 48 :: ds.map decCh := rfl
    rw [h0] at hx ⊢
    cases hm : ds.map decCh with
    | nil => simp at hm; exact absurd hm hne
    | cons c t =>
      rw [hm] at hx
      unfold intBody
      split
      · rename_i he; exact absurd he (hx _)
      · rename_i he; simp at he
      · rename_i he; injection he with _ he; rw [he]
      · rename_i h1 h2 h3; exact absurd rfl (h3 _)
  refine ⟨BitVec.ofInt 64 (signed neg (natOf 8 ds)), ?_, toInt_fit hf⟩
  unfold numberV
  rw [← ht, parseInt_sgn (text_dash hok), ht, hbody]
  show (match fitI64 neg (natOf 8 ds) with | some i => _ | none => _) = _
  rw [fit_eq, if_pos hf]

/-- **C86** A number that begins with a zero and has a digit 8 or 9 is not octal: it is a double, the one
nearest to the decimal number. -/
theorem C86_not_octal {X : Type} {ds : List Nat} (hd : ∀ x ∈ ds, x < 10) (h8 : ∃ x ∈ ds, 8 ≤ x) (neg : Bool) :
    (TooLarge (natOf 10 ds) 1 → numberV (X := X) (sgn neg ++ (0 :: ds).map decCh) = none) ∧
    (¬ TooLarge (natOf 10 ds) 1 → ∃ m e, numberV (X := X) (sgn neg ++ (0 :: ds).map decCh) = some (.float (.fin neg m e)) ∧
      Nearest (natOf 10 ds) 1 m e) := by
  obtain ⟨y, hy, hy8⟩ := h8
  have hd10 : ∀ x ∈ 0 :: ds, x < 10 := by
    intro x hx
    rcases List.mem_cons.1 hx with rfl | hx
    · omega
    · exact hd x hx
  have hok : (Decimal.mk (0 :: ds) [] none).Ok := ⟨.inl (by simp), hd10, by simp, by simp⟩
  have ht : (Decimal.mk (0 :: ds) [] none).text = (0 :: ds).map decCh := by simp [Decimal.text, Decimal.mant]
  have hbody : intBody ((0 :: ds).map decCh) = none := by
    have hx := text_hex hok
    rw [ht] at hx
    have hmem : decCh y ∈ ds.map decCh := List.mem_map.2 ⟨y, hy, rfl⟩
    have hbad : baseVal 8 (ds.map decCh) = none := base_bad hmem (by rw [(decCh_digit (hd y hy)).2]; exact hy8)
    have h0 : (0 :: ds).map decCh = 48 :: ds.map decCh := rfl
    rw [h0] at hx ⊢
    cases hm : ds.map decCh with
    | nil => rw [hm] at hmem; cases hmem
    | cons c t =>
      rw [hm] at hx hbad
      unfold intBody
      split
      · rename_i he; exact absurd he (hx _)
      · rename_i he; simp at he
      · rename_i he; injection he with _ he; rw [← he]; exact hbad
      · rename_i h1 h2 h3; exact absurd rfl (h3 _)
  have hz : natOf 10 (0 :: ds) = natOf 10 ds := by simp [natOf]
  have := not_int (X := X) (ds := 0 :: ds) (by simp) hd10 neg (by
    rw [← ht, parseInt_sgn (text_dash hok), ht, hbody]; rfl)
  rw [hz] at this
  exact this

/-! ## They are read as one token -/

theorem exp_token {x : ExpPart} (hne : x.digits ≠ []) (hd : ∀ y ∈ x.digits, y < 10) : exponent x.text = (x.text, []) := by
  have hm : many1 isDigit (x.digits.map decCh) = some (x.digits.map decCh, []) := by
    unfold many1
    rw [span_all (fun c hc => dig_map hd c hc)]
    cases hds : x.digits with
    | nil => exact absurd hds hne
    | cons a t => rfl
  have he : (if x.capital then (69 : UInt8) else 101) = 101 ∨ (if x.capital then (69 : UInt8) else 101) = 69 := by
    cases x.capital <;> simp
  unfold ExpPart.text exponent
  simp only [List.cons_append]
  rw [if_pos he]
  cases hs : x.sign with
  | some b => cases b <;> simp [hm]
  | none =>
    simp only [List.nil_append]
    cases hds : x.digits with
    | nil => exact absurd hds hne
    | cons a t =>
      have ha : isDigit (decCh a) = true := (decCh_digit (hd a (by rw [hds]; simp))).1
      have h1 : ¬ (decCh a = 43 ∨ decCh a = 45) := by
        rintro (e | e) <;> rw [e] at ha <;> exact absurd ha (by decide)
      rw [hds] at hm
      simp only [List.map_cons] at hm ⊢
      rw [if_neg h1]
      simp only [hm, List.nil_append]

theorem text_unsigned {d : Decimal} (h : d.Ok) : unsigned d.text = some (d.text, []) := by
  rw [unsigned_dec (text_hex h)]
  have hdec : decimal d.text = some (d.mant, match d.exp with | none => [] | some x => x.text) := by
    unfold Decimal.text
    refine decimal_of ?_ ?_
    · unfold Decimal.mant
      by_cases hf : d.frac = []
      · refine .inl ?_
        rw [if_pos hf, List.append_nil]
        exact ⟨by simpa using h.some_digit.resolve_right (fun hn => hn hf), dig_map h.whole⟩
      · refine .inr ⟨d.whole.map decCh, d.frac.map decCh, by rw [if_neg hf], dig_map h.whole, by simpa using hf, dig_map h.frac⟩
    · cases d.exp with
      | none => rfl
      | some x => simp only [ExpPart.text, List.cons_append, headNot]; cases x.capital <;> decide
  unfold decNum
  rw [hdec]
  unfold Decimal.text
  cases hx : d.exp with
  | none => simp [exponent]
  | some x =>
    obtain ⟨h1, h2⟩ := h.exp x hx
    simp only [exp_token h1 h2]

theorem literal_tok {c : UInt8} {t : Str} (hc : isDigit c = true ∨ c = 46) (hu : unsigned (c :: t) = some (c :: t, [])) (neg : Bool) :
    IsTok .number (sgn neg ++ c :: t) := by
  have h45 : c ≠ 45 := by
    rcases hc with hc | rfl
    · exact digit_ne c hc
    · decide
  cases neg
  · refine isTok_of 22 _ rfl ?_ ((number_uns (by intro r e; injection e with e _; exact h45 e)).trans hu)
    show firstRule (rules.take 22) (c :: t) = none
    rcases hc with hc | rfl
    · have := digit_head c hc
      simp only [List.mem_cons, List.not_mem_nil, or_false] at this
      rcases this with rfl | rfl | rfl | rfl | rfl | rfl | rfl | rfl | rfl | rfl <;> rfl
    · rfl
  · refine isTok_of 22 _ rfl (dash_head h45 t) ?_
    show (unsigned (c :: t)).map (fun p => ((45 : UInt8) :: p.1, p.2)) = some (45 :: c :: t, [])
    rw [hu]; rfl

/-- **C86** Every decimal, with or without sign, is read as one number. -/
theorem C86_token {d : Decimal} (h : d.Ok) (neg : Bool) : IsTok .number (sgn neg ++ d.text) := by
  obtain ⟨c, t, he, hc⟩ := text_head h
  have hu := text_unsigned h
  rw [he] at hu ⊢
  exact literal_tok hc hu neg

/-- **C86** So is every hexadecimal number. -/
theorem C86_hex_token {ds : List (Nat × Bool)} (hne : ds ≠ []) (hd : ∀ x ∈ ds, x.1 < 16) (neg : Bool) :
    IsTok .number (sgn neg ++ bs "0x" ++ ds.map hexCh) := by
  have hv : ∀ c ∈ ds.map hexCh, isHex c = true := by
    have : ∀ (n : Fin 16) (b : Bool), isHex (hexCh (n.1, b)) = true := by decide +kernel
    intro c hc
    obtain ⟨x, hx, rfl⟩ := List.mem_map.1 hc
    exact this ⟨x.1, hd x hx⟩ x.2
  have hm : many1 isHex (ds.map hexCh) = some (ds.map hexCh, []) := by
    unfold many1
    rw [span_all hv]
    cases hds : ds with
    | nil => exact absurd hds hne
    | cons a t => rfl
  rw [List.append_assoc]
  refine literal_tok (c := 48) (t := 120 :: ds.map hexCh) (.inl (by decide)) ?_ neg
  rw [unsigned_eq]
  simp only [hm]

/-! ## In a query -/

open Vql in
/-- **C86** In a query a number has this value and nothing else happens; a text that is no number is
reported and has the value NULL.  Package hosts have `H.num = numberV`. -/
theorem C86_evaluated {F S : Type} [FloatOps F] {H : Host F S} {t : Str} {s : Nat} {st st' : Vql.St F S} {v : V F} :
    Runs H (call (.value (.num t) s)) st v st' ↔
      (H.num t = some v ∧ st' = st) ∨
      (H.num t = none ∧ v = .null ∧
        st' = { st with log := st.log ++ [bs "ERROR:Unable to parse " ++ t ++ bs " as a number."] }) := by
  rw [runs_call, body]
  cases hn : H.num t with
  | some w =>
    constructor
    · rintro ⟨n, h⟩
      cases h
      exact .inl ⟨rfl, rfl⟩
    · rintro (⟨h1, rfl⟩ | ⟨h1, _⟩)
      · cases h1; exact ⟨0, rfl⟩
      · cases h1
  | none =>
    constructor
    · rintro ⟨n, h⟩
      cases h
      exact .inr ⟨rfl, rfl, rfl⟩
    · rintro (⟨h1, _⟩ | ⟨_, rfl, rfl⟩)
      · cases h1
      · exact ⟨0, rfl⟩

/-! ## Limits -/

/-- **C86 (refuted for leading zeros)** A number with zeros in front is not the number its decimal digits
spell: `010` is 8. -/
theorem C86_zeros_refuted : ∃ ds : List Nat, (∀ x ∈ ds, x < 10) ∧ natOf 10 ds = 10 ∧
    (numberV (X := Unit) (ds.map decCh)).map (fun v => match v with | .int i => some i.toInt | _ => none) = some (some 8) :=
  ⟨[0, 1, 0], by decide, by decide, by decide +kernel⟩

/-- **C86 (refuted for large octal numbers)** An octal number that does not fit into 64 bits is read again as
a decimal one: `02000000000000000000000`, which is `2 ^ 64`, becomes `2 * 10 ^ 21`. -/
theorem C86_octal_refuted : ∃ ds : List Nat, (∀ x ∈ ds, x < 8) ∧ natOf 8 ds = 2 ^ 64 ∧
    numberV (X := Unit) ((0 :: ds).map decCh) = some (.float (ofDecimal false 2 21)) := by
  refine ⟨2 :: List.replicate 21 0, by decide, by decide, ?_⟩
  have h1 : parseInt0 ((0 :: 2 :: List.replicate 21 0).map decCh) = none := by decide +kernel
  have h2 : parseF64 ((0 :: 2 :: List.replicate 21 0).map decCh) = some (ofDecimal false 2 21) := by decide +kernel
  unfold numberV
  rw [h1, h2]; rfl

/-! ## Examples -/

/-- `-12.50e+3`, `.5`, `1E2` -/
example : sgn true ++ (Decimal.mk [1, 2] [5, 0] (some ⟨false, some false, [3]⟩)).text = bs "-12.50e+3" ∧
    (Decimal.mk [] [5] none).text = bs ".5" ∧ (Decimal.mk [1] [] (some ⟨true, none, [2]⟩)).text = bs "1E2" ∧
    (Decimal.mk [1, 2] [5, 0] (some ⟨false, some false, [3]⟩)).num = 12500 ∧
    (Decimal.mk [1, 2] [5, 0] (some ⟨false, some false, [3]⟩)).den = 1 ∧
    (Decimal.mk [] [5] none).num = 5 ∧ (Decimal.mk [] [5] none).den = 10 := by decide +kernel

example : (Decimal.mk [1, 2] [5, 0] (some ⟨false, some false, [3]⟩)).Ok :=
  ⟨.inl (by simp), by decide, by decide, by rintro x h; cases h; exact ⟨by simp, by decide⟩⟩

/-- `0xFf` -/
example : bs "0x" ++ [(15, true), (15, false)].map hexCh = bs "0xFf" ∧ natOf 16 ([(15, true), (15, false)].map Prod.fst) = 255 ∧
    Fits (signed true 255) := ⟨by decide, by decide, by decide, by decide⟩

example : ¬ Fits (signed false (natOf 16 (List.replicate 16 15))) := fun h => absurd h.2 (by decide)

/-- One half is written exactly. -/
example : numberV (X := Unit) (bs ".5") = some (.float (.fin false (2 ^ 52) 1021)) := by
  have h1 : parseInt0 (bs ".5") = none := by decide +kernel
  have h2 : parseF64 (bs ".5") = some (.fin false (2 ^ 52) 1021) := by decide +kernel
  unfold numberV
  rw [h1, h2]; rfl

end Vfilter.Fmt
