import Verif.KeyText
import Verif.F64Text
import Verif.Props.Literal
import Verif.Props.EvalHistogram
/-!
# C88: which rows GROUP BY puts together
-/

set_option linter.all false
set_option exponentiation.threshold 3000

namespace Vfilter.GroupKeys

open Vfilter.Fmt Vfilter.Vql

/-! ## The text of a double reads back -/

/-- A double as it is kept: the significand has at most 53 bits and is as large as possible. -/
def Double : F64 → Prop
  | .fin _ m e => F64.NF m e
  | _ => True

/-- The digits that a text consists of. -/
def digs (s : Str) : List Nat := s.map digitVal

theorem digs_back {s : Str} (h : Dig s) : (digs s).map decCh = s := by
  unfold digs
  rw [List.map_map]
  have hb : ∀ c : UInt8, Fmt.isDigit c = true → decCh (digitVal c) = c := forall_byte (by decide +kernel)
  conv => rhs; rw [← List.map_id s]
  exact List.map_congr_left fun c hc => hb c (h c hc)

theorem digs_small {s : Str} (h : Dig s) : ∀ x ∈ digs s, x < 10 := by
  have hb : ∀ c : UInt8, Fmt.isDigit c = true → digitVal c < 10 := forall_byte (by decide +kernel)
  intro x hx
  obtain ⟨c, hc, rfl⟩ := List.mem_map.1 hx
  exact hb c (h c hc)

theorem digs_val (s : Str) : natOf 10 (digs s) = decVal s := by
  unfold natOf digs decVal
  rw [List.foldl_map]

theorem digs_nil {s : Str} : digs s = [] ↔ s = [] := by unfold digs; simp

theorem digs_append (a b : Str) : digs (a ++ b) = digs a ++ digs b := by unfold digs; simp

/-- Digits, a point and digits, without an exponent. -/
theorem shape_point {a b : Str} (ha : Dig a) (h0 : a ≠ []) (hb : Dig b) : ∃ D : Decimal, D.Ok ∧
    D.text = a ++ (if b = [] then [] else 46 :: b) ∧ natOf 10 (D.whole ++ D.frac) = decVal (a ++ b) ∧
    D.power = -(b.length : Int) := by
  refine ⟨⟨digs a, digs b, none⟩, ⟨.inl (by rwa [Ne, digs_nil]), digs_small ha, digs_small hb, by simp⟩, ?_, ?_, ?_⟩
  · simp only [Decimal.text, Decimal.mant, digs_back ha, digs_back hb, digs_nil, List.append_nil]
  · rw [← digs_append, digs_val]
  · simp [Decimal.power, digs]

/-- The same with an exponent. -/
theorem shape_exp {a b x : Str} (ha : Dig a) (h0 : a ≠ []) (hb : Dig b) (hx : Dig x) (h1 : x ≠ []) (neg : Bool) :
    ∃ D : Decimal, D.Ok ∧
    D.text = a ++ (if b = [] then [] else 46 :: b) ++ 101 :: (if neg then 45 else 43) :: x ∧
    natOf 10 (D.whole ++ D.frac) = decVal (a ++ b) ∧
    D.power = (if neg then -(decVal x : Int) else decVal x) - b.length := by
  refine ⟨⟨digs a, digs b, some ⟨false, some neg, digs x⟩⟩,
    ⟨.inl (by rwa [Ne, digs_nil]), digs_small ha, digs_small hb, ?_⟩, ?_, ?_, ?_⟩
  · intro y hy
    cases hy
    exact ⟨by rwa [Ne, digs_nil], digs_small hx⟩
  · cases neg <;>
      simp [Decimal.text, Decimal.mant, digs_back ha, digs_back hb, digs_back hx, digs_nil, ExpPart.text]
  · rw [← digs_append, digs_val]
  · have hl : (digs b).length = b.length := by simp [digs]
    cases neg <;> simp [Decimal.power, ExpPart.value, digs_val, hl]

theorem decimalOf_back {neg : Bool} {m e : Nat} (hnf : F64.NF m e) (hm : m ≠ 0) :
    ofDecimal neg (decimalOf neg m e).1 (decimalOf neg m e).2 = .fin neg m e := by
  generalize hk : decExp (m * 2 ^ e) (2 ^ 1074) 700 (-330) = k
  have h17 := seventeen (neg := neg) hnf hm hk.symm
  have heq : F64.eq (.fin neg m e) (.fin neg m e) = true := by simp [F64.eq]
  have hs := shortest_spec (neg := neg) (x := .fin neg m e) (num := m * 2 ^ e) (den := 2 ^ 1074)
    (k := k) (by rw [h17]; exact heq) 17 1 rfl (by omega)
  have hd := ofDecimal_eq hnf hs
  clear hs h17 heq
  have ht := (trimZeros_same neg 20 _ _).trans hd
  have h : decimalOf neg m e = trimZeros 20
      (shortest neg (.fin neg m e) (m * 2 ^ e) (2 ^ 1074) (decExp (m * 2 ^ e) (2 ^ 1074) 700 (-330)) 17 1).1
      (shortest neg (.fin neg m e) (m * 2 ^ e) (2 ^ 1074) (decExp (m * 2 ^ e) (2 ^ 1074) 700 (-330)) 17 1).2 := rfl
  rw [h, hk]
  exact ht

/-- A decimal without an exponent. -/
theorem decimal_shape (neg : Bool) (d : Nat) (x : Int) : ∃ D : Decimal, D.Ok ∧ D.text = fmtDecimal d x ∧
    ofDecimal neg (natOf 10 (D.whole ++ D.frac)) D.power = ofDecimal neg d x := by
  have hD := digits_nat d
  unfold fmtDecimal
  simp only
  rw [natDigits_text _ _ _ (Nat.lt_succ_self d), List.append_nil]
  by_cases hx : 0 ≤ x
  · rw [if_pos hx]
    obtain ⟨D, h1, h2, h3, h4⟩ := shape_point (a := natText d ++ List.replicate x.toNat 48) (b := [])
      (dig_append hD.dig (dig_zeros _)) (by simp [hD.ne]) (by intro c hc; cases hc)
    refine ⟨D, h1, by simpa using h2, ?_⟩
    rw [h3, h4, List.append_nil, dec_append, dec_zeros, hD.val, Nat.add_zero, ofDecimal_shifts]
    congr 1
    simp
    omega
  · rw [if_neg hx]
    by_cases hp : (-x).toNat < (natText d).length
    · rw [if_pos hp, List.append_assoc]
      have htake : Dig ((natText d).take ((natText d).length - (-x).toNat)) :=
        fun c hc => hD.dig c (List.mem_of_mem_take hc)
      have hdrop : Dig ((natText d).drop ((natText d).length - (-x).toNat)) :=
        fun c hc => hD.dig c (List.mem_of_mem_drop hc)
      have hne : (natText d).drop ((natText d).length - (-x).toNat) ≠ [] := by
        intro h
        have := congrArg List.length h
        simp only [List.length_drop, List.length_nil] at this
        omega
      obtain ⟨D, h1, h2, h3, h4⟩ := shape_point htake (by
        intro h
        have := congrArg List.length h
        simp only [List.length_take, List.length_nil] at this
        omega) hdrop
      refine ⟨D, h1, by rw [h2, if_neg hne]; rfl, ?_⟩
      rw [h3, h4, List.take_append_drop, hD.val]
      congr 1
      simp only [List.length_drop]
      omega
    · rw [if_neg hp]
      have hz : Dig [48] := fun c hc => by rw [List.mem_singleton.1 hc]; decide
      obtain ⟨D, h1, h2, h3, h4⟩ := shape_point (a := [48]) (b := List.replicate ((-x).toNat - (natText d).length) 48 ++ natText d)
        hz (by simp) (dig_append (dig_zeros _) hD.dig)
      refine ⟨D, h1, by rw [h2, if_neg (by simp [hD.ne])]; rfl, ?_⟩
      rw [h3, h4, dec_append, dec_append, dec_zeros, hD.val]
      have h1 : decVal [48] = 0 := by decide +kernel
      rw [h1, Nat.zero_mul, Nat.zero_mul, Nat.zero_add, Nat.zero_add]
      congr 1
      simp only [List.length_append, List.length_replicate]
      omega

/-- A decimal with an exponent. -/
theorem scientific_shape (neg : Bool) (d : Nat) (x : Int) : ∃ D : Decimal, D.Ok ∧ D.text = fmtScientific d x ∧
    ofDecimal neg (natOf 10 (D.whole ++ D.frac)) D.power = ofDecimal neg d x := by
  have hD := digits_nat d
  unfold fmtScientific
  simp only
  rw [natDigits_text _ _ _ (Nat.lt_succ_self d), List.append_nil]
  generalize hy : x + ((natText d).length : Int) - 1 = y
  rw [natDigits_text _ _ _ (Nat.lt_succ_self y.natAbs), List.append_nil]
  have hE := digits_nat y.natAbs
  have htake : Dig ((natText d).take 1) := fun c hc => hD.dig c (List.mem_of_mem_take hc)
  have hdrop : Dig ((natText d).drop 1) := fun c hc => hD.dig c (List.mem_of_mem_drop hc)
  have hz : Dig (if y.natAbs < 10 then [48] else [] : Str) := by
    split
    · intro c hc; rw [List.mem_singleton.1 hc]; decide
    · intro c hc; cases hc
  have hlen : 0 < (natText d).length := List.length_pos_iff.2 hD.ne
  obtain ⟨D, h1, h2, h3, h4⟩ := shape_exp (a := (natText d).take 1) (b := (natText d).drop 1)
    (x := (if y.natAbs < 10 then [48] else []) ++ natText y.natAbs) htake (by simp [hD.ne]) hdrop
    (dig_append hz hE.dig) (by simp [hE.ne]) (decide (y < 0))
  refine ⟨D, h1, ?_, ?_⟩
  · rw [h2]
    have e1 : ((natText d).drop 1 = []) ↔ (natText d).length ≤ 1 := List.drop_eq_nil_iff
    simp only [e1, decide_eq_true_eq]
  · have hv : decVal ((if y.natAbs < 10 then [48] else []) ++ natText y.natAbs) = y.natAbs := by
      rw [dec_append, hE.val]
      split
      · have h1 : decVal [48] = 0 := by decide +kernel
        rw [h1]; omega
      · have h1 : decVal [] = 0 := by decide +kernel
        rw [h1]; omega
    rw [h3, h4, List.take_append_drop, hD.val, hv]
    congr 1
    simp only [List.length_drop, decide_eq_true_eq]
    split <;> omega

theorem fmtG_shape {neg : Bool} {m e : Nat} (hnf : F64.NF m e) : ∃ D : Decimal, D.Ok ∧
    fmtG (.fin neg m e) = sgn neg ++ D.text ∧
    ofDecimal neg (natOf 10 (D.whole ++ D.frac)) D.power = .fin neg m e := by
  by_cases hm : m = 0
  · subst hm
    have he : e = 0 := by obtain ⟨_, h, _⟩ := hnf; omega
    subst he
    refine ⟨⟨[0], [], none⟩, ⟨.inl (by simp), by simp, by simp, by simp⟩, ?_, ?_⟩
    · cases neg <;> decide +kernel
    · cases neg <;> decide +kernel
  · have hb := decimalOf_back (neg := neg) hnf hm
    unfold fmtG
    simp only [if_neg hm]
    generalize decimalOf neg m e = t at hb ⊢
    by_cases hs : t.2 + ((natDigits (t.1 + 1) t.1 []).length : Int) - 1 < -4 ∨
        6 ≤ t.2 + ((natDigits (t.1 + 1) t.1 []).length : Int) - 1
    · rw [if_pos hs]
      obtain ⟨D, h1, h2, h3⟩ := scientific_shape neg t.1 t.2
      exact ⟨D, h1, by rw [h2]; rfl, h3.trans hb⟩
    · rw [if_neg hs]
      obtain ⟨D, h1, h2, h3⟩ := decimal_shape neg t.1 t.2
      exact ⟨D, h1, by rw [h2]; rfl, h3.trans hb⟩

/-- The text of a finite double reads back as the same double. -/
theorem fmtG_back {neg : Bool} {m e : Nat} (hnf : F64.NF m e) : parseF64 (fmtG (.fin neg m e)) = some (.fin neg m e) := by
  obtain ⟨D, h1, h2, h3⟩ := fmtG_shape (neg := neg) hnf
  rw [h2, parseF64_body h1, h3]

theorem fmtG_head {neg : Bool} {m e : Nat} (hnf : F64.NF m e) : ∃ c t, fmtG (.fin neg m e) = sgn neg ++ c :: t ∧
    (Fmt.isDigit c = true ∨ c = 46) := by
  obtain ⟨D, h1, h2, h3⟩ := fmtG_shape (neg := neg) hnf
  obtain ⟨c, t, h4, h5⟩ := text_head h1
  exact ⟨c, t, by rw [h2, h4], h5⟩

theorem fmtG_not_inf {neg n : Bool} {m e : Nat} (hnf : F64.NF m e) : fmtG (.fin neg m e) ≠ fmtG (.inf n) := by
  obtain ⟨c, t, h, hc⟩ := fmtG_head (neg := neg) hnf
  rw [h]
  have h1 : Fmt.isDigit 43 = false := by decide
  have h2 : Fmt.isDigit 73 = false := by decide
  have h3 : Fmt.isDigit 45 = false := by decide
  have e1 : fmtG (.inf true) = 45 :: 73 :: bs "nf" := by decide +kernel
  have e2 : fmtG (.inf false) = 43 :: bs "Inf" := by decide +kernel
  intro he
  cases n <;> cases neg <;> simp only [e1, e2, sgn, Bool.false_eq_true, if_false, if_true, List.nil_append,
    List.cons_append, List.cons.injEq] at he
  · rw [he.1] at hc; rcases hc with hc | hc <;> revert hc <;> decide
  · exact absurd he.1 (by decide)
  · rw [he.1] at hc; rcases hc with hc | hc <;> revert hc <;> decide
  · rw [he.2.1] at hc; rcases hc with hc | hc <;> revert hc <;> decide

theorem fmtG_not_nan {neg : Bool} {m e : Nat} (hnf : F64.NF m e) : fmtG (.fin neg m e) ≠ fmtG .nan := by
  obtain ⟨c, t, h, hc⟩ := fmtG_head (neg := neg) hnf
  rw [h]
  have e1 : fmtG .nan = 78 :: bs "aN" := by decide +kernel
  intro he
  cases neg <;> simp only [e1, sgn, Bool.false_eq_true, if_false, if_true, List.nil_append,
    List.cons_append, List.cons.injEq] at he
  · rw [he.1] at hc; rcases hc with hc | hc <;> revert hc <;> decide
  · exact absurd he.1 (by decide)

/-- Doubles with the same text are the same. -/
theorem fmtG_inj {f g : F64} (hf : Double f) (hg : Double g) : fmtG f = fmtG g ↔ f = g := by
  refine ⟨fun h => ?_, fun h => by rw [h]⟩
  cases f with
  | nan =>
    cases g with
    | nan => rfl
    | inf n => cases n <;> exact absurd h (by decide +kernel)
    | fin n m e => exact absurd h.symm (fmtG_not_nan hg)
  | inf n =>
    cases g with
    | nan => cases n <;> exact absurd h (by decide +kernel)
    | inf n' => cases n <;> cases n' <;> first | rfl | exact absurd h (by decide +kernel)
    | fin n m e => exact absurd h.symm (fmtG_not_inf hg)
  | fin n m e =>
    cases g with
    | nan => exact absurd h (fmtG_not_nan hf)
    | inf n' => exact absurd h (fmtG_not_inf hf)
    | fin n' m' e' =>
      have h1 := fmtG_back (neg := n) hf
      rw [h, fmtG_back (neg := n') hg] at h1
      exact (Option.some.inj h1).symm

theorem fmtI64_inj {i j : I64} : fmtI64 i = fmtI64 j ↔ i = j := by
  refine ⟨fun h => ?_, fun h => by rw [h]⟩
  have h1 := parse_intText i
  rw [fmtI64_text, fmtI64_text] at h
  rw [h, parse_intText j] at h1
  exact (Option.some.inj h1).symm

/-! ## Keys of one kind -/

/-- All keys are integers, all are truth values, all are texts, or all are doubles other than NaN and
negative zero. -/
def OneKind {X : Type} (vs : List (Val F64 X)) : Prop :=
  (∀ v ∈ vs, ∃ i, v = .int i) ∨ (∀ v ∈ vs, ∃ b, v = .bool b) ∨ (∀ v ∈ vs, ∃ t, v = .str t) ∨
  ∀ v ∈ vs, ∃ f, v = .float f ∧ Double f ∧ f ≠ .nan ∧ ∀ e, f ≠ .fin true 0 e

theorem eq_same {f g : F64} (hf : Double f) (hf1 : f ≠ .nan) (hf2 : ∀ e, f ≠ .fin true 0 e)
    (hg : Double g) (hg1 : g ≠ .nan) (hg2 : ∀ e, g ≠ .fin true 0 e) : F64.eq f g = true ↔ f = g := by
  cases f with
  | nan => exact absurd rfl hf1
  | inf n =>
    cases g with
    | nan => exact absurd rfl hg1
    | inf n' => simp [F64.eq]
    | fin n' m' e' => simp [F64.eq]
  | fin n m e =>
    cases g with
    | nan => exact absurd rfl hg1
    | inf n' => simp [F64.eq]
    | fin n' m' e' =>
      constructor
      · intro h
        have h : F64.sc n m e = F64.sc n' m' e' := of_decide_eq_true h
        have hm : n = true → 0 < m * 2 ^ e := by
          rintro rfl
          refine Nat.mul_pos (Nat.pos_of_ne_zero ?_) (Nat.pow_pos (by omega))
          rintro rfl
          exact hf2 _ rfl
        have hm' : n' = true → 0 < m' * 2 ^ e' := by
          rintro rfl
          refine Nat.mul_pos (Nat.pos_of_ne_zero ?_) (Nat.pow_pos (by omega))
          rintro rfl
          exact hg2 _ rfl
        have hu : m * 2 ^ e = m' * 2 ^ e' → m = m' ∧ e = e' := nf_unique hf hg
        unfold F64.sc at h
        generalize m * 2 ^ e = A at h hm hu
        generalize m' * 2 ^ e' = B at h hm' hu
        have hn : n = n' ∧ A = B := by
          cases n <;> cases n' <;> simp at h hm hm' ⊢ <;> omega
        obtain ⟨rfl, rfl⟩ := hu hn.2
        rw [hn.1]
      · rintro h
        cases h
        simp [F64.eq]

/-- Texts of keys of one kind are equal exactly if the keys are the same, and exactly if `=` says so. -/
theorem key_same {X : Type} (W : World F64 X) (other : Val F64 X → Str) {vs : List (Val F64 X)} (h : OneKind vs)
    {v w : Val F64 X} (hv : v ∈ vs) (hw : w ∈ vs) :
    (keyText other v = keyText other w ↔ v = w) ∧ (eqV W v w = true ↔ v = w) := by
  rcases h with h | h | h | h
  · obtain ⟨i, rfl⟩ := h v hv
    obtain ⟨j, rfl⟩ := h w hw
    refine ⟨?_, ?_⟩
    · unfold keyText
      rw [fmtI64_inj]
      simp
    · unfold eqV
      simp [eqSwitch, intEq]
  · obtain ⟨i, rfl⟩ := h v hv
    obtain ⟨j, rfl⟩ := h w hw
    refine ⟨?_, ?_⟩
    · unfold keyText
      cases i <;> cases j <;> simp <;> decide +kernel
    · unfold eqV
      simp [eqSwitch]
  · obtain ⟨i, rfl⟩ := h v hv
    obtain ⟨j, rfl⟩ := h w hw
    refine ⟨?_, ?_⟩
    · unfold keyText
      simp
    · unfold eqV
      simp [eqSwitch]
  · obtain ⟨f, rfl, h1, h2, h3⟩ := h v hv
    obtain ⟨g, rfl, h4, h5, h6⟩ := h w hw
    refine ⟨?_, ?_⟩
    · unfold keyText
      rw [fmtG_inj h1 h4]
      simp
    · unfold eqV
      simp only [eqSwitch, Val.toFloat, Option.map_some]
      rw [show FloatOps.eq f g = F64.eq f g from rfl, eq_same h1 h2 h3 h4 h5 h6]
      simp

/-- **C88** The text of a finite double loses nothing: it reads back as the same double. -/
theorem C88_text {X : Type} (other : Val F64 X → Str) {neg : Bool} {m e : Nat} (h : Double (.fin neg m e)) :
    parseF64 (keyText other (.float (.fin neg m e))) = some (.fin neg m e) := by
  unfold keyText
  exact fmtG_back h

/-- **C88** Keys of one kind get the same text exactly if `=` says that they are equal. -/
theorem C88_keys_partial {X : Type} (W : World F64 X) (other : Val F64 X → Str) {vs : List (Val F64 X)} (h : OneKind vs)
    {v w : Val F64 X} (hv : v ∈ vs) (hw : w ∈ vs) : keyText other v = keyText other w ↔ eqV W v w = true := by
  obtain ⟨h1, h2⟩ := key_same W other h hv hw
  rw [h1, h2]

/-! ## Groups by value -/

/-- The first of the elements that are equal to each other, in order. -/
def firsts {α : Type} (eq : α → α → Bool) : List α → List α
  | [] => []
  | v :: r => v :: (firsts eq r).filter (fun w => !eq v w)

theorem firsts_mem {α : Type} {eq : α → α → Bool} : ∀ {l : List α} {v : α}, v ∈ firsts eq l → v ∈ l
  | [], _, h => h
  | u :: r, v, h => by
    rcases List.mem_cons.1 h with rfl | h
    · exact List.mem_cons_self
    · exact List.mem_cons_of_mem _ (firsts_mem (List.mem_filter.1 h).1)

theorem firstKeys_cons (k : Str) (l : List Str) : firstKeys (k :: l) = k :: (firstKeys l).filter (fun x => !decide (k = x)) := by
  induction l using List.reverseRecOn with
  | nil => simp [firstKeys]
  | append_singleton l x ih =>
    rw [← List.cons_append, firstKeys_append, ih, firstKeys_append]
    by_cases hk : k = x
    · subst hk
      simp only [List.mem_cons, true_or, if_true]
      split
      · rfl
      · simp
    · have hk' : x ≠ k := fun h => hk h.symm
      by_cases hx : x ∈ firstKeys l
      · rw [if_pos hx, if_pos]
        simp [hx, hk]
      · rw [if_neg hx, if_neg]
        · simp [hk]
        · simp [hx, hk']

theorem firstKeys_firsts {α : Type} {eq : α → α → Bool} {t : α → Str} : ∀ {l : List α},
    (∀ v ∈ l, ∀ w ∈ l, (t v = t w ↔ eq v w = true)) → firstKeys (l.map t) = (firsts eq l).map t
  | [], _ => rfl
  | v :: r, h => by
    rw [List.map_cons, firstKeys_cons, firstKeys_firsts (eq := eq) (l := r) (fun a ha b hb => h a (by simp [ha]) b (by simp [hb]))]
    rw [show firsts eq (v :: r) = v :: (firsts eq r).filter (fun w => !eq v w) from rfl, List.map_cons, List.filter_map]
    congr 2
    apply List.filter_congr
    intro w hw
    have := h v (by simp) w (by simp [firsts_mem hw])
    simp only [Function.comp_apply]
    congr 1
    rw [Bool.eq_iff_iff, decide_eq_true_eq, this]

variable {S : Type}

/-- **C88** A GROUP BY query whose key is computed from the source row and printed by `types.ToString`:
if the keys of the rows that pass are of one kind, there is one row for each value of the key, in order of
first appearance, computed from exactly the rows whose keys are equal to it. -/
theorem C88_rows_partial {H : Host F64 S} {W : World F64 Obj} {I : St F64 S → Prop} {ok : OD (V F64) → Prop}
    {specs : List (ColSpec F64)} {where_ : Option Comma} {gb : Comma} {pass : OD (V F64) → Bool}
    {key : OD (V F64) → V F64} {other : V F64 → Str} {ex : Bool} {from_ : Plugin} {s : Nat} {st st' s1 : St F64 S}
    {out : List (V F64)} {ds : List (OD (V F64))}
    (hsrc : Runs H (call (.plugin from_ s)) st (ds.map .dict) s1)
    (hq : Described H W I (s1.scp s).vars ok specs where_ gb pass (fun d => keyText other (key d)))
    (hd : (s1.scp s).depth < 997) (hI : I s1) (hok : ∀ d ∈ ds, ok d) (hone : OneKind ((ds.filter pass).map key))
    (h : Runs H (call (.select (.mk ex false (specs.map (·.col)) from_ where_ (some gb) none none) s)) st out st') :
    out = (firsts (eqV W) ((ds.filter pass).map key)).map (fun v =>
      .dict (groupRowOf W specs ((ds.filter pass).filter (fun d => eqV W v (key d))))) := by
  rw [C30_aggregates_partial hsrc hq hd hI hok h]
  generalize ds.filter pass = ps at hone ⊢
  have hk : ∀ v ∈ ps.map key, ∀ w ∈ ps.map key, (keyText other v = keyText other w ↔ eqV W v w = true) :=
    fun v hv w hw => C88_keys_partial W other hone hv hw
  have e : ps.map (fun d => keyText other (key d)) = (ps.map key).map (keyText other) := by rw [List.map_map]; rfl
  rw [e, firstKeys_firsts (eq := eqV W) hk, List.map_map]
  apply List.map_congr_left
  intro v hv
  simp only [Function.comp_apply]
  congr 2
  apply List.filter_congr
  intro d hd
  rw [Bool.eq_iff_iff, decide_eq_true_eq, eq_comm]
  exact hk v (firsts_mem hv) (key d) (List.mem_map.2 ⟨d, hd, rfl⟩)

/-- `SELECT k, count() AS n FROM .. GROUP BY k`. -/
def counts (n0 n1 n2 : Nat) (k n : String) (from_ : Plugin) : Select :=
  .mk false false [.ex (.val (.name n0 k)) k, .ex (.val (.fcall n1 "count" [])) n] from_ none
    (some (.val (.name n2 k))) none none

/-- A row with a number, a truth value or a text in column `k`. -/
def Keyed (k : String) (d : OD (V F64)) : Prop :=
  OD.WF d ∧ (∀ j ∈ OD.keys d, Vql.PlainKey j) ∧ ∃ v, OD.get d (bs k) = some v ∧ OneKind [v]

theorem keyed_datum {k : String} {d : OD (V F64)} (h : Keyed k d) : HasDatum k d ∧ OneKind [field k d] := by
  obtain ⟨_, _, v, hv, ho⟩ := h
  have hf : field k d = v := by unfold field; rw [hv]; rfl
  refine ⟨⟨v, hv, ?_⟩, by rw [hf]; exact ho⟩
  rcases ho with h | h | h | h
  · obtain ⟨i, rfl⟩ := h v (by simp); exact ⟨trivial, rfl⟩
  · obtain ⟨i, rfl⟩ := h v (by simp); exact ⟨trivial, rfl⟩
  · obtain ⟨i, rfl⟩ := h v (by simp); exact ⟨trivial, rfl⟩
  · obtain ⟨i, rfl, _⟩ := h v (by simp); exact ⟨trivial, rfl⟩

variable {W : World F64 Obj} {matchF : V F64 → V F64 → Bool} {other : V F64 → Str} {colName : Col → Str}
  {num : Str → Option (V F64)} {text : Select → Str} {fuel : Nat} {X : Extra F64 S} {nm : Nat → Str}

local notation "LH" => libHost W matchF (keyText other) colName num text fuel X

/-- **C88** `SELECT k, count() AS n FROM .. GROUP BY k` with the functions of the package, for rows whose
column `k` is of one kind: one row for each value of `k` in order of first appearance, with the number of
rows that have it. -/
theorem C88_counts_partial {n0 n1 n2 : Nat} {k n : String} (hk : IsName k) (hnames : bs k ≠ bs n) (hk2 : IsAlias k)
    (hn : IsAlias n) (hcol : ∀ e a, IsAlias a → colName (.ex e a) = bs a) (hX : OD.get X.fns (bs "count") = none)
    (hn1 : nm n1 = bs "count")
    {from_ : Plugin} {s : Nat} {st s1 st' : St F64 S} {ds : List (OD (V F64))} {out : List (V F64)}
    (hsrc : Runs LH (call (.plugin from_ s)) st (ds.map .dict) s1) (hI : NodesName nm s1)
    (hd : (s1.scp s).depth < 997) (hds : ∀ d ∈ ds, Keyed k d) (hone : OneKind (ds.map (field k)))
    (h : Runs LH (call (.select (counts n0 n1 n2 k n from_) s)) st out st') :
    out = (firsts (eqV W) (ds.map (field k))).map (fun v =>
      .dict [(bs k, v), (bs n, .int (BitVec.ofNat 64 ((ds.map (field k)).countP (eqV W v))))]) := by
  let specs : List (ColSpec F64) := [⟨.ex (.val (.name n0 k)) k, bs k, .plain (field k)⟩,
    ⟨.ex (.val (.fcall n1 "count" [])) n, bs n, .agg n1 (fun _ => .count)⟩]
  have hcols : ∀ c ∈ specs, c.Does LH W (NodesName nm) (s1.scp s).vars (Keyed k) := by
    intro c hc
    simp only [specs, List.mem_cons, List.not_mem_nil, or_false] at hc
    rcases hc with rfl | rfl
    · exact does_name hk.split hk.minus hk.key fun d hd => (keyed_datum hd).1
    · exact does_count hX hn1
  have hnd : (specs.map (·.name)).Nodup := by simpa [specs] using hnames
  have hq : Described LH W (NodesName nm) (s1.scp s).vars (Keyed k) specs none (.val (.name n2 k)) (fun _ => true)
      (fun d => keyText other (field k d)) := by
    refine ⟨nodesName_local nm, ?_, hnd, ?_, hcols, fun d hd => ⟨hd.1, hd.2.1⟩, fun g => gives_pass g, ?_⟩
    · intro c hc
      simp only [specs, List.mem_cons, List.not_mem_nil, or_false] at hc
      rcases hc with rfl | rfl
      · exact ⟨hcol _ _ hk2, hk2.2⟩
      · exact ⟨hcol _ _ hn, hn.2⟩
    · simp [specs, nodesOf]
    · refine gives_key (nodesName_local nm) hnd (c := ⟨.ex (.val (.name n0 k)) k, bs k, .plain (field k)⟩) (by simp [specs])
        rfl (hcols _ (by simp [specs])) hk rfl ?_ ?_
      · intro d hd
        obtain ⟨v, h1, h2⟩ := (keyed_datum hd).1
        unfold field; rw [h1]; exact h2.1
      · intro d hd s st st' y hy
        have ho := (keyed_datum hd).2
        generalize field k d = v at ho hy ⊢
        rcases ho with h | h | h | h
        · obtain ⟨i, rfl⟩ := h v (by simp); exact runs_pure.1 hy
        · obtain ⟨i, rfl⟩ := h v (by simp); exact runs_pure.1 hy
        · obtain ⟨i, rfl⟩ := h v (by simp); exact runs_pure.1 hy
        · obtain ⟨i, rfl, _⟩ := h v (by simp); exact runs_pure.1 hy
  have hft : ds.filter (fun _ => true) = ds := by simp
  have hres := C88_rows_partial (ex := false) hsrc hq hd hI hds (by rw [hft]; exact hone) h
  rw [hres, hft]
  apply List.map_congr_left
  intro v hv
  have hmem := firsts_mem hv
  obtain ⟨d0, hd0, hc0⟩ := List.mem_map.1 hmem
  have hkey : ∀ w ∈ ds.map (field k), (eqV W v w = true ↔ v = w) := fun w hw => (key_same W other hone hmem hw).2
  have hne : ds.filter (fun d => eqV W v (field k d)) ≠ [] := by
    intro e
    have := List.filter_eq_nil_iff.1 e d0 hd0
    exact this ((hkey _ (List.mem_map.2 ⟨d0, hd0, rfl⟩)).2 hc0.symm)
  have hcount : (ds.map (field k)).countP (eqV W v) = (ds.filter (fun d => eqV W v (field k d))).length := by
    rw [List.countP_map, List.countP_eq_length_filter]
    rfl
  have hall : ∀ d ∈ ds.filter (fun d => eqV W v (field k d)), field k d = v := by
    intro d hd
    obtain ⟨h1, h2⟩ := List.mem_filter.1 hd
    exact ((hkey _ (List.mem_map.2 ⟨d, h1, rfl⟩)).1 h2).symm
  rw [hcount]
  generalize ds.filter (fun d => eqV W v (field k d)) = g at hne hall
  congr 1
  simp only [groupRowOf, specs, List.map_cons, List.map_nil, ColKind.result]
  rw [aggLast_count g hne, List.getLast?_eq_some_getLast hne]
  simp only [Option.map_some, Option.getD_some, hall _ (List.getLast_mem hne)]
  rfl

/-! ## Keys of several kinds -/

/-- A host with the functions of the package and a plugin that gives rows with these keys. -/
def keyHost (keys : List (V F64)) : Host F64 Unit :=
  libHost {} (fun _ _ => false) (keyText (fun _ => bs "?")) demoName demoNum (fun _ => []) 50
    { plugins := [(bs "src", fun _ _ => pure (keys.map fun v => .dict [(bs "k", v)]))] }

/-- The numbers of rows in the groups of these keys. -/
def groupSizes (keys : List (V F64)) : Option (List (V F64)) :=
  (exec (keyHost keys) 80 (call (.select (counts 0 1 2 "k" "n" (.src "src")) 0)) (St.init [])).map fun r =>
    r.1.map fun row => match row with
      | .dict d => (OD.get d (bs "n")).getD .null
      | _ => .null

/-- The groups have these sizes. -/
def sizesAre (keys : List (V F64)) (ns : List Nat) : Bool := match groupSizes keys with
  | some l => sameV (.arr l) (.arr (ns.map fun n => .int (BitVec.ofNat 64 n)))
  | none => false

/-- **C88** It does not hold for keys of several kinds: rows are put together whose keys are different (the
number 1, the text "1"; NULL and the text "Null"; the arrays ["a b"] and ["a", "b"]; NaN, which is not
equal to itself), and rows are kept apart whose keys are equal (1000000 and 1000000.0; 0.0 and -0.0). -/
theorem C88_kinds_refuted (W : World F64 Obj) :
    sizesAre [.int 1#64, .str (bs "1"), .float (ofText "1.0")] [3] = true ∧
    (eqV {} (.int 1#64) (.str (bs "1") : V F64) = false) ∧
    sizesAre [.null, .str (bs "Null")] [2] = true ∧ (eqV W .null (.str (bs "Null") : V F64) = false) ∧
    sizesAre [.arr [.str (bs "a b")], .arr [.str (bs "a"), .str (bs "b")]] [2] = true ∧
    (eqV W (.arr [.str (bs "a b")]) (.arr [.str (bs "a"), .str (bs "b")] : V F64) = false) ∧
    sizesAre [.float .nan, .float .nan] [2] = true ∧ (eqV W (.float .nan) (.float .nan : V F64) = false) ∧
    sizesAre [.int 1000000#64, .float (ofText "1000000.0")] [1, 1] = true ∧
    (eqV W (.int 1000000#64) (.float (ofText "1000000.0") : V F64) = true) ∧
    sizesAre [.float (ofText "0.0"), .float (ofText "-0.0")] [1, 1] = true ∧
    (eqV W (.float (ofText "0.0")) (.float (ofText "-0.0") : V F64) = true) := by
  have hsw : ∀ (v w : V F64) (b : Bool), eqSwitch v w = some b → eqV W v w = b := by
    intro v w b h
    unfold eqV
    rw [h]
  refine ⟨by decide +kernel, by decide +kernel, by decide +kernel, hsw _ _ _ (by decide +kernel), by decide +kernel, ?_,
    by decide +kernel, hsw _ _ _ (by decide +kernel), by decide +kernel, hsw _ _ _ (by decide +kernel), by decide +kernel,
    hsw _ _ _ (by decide +kernel)⟩
  rw [eqV_arr]
  simp only [eqArr, hsw (.str (bs "a b")) (.str (bs "a")) false (by decide +kernel), Bool.false_and]

/-! ## Examples -/

example : sizesAre [.int 3#64, .int 10#64, .int 3#64, .int (-7#64), .int 10#64, .int 3#64] [3, 2, 1] = true ∧
    sizesAre [.float (ofText "0.1"), .float (ofText "1e21"), .float (ofText "0.10")] [2, 1] = true ∧
    sizesAre [.bool true, .bool false, .bool true] [2, 1] = true ∧
    sizesAre [.str (bs "b"), .str (bs "a"), .str (bs "b")] [2, 1] = true := by decide +kernel

example : OneKind (X := Obj) [.float (ofText "0.1"), .float (.inf true), .float (ofText "0.0")] := by
  refine .inr (.inr (.inr ?_))
  intro v hv
  have h1 : ofText "0.1" = .fin false 7205759403792794 1018 := by decide +kernel
  have h2 : ofText "0.0" = .fin false 0 0 := by decide +kernel
  simp only [List.mem_cons, List.not_mem_nil, or_false] at hv
  rcases hv with rfl | rfl | rfl
  · exact ⟨_, rfl, by rw [h1]; exact ⟨by omega, by omega, by omega⟩, by rw [h1]; simp, by rw [h1]; simp⟩
  · exact ⟨_, rfl, trivial, by simp, by simp⟩
  · exact ⟨_, rfl, by rw [h2]; exact ⟨by omega, by omega, by omega⟩, by rw [h2]; simp, by rw [h2]; simp⟩

example : firsts (fun a b : Nat => a == b) [3, 1, 3, 2, 1] = [3, 1, 2] := by decide

example : fmtG (ofText "1") = bs "1" ∧ fmtG (ofText "0.5") = bs "0.5" ∧ fmtG (ofText "-123456") = bs "-123456" ∧
    fmtG (ofText "1000000") = bs "1e+06" ∧ fmtG (ofText "123456789") = bs "1.23456789e+08" ∧
    fmtG (ofText "0.00001") = bs "1e-05" ∧ fmtG (ofText "0.0001") = bs "0.0001" ∧ fmtG (ofText "-0.0") = bs "-0" ∧
    fmtG (ofText "1e100") = bs "1e+100" ∧ fmtG (ofText "100000") = bs "100000" := by decide +kernel

example : keyText (X := Unit) (fun _ => []) (.arr [.int 1#64, .str (bs "a b"), .arr [], .null, .bool true]) =
    bs "[1 a b [] Null true]" := by decide +kernel

end Vfilter.GroupKeys
