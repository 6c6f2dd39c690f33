import Verif.Text
import Mathlib.Tactic.Tauto
/-!
# C45: string literals
-/

set_option linter.all false

namespace Vfilter

/-! ## Specification -/

/-- `c` is the hexadecimal digit `n`, in lower or upper case. -/
def HexIs (c : UInt8) (n : Nat) : Prop :=
  (bs "0123456789abcdef")[n]? = some c ∨ (bs "0123456789ABCDEF")[n]? = some c

/-- What a literal body with only well formed escapes stands for. -/
inductive Dec : Str → Str → Prop where
  | nil : Dec [] []
  | plain {c b v} : c ≠ chBS → Dec b v → Dec (c :: b) (c :: v)
  | hex {x h1 h2 m n b v} : x = 120 ∨ x = 88 → HexIs h1 m → HexIs h2 n → Dec b v →
      Dec (chBS :: x :: h1 :: h2 :: b) (bN (16 * m + n) :: v)
  | cr {b v} : Dec b v → Dec (chBS :: 114 :: b) (13 :: v)
  | lf {b v} : Dec b v → Dec (chBS :: 110 :: b) (10 :: v)
  | tab {b v} : Dec b v → Dec (chBS :: 116 :: b) (9 :: v)
  /-- unknown escapes drop only the backslash -/
  | other {c b v} : c ≠ 120 → c ≠ 88 → c ≠ 114 → c ≠ 110 → c ≠ 116 → Dec b v →
      Dec (chBS :: c :: b) (c :: v)

/-- Bodies where malformed hex escapes are kept as written, and appear only before all
well formed escapes. -/
inductive DecM : Str → Str → Prop where
  | dec {b v} : Dec b v → DecM b v
  | plain {c b v} : c ≠ chBS → DecM b v → DecM (c :: b) (c :: v)
  | bad {x h1 h2 b v} : x = 120 ∨ x = 88 → (¬ ∃ m n, HexIs h1 m ∧ HexIs h2 n) → DecM (x :: h1 :: h2 :: b) v →
      DecM (chBS :: x :: h1 :: h2 :: b) (chBS :: v)

/-- The hexadecimal digits. -/
def hexDigit (n : Nat) : UInt8 := if n < 10 then bN (48 + n) else bN (87 + n)

/-- Quote a byte string: escape the quote and the backslash. -/
def escapeFor (q : UInt8) : Str → Str
  | [] => []
  | c :: r => if c = q ∨ c = chBS then chBS :: c :: escapeFor q r else c :: escapeFor q r

/-- Quote a byte string as hex escapes. -/
def escapeHex : Str → Str
  | [] => []
  | c :: r => chBS :: 120 :: hexDigit (c.toNat / 16) :: hexDigit (c.toNat % 16) :: escapeHex r

/-! ## The decoding loop -/

theorem hexVal_iff (c : UInt8) (n : Nat) : hexVal c = some n ↔ HexIs c n := by
  unfold HexIs
  by_cases hn : n < 16
  · have : ∀ (n : Fin 16) (c : Fin 256), hexVal (UInt8.ofNat c.val) = some n.val ↔
        ((bs "0123456789abcdef")[n.val]? = some (UInt8.ofNat c.val) ∨
         (bs "0123456789ABCDEF")[n.val]? = some (UInt8.ofNat c.val)) := by decide +kernel
    have := this ⟨n, hn⟩ ⟨c.toNat, c.toNat_lt⟩
    simpa using this
  · constructor
    · intro h
      exfalso
      unfold hexVal at h
      repeat' split at h
      all_goals cases h
      all_goals omega
    · have e1 : (bs "0123456789abcdef")[n]? = none := by
        rw [List.getElem?_eq_none]; rw [show (bs "0123456789abcdef").length = 16 by decide]; omega
      have e2 : (bs "0123456789ABCDEF")[n]? = none := by
        rw [List.getElem?_eq_none]; rw [show (bs "0123456789ABCDEF").length = 16 by decide]; omega
      rw [e1, e2]
      simp

theorem decodeHex_ok {h1 h2 : UInt8} {m n : Nat} (a : HexIs h1 m) (b : HexIs h2 n) :
    decodeHex h1 h2 = some (bN (16 * m + n)) := by
  unfold decodeHex
  rw [(hexVal_iff _ _).2 a, (hexVal_iff _ _).2 b]; rfl

theorem decodeHex_bad {h1 h2 : UInt8} (h : ¬ ∃ m n, HexIs h1 m ∧ HexIs h2 n) :
    decodeHex h1 h2 = none := by
  unfold decodeHex
  cases e1 : hexVal h1 with
  | none => rfl
  | some m => cases e2 : hexVal h2 with
    | none => rfl
    | some n => exact absurd ⟨m, n, (hexVal_iff _ _).1 e1, (hexVal_iff _ _).1 e2⟩ h

theorem putByte_some {inp acc : Str} {b : UInt8} (h : acc.length < inp.length) :
    putByte inp acc b = some (acc ++ [b]) := by simp [putByte, h]

/-- The loop never reads or writes out of bounds. -/
theorem loop_total (inp : Str) : ∀ (n : Nat) (r acc : Str), r.length ≤ n →
    acc.length + r.length ≤ inp.length → ∃ v, unquoteLoop inp r acc = some v := by
  intro n
  induction n with
  | zero => intro r acc h _; cases r with
    | nil => exact ⟨acc, by unfold unquoteLoop; rfl⟩
    | cons _ _ => simp at h
  | succ n ih =>
    intro r acc h hb
    cases r with
    | nil => exact ⟨acc, by unfold unquoteLoop; rfl⟩
    | cons c rest =>
      simp only [List.length_cons] at h hb
      have step : ∀ (b : UInt8) (r' : Str), r'.length ≤ n → r'.length ≤ rest.length →
          ∃ v, (putByte inp acc b).bind (unquoteLoop inp r') = some v := by
        intro b r' h1 h2
        rw [putByte_some (by omega)]
        exact ih r' _ h1 (by simp; omega)
      unfold unquoteLoop
      split
      · split
        · exact ⟨_, rfl⟩
        · rename_i d rest2
          simp only [List.length_cons] at h hb step
          split
          · split
            · rename_i h1 h2 rest3
              simp only [List.length_cons] at h hb step
              split
              · exact step _ _ (by omega) (by omega)
              · have : inp[acc.length]? = some (inp[acc.length]'(by omega)) := by
                  rw [List.getElem?_eq_getElem]
                rw [this]
                exact step _ _ (by simp; omega) (by simp)
            · exact ⟨_, rfl⟩
          · repeat' split
            all_goals exact step _ _ (by omega) (by omega)
      · exact step _ _ (by omega) (by omega)

theorem loop_dec (inp : Str) {r v : Str} (hd : Dec r v) : ∀ acc : Str,
    acc.length + r.length ≤ inp.length → unquoteLoop inp r acc = some (acc ++ v) := by
  induction hd with
  | nil => intro acc _; unfold unquoteLoop; simp
  | plain hc _ ih =>
    intro acc h
    simp only [List.length_cons] at h
    unfold unquoteLoop
    rw [if_neg hc, putByte_some (by omega)]
    simp only [Option.bind_some]
    rw [ih _ (by simp; omega)]; simp
  | hex hx ha hb _ ih =>
    intro acc h
    have hh := decodeHex_ok ha hb
    simp only [List.length_cons] at h
    unfold unquoteLoop
    rw [if_pos rfl]
    simp only [hh, if_pos hx]
    rw [putByte_some (by omega)]
    simp only [Option.bind_some]
    rw [ih _ (by simp; omega)]; simp
  | cr _ ih =>
    intro acc h
    simp only [List.length_cons] at h
    unfold unquoteLoop
    rw [if_pos rfl]
    simp only [show ¬ ((114 : UInt8) = 120 ∨ (114 : UInt8) = 88) by decide, if_false, if_true]
    rw [putByte_some (by omega)]
    simp only [Option.bind_some]
    rw [ih _ (by simp; omega)]; simp
  | lf _ ih =>
    intro acc h
    simp only [List.length_cons] at h
    unfold unquoteLoop
    rw [if_pos rfl]
    simp only [show ¬ ((110 : UInt8) = 120 ∨ (110 : UInt8) = 88) by decide,
      show ¬ ((110 : UInt8) = 114) by decide, if_false, if_true]
    rw [putByte_some (by omega)]
    simp only [Option.bind_some]
    rw [ih _ (by simp; omega)]; simp
  | tab _ ih =>
    intro acc h
    simp only [List.length_cons] at h
    unfold unquoteLoop
    rw [if_pos rfl]
    simp only [show ¬ ((116 : UInt8) = 120 ∨ (116 : UInt8) = 88) by decide,
      show ¬ ((116 : UInt8) = 114) by decide, show ¬ ((116 : UInt8) = 110) by decide, if_false, if_true]
    rw [putByte_some (by omega)]
    simp only [Option.bind_some]
    rw [ih _ (by simp; omega)]; simp
  | other h1 h2 h3 h4 h5 _ ih =>
    intro acc h
    simp only [List.length_cons] at h
    unfold unquoteLoop
    rw [if_pos rfl]
    simp only [h1, h2, h3, h4, h5, or_self, if_false]
    rw [putByte_some (by omega)]
    simp only [Option.bind_some]
    rw [ih _ (by simp; omega)]; simp

theorem loop_decM (inp : Str) {r v : Str} (hd : DecM r v) : ∀ acc : Str,
    inp = acc ++ r → unquoteLoop inp r acc = some (acc ++ v) := by
  induction hd with
  | dec hd => intro acc h; exact loop_dec inp hd acc (by rw [h]; simp)
  | plain hc _ ih =>
    intro acc h
    unfold unquoteLoop
    rw [if_neg hc, putByte_some (by rw [h]; simp)]
    simp only [Option.bind_some]
    rw [ih _ (by rw [h]; simp)]; simp
  | @bad x h1 h2 b v hx hbad _ ih =>
    intro acc h
    have hh := decodeHex_bad hbad
    have hi : inp[acc.length]? = some chBS := by rw [h]; simp
    unfold unquoteLoop
    rw [if_pos rfl]
    simp only [hh, if_pos hx, hi, Option.bind_some]
    rw [putByte_some (by rw [h]; simp)]
    simp only [Option.bind_some]
    rw [ih _ (by rw [h]; simp)]; simp

/-! ## Whole literals -/

theorem goSlice_mid {α : Type} (a m b : List α) (hi : Int) (h : hi = (a.length + m.length : Nat)) (lo : Int)
    (hl : lo = (a.length : Nat)) : goSlice (a ++ m ++ b) lo hi = some m := by
  subst h hl
  unfold goSlice
  rw [if_pos (by simp; omega)]
  have e : ((a.length + m.length : Nat) : Int).toNat = a.length + m.length := by omega
  rw [e]
  simp

theorem unquote_triple (v : Str) : unquote (q3 ++ v ++ q3) = some v := by
  unfold unquote
  rw [if_pos (by
    constructor
    · rw [List.isPrefixOf_iff_prefix]; exact ⟨v ++ q3, by simp⟩
    · rw [List.isSuffixOf_iff_suffix]; exact ⟨q3 ++ v, rfl⟩)]
  exact goSlice_mid q3 v q3 _ (by simp [q3]; omega) _ (by simp [q3])

/-- The body of a string token does not start with its quote. -/
theorem scan_head {q : UInt8} {s b r : Str} (h : scanStr q s = some (b, r)) : b.head? ≠ some q := by
  cases s with
  | nil => simp [scanStr] at h
  | cons c s =>
    unfold scanStr at h
    by_cases hc : c = q
    · rw [if_pos hc] at h; cases h; simp
    · rw [if_neg hc] at h
      by_cases hb : c = chBS
      · rw [if_pos hb] at h
        cases s with
        | nil => simp at h
        | cons d s =>
          simp only [Option.map_eq_some_iff] at h
          obtain ⟨p, _, hp⟩ := h
          cases hp; simpa using hc
      · rw [if_neg hb] at h
        simp only [Option.map_eq_some_iff] at h
        obtain ⟨p, _, hp⟩ := h
        cases hp; simpa using hc

theorem unquote_quoted {q : UInt8} (hq : q = chDQ ∨ q = chSQ) {b : Str} (hb : b.head? ≠ some q) :
    unquote (q :: b ++ [q]) = unquoteLoop b b [] := by
  unfold unquote
  rw [if_neg (by
    rintro ⟨h, _⟩
    rw [List.isPrefixOf_iff_prefix] at h
    obtain ⟨t, ht⟩ := h
    rcases hq with rfl | rfl
    · simp [q3] at ht; exact absurd ht.1 (by decide)
    · cases b with
      | nil => simp [q3] at ht
      | cons c b => simp [q3] at ht; simp at hb; exact hb ht.1.symm)]
  have e : q :: b ++ [q] = [q] ++ b ++ [q] := by simp
  simp only [List.cons_append]
  rw [if_neg (by rcases hq with rfl | rfl <;> simp)]
  have := goSlice_mid [q] b [q] ((q :: (b ++ [q])).length - 1) (by simp; omega) 1 (by simp)
  simp only [List.cons_append, List.nil_append] at this
  rw [this]
  rfl

/-- C45: every literal the lexer can produce decodes: no out of range access. -/
theorem C45_total {s tok rest : Str} (h : lexLiteral s = some (tok, rest)) :
    ∃ v, unquote tok = some v := by
  unfold lexLiteral at h
  split at h
  · cases h; exact ⟨_, unquote_triple _⟩
  · split at h
    · cases h
    · split at h
      · rename_i hq
        simp only [Option.map_eq_some_iff] at h
        obtain ⟨p, hp, he⟩ := h
        cases he
        have := scan_head hp
        rw [unquote_quoted (by tauto) this]
        exact loop_total _ _ _ _ (Nat.le_refl _) (by simp)
      · cases h

example : lexLiteral (bs "'a\\'b' rest") = some (bs "'a\\'b'", bs " rest") := by decide +kernel

/-- C45: exactly these texts, none of them a literal, make the decoder panic. -/
theorem C45_panics (s : Str) : unquote s = none ↔
    s = [] ∨ s = [chDQ] ∨ s = [chSQ] ∨ s = List.replicate 3 chSQ ∨ s = List.replicate 4 chSQ ∨
      s = List.replicate 5 chSQ := by
  constructor
  · intro h
    by_cases h3 : q3.isPrefixOf s ∧ q3.isSuffixOf s
    · obtain ⟨h1, h2⟩ := h3
      rw [List.isPrefixOf_iff_prefix] at h1
      rw [List.isSuffixOf_iff_suffix] at h2
      by_cases hl : 6 ≤ s.length
      · obtain ⟨t, rfl⟩ := h1
        obtain ⟨u, hu⟩ := h2
        have hlen := congrArg List.length hu
        simp [q3] at hlen hl
        have : ∃ m, t = m ++ q3 := by
          refine ⟨u.drop 3, ?_⟩
          have := congrArg (List.drop 3) hu
          rw [List.drop_append_of_le_length (by omega)] at this
          simp [q3] at this ⊢
          exact this.symm
        obtain ⟨m, rfl⟩ := this
        rw [← List.append_assoc, unquote_triple] at h
        cases h
      · obtain ⟨t, rfl⟩ := h1
        obtain ⟨u, hu⟩ := h2
        simp [q3] at hl
        have hlen := congrArg List.length hu
        match t, hl with
        | [], _ => simp [q3]
        | [a], _ =>
          cases u with
          | nil => simp [q3] at hlen
          | cons x u =>
            cases u with
            | cons y u => simp [q3] at hlen
            | nil => simp [q3] at hu; simp [q3, hu]
        | [a, b], _ =>
          cases u with
          | nil => simp [q3] at hlen
          | cons x u =>
            cases u with
            | nil => simp [q3] at hlen
            | cons y u =>
              cases u with
              | cons z u => simp [q3] at hlen
              | nil => simp [q3] at hu; obtain ⟨_, _, rfl, rfl⟩ := hu; simp [q3]
        | a :: b :: c :: t, h => simp at h; omega
    · unfold unquote at h
      rw [if_neg h3] at h
      cases s with
      | nil => simp
      | cons q t =>
        simp only at h
        split at h
        · cases h
        · rename_i hq
          cases t with
          | nil =>
            by_cases h1 : q = chDQ
            · subst h1; simp
            · by_cases h2 : q = chSQ
              · subst h2; simp
              · exact absurd ⟨h1, h2⟩ hq
          | cons c t =>
            exfalso
            unfold goSlice at h
            rw [if_pos (by simp; omega)] at h
            simp only [Option.bind_some] at h
            have ht : ∀ l : Str, unquoteLoop l l [] ≠ none := by
              intro l hl
              obtain ⟨v, hv⟩ := loop_total l _ l [] (Nat.le_refl _) (by simp)
              rw [hl] at hv; cases hv
            exact ht _ h
  · rintro (rfl | rfl | rfl | rfl | rfl | rfl) <;> decide +kernel

/-- C45 fails as stated: the decoder panics on some texts (none of which the lexer produces). -/
theorem C45_never_fails_refuted : ¬ ∀ s, ∃ v, unquote s = some v := by
  intro h
  obtain ⟨v, hv⟩ := h []
  rw [(C45_panics []).2 (by simp)] at hv
  cases hv

theorem escape_scan (q : UInt8) (hq : q = chDQ ∨ q = chSQ) (v rest : Str) :
    scanStr q (escapeFor q v ++ q :: rest) = some (escapeFor q v, rest) := by
  have hne : chBS ≠ q := by rcases hq with rfl | rfl <;> decide
  induction v with
  | nil => simp only [escapeFor, List.nil_append]; unfold scanStr; rw [if_pos rfl]
  | cons c v ih =>
    unfold escapeFor
    by_cases hc : c = q ∨ c = chBS
    · rw [if_pos hc]
      simp only [List.cons_append]
      unfold scanStr
      rw [if_neg hne, if_pos rfl]
      simp only
      rw [ih]; rfl
    · rw [if_neg hc]
      simp only [List.cons_append]
      unfold scanStr
      rw [if_neg (by tauto), if_neg (by tauto), ih]; rfl

theorem escape_dec (q : UInt8) (hq : q = chDQ ∨ q = chSQ) (v : Str) : Dec (escapeFor q v) v := by
  induction v with
  | nil => exact .nil
  | cons c v ih =>
    unfold escapeFor
    by_cases hc : c = q ∨ c = chBS
    · rw [if_pos hc]
      have : c = chDQ ∨ c = chSQ ∨ c = chBS := by
        rcases hc with rfl | rfl
        · rcases hq with rfl | rfl <;> simp
        · simp
      rcases this with rfl | rfl | rfl <;>
        exact .other (by decide) (by decide) (by decide) (by decide) (by decide) ih
    · rw [if_neg hc]; exact .plain (by tauto) ih

theorem lex_quoted {q : UInt8} (hq : q = chDQ ∨ q = chSQ) {b r rest : Str}
    (h : scanStr q r = some (b, rest)) (hd : q = chDQ ∨ b ≠ [] ∨ rest.head? ≠ some chSQ)
    (hr : r = b ++ q :: rest) : lexLiteral (q :: r) = some (q :: b ++ [q], rest) := by
  have hb := scan_head h
  have hno : q3.isPrefixOf (q :: r) = false := by
    rw [Bool.eq_false_iff]
    intro hp
    rw [List.isPrefixOf_iff_prefix] at hp
    obtain ⟨t, ht⟩ := hp
    subst hr
    rcases hq with rfl | rfl
    · simp [q3] at ht; exact absurd ht.1 (by decide)
    · cases b with
      | nil =>
        simp [q3] at ht
        rcases hd with hd | hd | hd
        · exact absurd hd (by decide)
        · exact hd rfl
        · rw [← ht] at hd; simp at hd
      | cons c b => simp [q3] at ht; simp at hb; exact hb ht.1.symm
  unfold lexLiteral
  rw [hno]
  simp only [Bool.false_eq_true, if_false]
  rw [if_pos (by tauto), h]
  rfl

/-- C45: every byte string has a double quoted literal: it is one token wherever it stands
and decodes to the byte string. -/
theorem C45_double (v rest : Str) :
    lexLiteral (chDQ :: escapeFor chDQ v ++ chDQ :: rest) = some (chDQ :: escapeFor chDQ v ++ [chDQ], rest) ∧
    unquote (chDQ :: escapeFor chDQ v ++ [chDQ]) = some v := by
  have hs := escape_scan chDQ (Or.inl rfl) v rest
  refine ⟨lex_quoted (Or.inl rfl) hs (Or.inl rfl) rfl, ?_⟩
  rw [unquote_quoted (Or.inl rfl) (scan_head hs)]
  exact loop_dec _ (escape_dec chDQ (Or.inl rfl) v) [] (by simp)

/-- C45: and a single quoted literal.  The empty literal must not be followed by another
single quote. -/
theorem C45_single (v rest : Str) (h : v ≠ [] ∨ rest.head? ≠ some chSQ) :
    lexLiteral (chSQ :: escapeFor chSQ v ++ chSQ :: rest) = some (chSQ :: escapeFor chSQ v ++ [chSQ], rest) ∧
    unquote (chSQ :: escapeFor chSQ v ++ [chSQ]) = some v := by
  have hs := escape_scan chSQ (Or.inr rfl) v rest
  refine ⟨lex_quoted (Or.inr rfl) hs (Or.inr ?_) rfl, ?_⟩
  · rcases h with h | h
    · left
      cases v with
      | nil => exact absurd rfl h
      | cons c v => unfold escapeFor; split <;> simp
    · exact Or.inr h
  · rw [unquote_quoted (Or.inr rfl) (scan_head hs)]
    exact loop_dec _ (escape_dec chSQ (Or.inr rfl) v) [] (by simp)

theorem scanML_first (v rest : Str) (h : ∀ i, i < v.length → ¬ q3 <+: (v ++ q3).drop i) :
    scanML (v ++ q3 ++ rest) = some (v, rest) := by
  induction v with
  | nil => simp [scanML, q3, List.isPrefixOf]
  | cons c v ih =>
    simp only [List.cons_append]
    unfold scanML
    rw [if_neg ?_]
    · rw [ih ?_]
      · rfl
      · intro i hi
        have := h (i + 1) (by simpa using hi)
        simpa using this
    · intro hp
      rw [List.isPrefixOf_iff_prefix] at hp
      apply h 0 (by simp)
      rw [List.drop_zero]
      refine List.prefix_of_prefix_length_le hp ?_ (by simp [q3])
      exact ⟨rest, by simp⟩

/-- C45: the triple quoted literal of a byte string that contains no `'''` and does not end in
a quote (so that the first `'''` after the opening one is the closing one). -/
theorem C45_triple (v rest : Str) (h : ∀ i, i < v.length → ¬ q3 <+: (v ++ q3).drop i) :
    lexLiteral (q3 ++ v ++ q3 ++ rest) = some (q3 ++ v ++ q3, rest) ∧ unquote (q3 ++ v ++ q3) = some v := by
  refine ⟨?_, unquote_triple v⟩
  have hp : q3.isPrefixOf (q3 ++ v ++ q3 ++ rest) = true := by
    rw [List.isPrefixOf_iff_prefix]; exact ⟨v ++ q3 ++ rest, by simp⟩
  unfold lexLiteral
  rw [hp]
  simp only [if_true]
  have : (q3 ++ v ++ q3 ++ rest).drop 3 = v ++ q3 ++ rest := by simp [q3]
  rw [this, scanML_first v rest h]

/-- C45: other byte strings cannot be written with triple quotes: what the lexer takes
decodes to something else. -/
theorem C45_triple_only {s v rest : Str} (h : lexLiteral s = some (q3 ++ v ++ q3, rest)) :
    ∀ i, i < v.length → ¬ q3 <+: (v ++ q3).drop i := by
  have key : ∀ (t b r : Str), scanML t = some (b, r) → ∀ i, i < b.length → ¬ q3 <+: (b ++ q3).drop i := by
    intro t
    induction t with
    | nil => intro b r h; simp [scanML] at h
    | cons c t ih =>
      intro b r h
      have hrec : ∀ (t b r : Str), scanML t = some (b, r) → t = b ++ q3 ++ r := by
        intro t
        induction t with
        | nil => intro b r h; simp [scanML] at h
        | cons c t ih =>
          intro b r h
          unfold scanML at h
          split at h
          · rename_i hp
            rw [List.isPrefixOf_iff_prefix] at hp
            obtain ⟨u, hu⟩ := hp
            cases h
            rw [← hu]; simp [q3]
          · simp only [Option.map_eq_some_iff] at h
            obtain ⟨p, hp, he⟩ := h
            cases he
            rw [ih _ _ hp]; simp
      have hfull := hrec _ _ _ h
      unfold scanML at h
      split at h
      · cases h; intro i hi; simp at hi
      · rename_i hnp
        simp only [Option.map_eq_some_iff] at h
        obtain ⟨p, hp, he⟩ := h
        cases he
        intro i hi
        cases i with
        | zero =>
          intro hq
          apply hnp
          rw [List.isPrefixOf_iff_prefix, hfull]
          rw [List.drop_zero] at hq
          exact hq.trans ⟨p.2, by simp⟩
        | succ i =>
          have := ih _ _ hp i (by simpa using hi)
          simpa using this
  unfold lexLiteral at h
  split at h
  · rename_i b r hs
    split at hs
    · simp only [Option.some.injEq, Prod.mk.injEq] at h
      have : b = v := by
        have := h.1
        simp only [List.append_assoc] at this
        have := List.append_cancel_left this
        exact List.append_cancel_right this
      subst this
      exact key _ _ _ hs
    · cases hs
  · split at h
    · cases h
    · split at h
      · rename_i q r hq
        simp only [Option.map_eq_some_iff] at h
        obtain ⟨p, hp, he⟩ := h
        have := scan_head hp
        simp only [Prod.mk.injEq] at he
        have he := he.1
        exfalso
        cases hb : p.1 with
        | nil => rw [hb] at he; have := congrArg List.length he; simp [q3] at this
        | cons c b =>
          rw [hb] at he this
          simp [q3] at he this
          exact this (by rw [he.2.1, he.1])
      · cases h

example : lexLiteral (bs "'''a'b''' c") = some (bs "'''a'b'''", bs " c") := by decide +kernel

/-- C45: well formed bodies, in particular with unknown escapes, decode to what they stand for. -/
theorem C45_decodes {q : UInt8} (hq : q = chDQ ∨ q = chSQ) {s b rest v : Str}
    (ht : scanStr q s = some (b, rest)) (hd : DecM b v) : unquote (q :: b ++ [q]) = some v := by
  rw [unquote_quoted hq (scan_head ht)]
  exact loop_decM _ hd [] (by simp)

theorem hexDigit_val (n : Nat) (h : n < 16) : hexVal (hexDigit n) = some n := by
  have : ∀ n : Fin 16, hexVal (hexDigit n.val) = some n.val := by decide
  exact this ⟨n, h⟩

/-- C45: the all hex literal of any byte string decodes to it, in both quoting styles. -/
theorem C45_hex (q : UInt8) (hq : q = chDQ ∨ q = chSQ) (v : Str) :
    unquote (q :: escapeHex v ++ [q]) = some v := by
  have hd : Dec (escapeHex v) v := by
    induction v with
    | nil => exact .nil
    | cons c v ih =>
      have hc : c.toNat < 256 := c.toNat_lt
      have e : c = bN (16 * (c.toNat / 16) + c.toNat % 16) := by
        rw [show 16 * (c.toNat / 16) + c.toNat % 16 = c.toNat by omega]
        simp [bN]
      have := Dec.hex (b := escapeHex v) (v := v) (x := 120) (Or.inl rfl)
        ((hexVal_iff _ _).1 (hexDigit_val (c.toNat / 16) (by omega)))
        ((hexVal_iff _ _).1 (hexDigit_val (c.toNat % 16) (by omega))) ih
      rw [← e] at this
      exact this
  have hh : (escapeHex v).head? ≠ some q := by
    cases v with
    | nil => simp [escapeHex]
    | cons c v => simp only [escapeHex, List.head?_cons]; rcases hq with rfl | rfl <;> decide
  rw [unquote_quoted hq hh]
  exact loop_dec _ hd [] (by simp)

/-- C45 fails: a malformed hex escape after a well formed escape is not kept as written
(`"\n\xzz"` gives newline, `n`, `xzz`). -/
theorem C45_malformed_hex_refuted :
    unquote (bs "\"\\n\\xzz\"") = some ([10] ++ bs "nxzz") := by decide +kernel

/-- C45 fails: a truncated hex escape is dropped with everything after the backslash. -/
theorem C45_truncated_hex_refuted : unquote (bs "\"ab\\x4\"") = some (bs "ab") := by decide +kernel

/-- `a\xzz\n` -/
example : DecM [97, chBS, 120, 122, 122, chBS, 110] [97, chBS, 120, 122, 122, 10] := by
  refine .plain (by decide) (.bad (Or.inl rfl) ?_ (.plain (by decide) (.plain (by decide)
    (.plain (by decide) (.dec (.lf .nil))))))
  rintro ⟨m, n, h, _⟩
  rw [← hexVal_iff] at h
  rw [show hexVal 122 = none by decide] at h
  cases h

end Vfilter
