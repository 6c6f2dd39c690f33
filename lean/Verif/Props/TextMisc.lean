import Verif.Text
import Mathlib.Data.List.Induction
import Mathlib.Tactic.Tauto
/-!
# C44 statements, C46 and C63 identifiers, C47 positions, C48 error snippets
-/

set_option linter.all false

namespace Vfilter

/-! ## C44 -/

section
variable {C S : Type}

/-- The source: statements each preceded by its comments, then trailing comments. -/
def source (l : List (List C × S)) (trailing : List C) : List (Item C S) :=
  l.flatMap (fun p => p.1.map .comment ++ [.stmt p.2]) ++ trailing.map .comment

theorem takeComments_map (cs : List C) (l : List (Item C S)) (h : ∀ c r, l ≠ .comment c :: r) :
    takeComments (cs.map .comment ++ l) = (cs, l) := by
  induction cs with
  | nil => cases l with
    | nil => rfl
    | cons a l => cases a with
      | comment c => exact absurd rfl (h c l)
      | stmt s => rfl
  | cons c cs ih => simp only [List.map_cons, List.cons_append, takeComments, ih]

/-- The parse of a source whose first comments were already taken. -/
theorem parse_source (l : List (List C × S)) : ∀ (cs : List C) (s : S) (tr : List C),
    ∃ m, parseMulti (cs.map .comment ++ .stmt s :: source l tr) = some m ∧
      ∀ extra, getStatementsWith extra m = (extra ++ cs, s) :: l := by
  induction l with
  | nil =>
    intro cs s tr
    refine ⟨.mk cs s tr none, ?_, ?_⟩
    · unfold parseMulti
      have h1 := takeComments_map (S := S) cs (.stmt s :: source [] tr) (by simp)
      have h2 := takeComments_map (S := S) tr [] (by simp)
      simp only [List.append_nil] at h2
      have e : source ([] : List (List C × S)) tr = tr.map .comment := by simp [source]
      rw [e] at h1 ⊢
      split
      · rename_i hx
        rw [h1] at hx
        cases hx
        split
        · rename_i hy; rw [h2] at hy; cases hy; rfl
        · rename_i hy; rw [h2] at hy; cases hy
      · rename_i hx; exact absurd h1 (hx _ _ _)
    · intro extra; simp [getStatementsWith]
  | cons p l ih =>
    obtain ⟨cs2, s2⟩ := p
    intro cs s tr
    obtain ⟨m, hm, hg⟩ := ih [] s2 tr
    refine ⟨.mk cs s cs2 (some m), ?_, ?_⟩
    · have e : source ((cs2, s2) :: l) tr = cs2.map .comment ++ .stmt s2 :: source l tr := by
        simp [source]
      have h1 := takeComments_map (S := S) cs (.stmt s :: source ((cs2, s2) :: l) tr) (by simp)
      have h2 := takeComments_map (S := S) cs2 (.stmt s2 :: source l tr) (by simp)
      rw [e] at h1 ⊢
      simp only [List.map_nil, List.nil_append] at hm
      unfold parseMulti
      split
      · rename_i hx
        rw [h1] at hx
        cases hx
        split
        · rename_i hy; rw [h2] at hy; cases hy
        · rename_i hy; rw [h2] at hy; cases hy; rw [hm]
      · rename_i hx; exact absurd h1 (hx _ _ _)
    · intro extra
      simp only [getStatementsWith, hg]
      simp

/-- C44 (without "losing none": comments after the last statement are lost, see
`C44_trailing_refuted`): MultiParseWithComments gives the statements in source order, each
with exactly the comments that precede it. -/
theorem C44_with_comments_partial (l : List (List C × S)) (trailing : List C) (h : l ≠ []) :
    multiParseWithComments (source l trailing) = some l := by
  cases l with
  | nil => exact absurd rfl h
  | cons p l =>
    obtain ⟨cs, s⟩ := p
    obtain ⟨m, hm, hg⟩ := parse_source l cs s trailing
    have e : source ((cs, s) :: l) trailing = cs.map .comment ++ .stmt s :: source l trailing := by
      simp [source]
    unfold multiParseWithComments
    rw [e, hm]
    simp only [Option.map_some, getStatements, hg, List.nil_append]

/-- C44: MultiParse gives the statements in source order, without comments. -/
theorem C44_order (l : List (List C × S)) (trailing : List C) (h : l ≠ []) :
    multiParse (source l trailing) = some (l.map fun p => ([], p.2)) := by
  have hd : ∀ cs : List C, ∀ r : List (Item C S), dropComments (cs.map .comment ++ r) = dropComments r := by
    intro cs r
    induction cs with
    | nil => rfl
    | cons c cs ih => simpa [dropComments] using ih
  have e : dropComments (source l trailing) = source (l.map fun p => (([] : List C), p.2)) [] := by
    clear h
    induction l with
    | nil =>
      have := hd trailing ([] : List (Item C S))
      simpa [source, dropComments] using this
    | cons p l ih =>
      have e : source (p :: l) trailing = p.1.map .comment ++ .stmt p.2 :: source l trailing := by
        simp [source]
      rw [e, hd]
      simp only [dropComments, ih]
      simp [source]
  have := C44_with_comments_partial (l.map fun p => (([] : List C), p.2)) [] (by simpa using h)
  unfold multiParse
  rw [e]
  exact this

/-- Every sequence of statements and comments is such a source, so the theorems above speak
about all of them. -/
theorem C44_every_sequence (items : List (Item C S)) : ∃ l tr, items = source l tr := by
  have h : ∀ items : List (Item C S), ∀ cs : List C, ∃ l tr, cs.map .comment ++ items = source l tr := by
    intro items
    induction items with
    | nil => intro cs; exact ⟨[], cs, by simp [source]⟩
    | cons a items ih =>
      intro cs
      cases a with
      | comment c =>
        obtain ⟨l, tr, e⟩ := ih (cs ++ [c])
        exact ⟨l, tr, by simpa using e⟩
      | stmt s =>
        obtain ⟨l, tr, e⟩ := ih []
        refine ⟨(cs, s) :: l, tr, ?_⟩
        simp only [List.map_nil, List.nil_append] at e
        rw [e]; simp [source]
  simpa using h items []

/-- A source without statements is refused. -/
theorem C44_no_statement (trailing : List C) :
    multiParseWithComments (source ([] : List (List C × S)) trailing) = none := by
  have h2 := takeComments_map (S := S) trailing [] (by simp)
  unfold multiParseWithComments parseMulti
  rw [List.append_nil] at h2
  have e : source ([] : List (List C × S)) trailing = trailing.map .comment := by simp [source]
  rw [e]
  split
  · rename_i hx; rw [h2] at hx; cases hx
  · rfl

end

/-- C44 fails: a comment after the last statement appears nowhere in the result. -/
theorem C44_trailing_refuted :
    multiParseWithComments (source [([1], true)] [2] : List (Item Nat Bool)) = some [([1], true)] :=
  C44_with_comments_partial _ _ (by simp)

example : multiParseWithComments (source [([1, 2], true), ([], false), ([3], true)] [] : List (Item Nat Bool))
    = some [([1, 2], true), ([], false), ([3], true)] := C44_with_comments_partial _ _ (by simp)

/-! ## Runes -/

theorem bN_toNat {n : Nat} (h : n < 256) : (bN n).toNat = n := by
  simp [bN, Nat.mod_eq_of_lt h]

theorem decode_encode (r : Nat) (h : validRune r) (t : Str) :
    decodeRune (encodeRuneV r ++ t) = (r, (encodeRuneV r).length) := by
  unfold validRune at h
  unfold encodeRuneV
  split
  · rename_i h1
    simp only [List.cons_append, List.nil_append, decodeRune, bN_toNat (show r < 256 by omega)]
    simp [h1]
  · split
    · rename_i h1 h2
      have e1 : (bN (0xC0 + r / 64)).toNat = 0xC0 + r / 64 := bN_toNat (by omega)
      have e2 : (bN (0x80 + r % 64)).toNat = 0x80 + r % 64 := bN_toNat (by omega)
      simp only [List.cons_append, List.nil_append, decodeRune, e1, e2, isCont]
      rw [if_neg (by omega), if_neg (by omega), if_pos (by omega), if_pos (by simp; omega)]
      simp; omega
    · split
      · rename_i h1 h2 h3
        have e1 : (bN (0xE0 + r / 4096)).toNat = 0xE0 + r / 4096 := bN_toNat (by omega)
        have e2 : (bN (0x80 + r / 64 % 64)).toNat = 0x80 + r / 64 % 64 := bN_toNat (by omega)
        have e3 : (bN (0x80 + r % 64)).toNat = 0x80 + r % 64 := bN_toNat (by omega)
        simp only [List.cons_append, List.nil_append, decodeRune, e1, e2, e3, isCont]
        rw [if_neg (by omega), if_neg (by omega), if_neg (by omega), if_pos (by omega), if_pos ?_]
        · simp; omega
        · simp only [Bool.and_eq_true, Bool.not_eq_true', decide_eq_true_eq, Bool.and_eq_false_iff,
            beq_eq_false_iff_ne, decide_eq_false_iff_not]
          omega
      · rename_i h1 h2 h3
        have e1 : (bN (0xF0 + r / 262144)).toNat = 0xF0 + r / 262144 := bN_toNat (by omega)
        have e4 : (bN (0x80 + r / 4096 % 64)).toNat = 0x80 + r / 4096 % 64 := bN_toNat (by omega)
        have e2 : (bN (0x80 + r / 64 % 64)).toNat = 0x80 + r / 64 % 64 := bN_toNat (by omega)
        have e3 : (bN (0x80 + r % 64)).toNat = 0x80 + r % 64 := bN_toNat (by omega)
        simp only [List.cons_append, List.nil_append, decodeRune, e1, e2, e3, e4, isCont]
        rw [if_neg (by omega), if_neg (by omega), if_neg (by omega), if_neg (by omega), if_pos (by omega),
          if_pos ?_]
        · simp; omega
        · simp only [Bool.and_eq_true, Bool.not_eq_true', decide_eq_true_eq, Bool.and_eq_false_iff,
            beq_eq_false_iff_ne, decide_eq_false_iff_not]
          omega

theorem encodeRuneV_ne (r : Nat) : encodeRuneV r ≠ [] := by
  unfold encodeRuneV
  repeat' split
  all_goals simp

theorem runesOf_cons (r : Nat) (h : validRune r) (t : Str) :
    runesOf (encodeRune r ++ t) = r :: runesOf t := by
  unfold encodeRune
  rw [if_pos h]
  cases he : encodeRuneV r ++ t with
  | nil =>
    have := encodeRuneV_ne r
    simp at he; exact absurd he.1 this
  | cons b u =>
    rw [runesOf, ← he, decode_encode r h t]
    simp

theorem runesOf_encode (l : List Nat) (h : ∀ r ∈ l, validRune r) (t : Str) :
    runesOf (encodeRunes l ++ t) = l ++ runesOf t := by
  induction l with
  | nil => simp [encodeRunes]
  | cons r l ih =>
    have e : encodeRunes (r :: l) ++ t = encodeRune r ++ (encodeRunes l ++ t) := by simp [encodeRunes]
    rw [e, runesOf_cons r (h r (by simp)), ih (fun r' h' => h r' (by simp [h']))]
    simp

theorem runesOf_ascii (b : UInt8) (hb : b.toNat < 0x80) (t : Str) : runesOf (b :: t) = b.toNat :: runesOf t := by
  have e : b :: t = encodeRune b.toNat ++ t := by
    unfold encodeRune encodeRuneV
    rw [if_pos (by unfold validRune; omega), if_pos hb]
    simp [bN]
  rw [e]
  exact runesOf_cons _ (by unfold validRune; omega) t

theorem decodeRune_le (b : UInt8) (u : Str) : (decodeRune (b :: u)).2 ≤ (b :: u).length := by
  unfold decodeRune
  simp only
  repeat' split
  all_goals simp

theorem decodeRune_ne (b : UInt8) (u : Str) (h : b.toNat ≠ 96) : (decodeRune (b :: u)).1 ≠ 96 := by
  unfold decodeRune
  simp only
  repeat' split
  all_goals first
    | omega
    | (simp; done)
    | (simp only [isCont, Bool.and_eq_true, decide_eq_true_eq, Bool.not_eq_true',
        Bool.and_eq_false_iff, beq_eq_false_iff_ne, decide_eq_false_iff_not] at *; omega)

/-- A byte that is not a continuation byte does not change the rune before it. -/
theorem decodeRune_stable (b : UInt8) (u : Str) (x : UInt8) (t : Str) (hx : isCont x = false) :
    decodeRune (b :: u ++ x :: t) = decodeRune (b :: u) := by
  by_cases h1 : b.toNat < 0x80
  · simp only [decodeRune, List.cons_append, h1, if_true]
  by_cases h2 : b.toNat < 0xC2
  · simp only [decodeRune, List.cons_append, h1, h2, if_true, if_false]
  by_cases h3 : b.toNat < 0xE0
  · simp only [decodeRune, List.cons_append, h1, h2, h3, if_true, if_false]
    cases u <;> simp [hx]
  by_cases h4 : b.toNat < 0xF0
  · simp only [decodeRune, List.cons_append, h1, h2, h3, h4, if_true, if_false]
    rcases u with _ | ⟨u1, _ | ⟨u2, u⟩⟩
    · cases t <;> simp [hx]
    · simp [hx]
    · simp
  by_cases h5 : b.toNat < 0xF5
  · simp only [decodeRune, List.cons_append, h1, h2, h3, h4, h5, if_true, if_false]
    rcases u with _ | ⟨u1, _ | ⟨u2, _ | ⟨u3, u⟩⟩⟩
    · rcases t with _ | ⟨t1, _ | ⟨t2, t⟩⟩ <;> simp [hx]
    · rcases t with _ | ⟨t1, t⟩ <;> simp [hx]
    · simp [hx]
    · simp
  · simp only [decodeRune, List.cons_append, h1, h2, h3, h4, h5, if_false]

/-! ## C46 -/

/-- A Go string that is well formed UTF-8. -/
def WellFormed (s : Str) : Prop := ∃ l, (∀ r ∈ l, validRune r) ∧ s = encodeRunes l

/-- One component as written: wrapped in backticks or bare. -/
structure Comp where
  quoted : Bool
  name : Str

/-- A component that can be written: no backtick inside, and no dot unless wrapped. -/
def Comp.ok (c : Comp) : Prop :=
  WellFormed c.name ∧ chBT ∉ c.name ∧ (c.quoted = false → (46 : UInt8) ∉ c.name)

/-- How a component is written. -/
def Comp.text (c : Comp) : Str := if c.quoted then chBT :: c.name ++ [chBT] else c.name

/-- The components joined with dots. -/
def joinDots : List Comp → Str
  | [] => []
  | [c] => c.text
  | c :: cs => c.text ++ 46 :: joinDots cs

theorem mem_encodeRunes {b : UInt8} (hb : b.toNat < 0x80) {l : List Nat} (h : b.toNat ∈ l) :
    b ∈ encodeRunes l := by
  unfold encodeRunes
  rw [List.mem_flatMap]
  refine ⟨b.toNat, h, ?_⟩
  unfold encodeRune encodeRuneV
  rw [if_pos (by unfold validRune; omega), if_pos hb]
  simp [bN]

theorem splitLoop_quoted (rs : List Nat) (h : 96 ∉ rs) (rest cur : List Nat) (res : List Str) :
    splitLoop (96 :: rs ++ 96 :: rest) cur false res = splitLoop rest (cur ++ rs) false res := by
  have key : ∀ (rs : List Nat), 96 ∉ rs → ∀ cur, splitLoop (rs ++ 96 :: rest) cur true res =
      splitLoop rest (cur ++ rs) false res := by
    intro rs
    induction rs with
    | nil => intro _ cur; simp [splitLoop]
    | cons r rs ih =>
      intro h cur
      simp only [List.mem_cons, not_or] at h
      simp only [List.cons_append]
      rw [splitLoop]
      rw [if_pos rfl, if_neg (fun e => h.1 e.symm), ih h.2]
      simp
  rw [List.cons_append, splitLoop]
  simp only [Bool.false_eq_true, if_false, if_true]
  exact key rs h cur

theorem splitLoop_bare (rs : List Nat) (h : 96 ∉ rs) (h2 : 46 ∉ rs) (rest : List Nat) (res : List Str) :
    ∀ cur : List Nat, splitLoop (rs ++ rest) cur false res = splitLoop rest (cur ++ rs) false res := by
  induction rs with
  | nil => intro cur; simp
  | cons r rs ih =>
    intro cur
    simp only [List.mem_cons, not_or] at h h2
    simp only [List.cons_append]
    rw [splitLoop]
    simp only [Bool.false_eq_true, if_false]
    rw [if_neg (fun e => h.1 e.symm), if_neg (fun e => h2.1 e.symm), ih h.2 h2.2]
    simp

theorem splitLoop_comp {c : Comp} (h : c.ok) (t : Str) (res : List Str) : ∃ l : List Nat,
    encodeRunes l = c.name ∧
    splitLoop (runesOf (c.text ++ t)) [] false res = splitLoop (runesOf t) l false res := by
  obtain ⟨⟨l, hl, he⟩, hbt, hdot⟩ := h
  have h96 : 96 ∉ l := fun hm => hbt (he ▸ mem_encodeRunes (b := 96) (by decide) hm)
  refine ⟨l, he.symm, ?_⟩
  unfold Comp.text
  cases hq : c.quoted with
  | true =>
    simp only [if_true]
    have e : (chBT :: c.name ++ [chBT] ++ t) = chBT :: (encodeRunes l ++ (chBT :: t)) := by
      rw [he]; simp
    rw [e, runesOf_ascii _ (by decide), runesOf_encode l hl, runesOf_ascii _ (by decide)]
    have := splitLoop_quoted l h96 (runesOf t) [] res
    rw [show chBT.toNat = 96 by decide]
    simpa using this
  | false =>
    simp only [Bool.false_eq_true, if_false]
    have h46 : 46 ∉ l := fun hm => hdot hq (he ▸ mem_encodeRunes (b := 46) (by decide) hm)
    rw [he, runesOf_encode l hl]
    have := splitLoop_bare l h96 h46 (runesOf t) res []
    simpa using this

/-- C46 for well formed UTF-8 (for other byte strings see `C46_invalid_utf8_refuted`):
splitting gives back exactly the components. -/
theorem C46_split_partial (cs : List Comp) (hne : cs ≠ []) (h : ∀ c ∈ cs, c.ok) :
    splitIdent (joinDots cs) = cs.map Comp.name := by
  have key : ∀ (cs : List Comp), cs ≠ [] → (∀ c ∈ cs, c.ok) → ∀ res,
      splitLoop (runesOf (joinDots cs)) [] false res = res ++ cs.map Comp.name := by
    intro cs
    induction cs with
    | nil => intro hn; exact absurd rfl hn
    | cons c cs ih =>
      intro _ h res
      cases cs with
      | nil =>
        obtain ⟨l, hl, hs⟩ := splitLoop_comp (h c (by simp)) [] res
        rw [List.append_nil] at hs
        simp only [joinDots]
        rw [hs]
        simp [runesOf, splitLoop, hl]
      | cons d cs =>
        obtain ⟨l, hl, hs⟩ := splitLoop_comp (h c (by simp)) (46 :: joinDots (d :: cs)) res
        simp only [joinDots]
        rw [hs, runesOf_ascii _ (by decide), splitLoop]
        simp only [Bool.false_eq_true, if_false]
        rw [if_neg (by decide), if_pos (by decide), ih (by simp) (fun c' h' => h c' (by simp [h'])), hl]
        simp
  have := key cs hne h []
  simpa [splitIdent] using this

example : splitIdent (bs "`a.b`.c..`d`") = [bs "a.b", bs "c", [], bs "d"] := by decide +kernel

/-- C46 fails on component names that are not UTF-8: the name `\xff` becomes U+FFFD. -/
theorem C46_invalid_utf8_refuted : splitIdent (joinDots [⟨true, [255]⟩]) = [[0xEF, 0xBF, 0xBD]] := by
  decide +kernel

/-! ## C63 -/

theorem unquoteIdentLoop_eq (s : Str) (h : chBS ∉ s) : ∀ (n : Nat), s.length ≤ n → ∀ out,
    unquoteIdentLoop s out = out ++ encodeRunes (runesOf s) := by
  intro n
  induction n generalizing s with
  | zero => intro hn out; cases s with
    | nil => simp [unquoteIdentLoop, runesOf, encodeRunes]
    | cons _ _ => simp at hn
  | succ n ih =>
    intro hn out
    cases s with
    | nil => simp [unquoteIdentLoop, runesOf, encodeRunes]
    | cons c t =>
      have hw := decodeRune_width c t
      simp only [List.mem_cons, not_or] at h
      have hch : unquoteChar (c :: t) = some ((decodeRune (c :: t)).1, (c :: t).drop (decodeRune (c :: t)).2) := by
        unfold unquoteChar
        by_cases hc : 0x80 ≤ c.toNat
        · simp only [hc, if_true]
        · simp only [hc, if_false]
          rw [if_pos (fun e => h.1 e.symm)]
          have : decodeRune (c :: t) = (c.toNat, 1) := by
            unfold decodeRune; simp only; rw [if_pos (by omega)]
          rw [this]; rfl
      have hlen : ((c :: t).drop (decodeRune (c :: t)).2).length ≤ n := by
        simp only [List.length_drop, List.length_cons] at hn ⊢; omega
      have hno : chBS ∉ (c :: t).drop (decodeRune (c :: t)).2 := by
        intro hm
        have := List.mem_of_mem_drop hm
        simp only [List.mem_cons] at this
        tauto
      unfold unquoteIdentLoop
      split
      · rename_i hx; rw [hch] at hx; cases hx
      · rename_i v tail hx
        rw [hch] at hx
        cases hx
        rw [ih _ hno hlen]
        conv => rhs; unfold runesOf
        simp [encodeRunes]

/-- C63 for names without a backslash (see `C63_backslash_refuted`): a quoted name means the
same single name where it is defined or used as a member, parameter or column name
(`Unquote_ident`) and where it is referenced as a symbol (`SplitIdent`). -/
theorem C63_same_name_partial (name : Str) (h1 : chBT ∉ name) (h2 : chBS ∉ name) :
    ∃ n, unquoteIdent (chBT :: name ++ [chBT]) = some n ∧ splitIdent (chBT :: name ++ [chBT]) = [n] ∧
      (WellFormed name → n = name) := by
  refine ⟨encodeRunes (runesOf name), ?_, ?_, ?_⟩
  · unfold unquoteIdent
    simp only [List.cons_append]
    rw [if_neg (by simp)]
    have hs : goSlice (chBT :: (name ++ [chBT])) 1 ((chBT :: (name ++ [chBT])).length - 1) = some name := by
      unfold goSlice
      rw [if_pos (by simp; omega)]
      have e : (((chBT :: (name ++ [chBT])).length : Int) - 1).toNat = name.length + 1 := by simp
      rw [e]; simp
    rw [hs]
    simp only [Option.map_some]
    rw [unquoteIdentLoop_eq name h2 _ (Nat.le_refl _)]
    simp
  · -- runes of a text followed by a backtick
    have hr : ∀ (n : Nat) (s t : Str), s.length ≤ n → chBT ∉ s →
        runesOf (s ++ chBT :: t) = runesOf s ++ runesOf (chBT :: t) ∧ 96 ∉ runesOf s := by
      intro n
      induction n with
      | zero =>
        intro s t hn _
        cases s with
        | nil => simp [runesOf]
        | cons _ _ => simp at hn
      | succ n ih =>
        intro s t hn hbt
        cases s with
        | nil => simp [runesOf]
        | cons b u =>
          have hw := decodeRune_width b u
          have hdec : decodeRune (b :: u ++ chBT :: t) = decodeRune (b :: u) ∧
              (decodeRune (b :: u)).2 ≤ (b :: u).length ∧ (decodeRune (b :: u)).1 ≠ 96 := by
            simp only [List.mem_cons, not_or] at hbt
            have hb96 : b.toNat ≠ 96 := fun e => hbt.1 (by
              have : b = UInt8.ofNat b.toNat := by simp
              rw [this, e]; rfl)
            exact ⟨decodeRune_stable b u chBT t (by decide), decodeRune_le b u, decodeRune_ne b u hb96⟩
          obtain ⟨hd1, hd2, hd3⟩ := hdec
          have hlen : ((b :: u).drop (decodeRune (b :: u)).2).length ≤ n := by
            simp only [List.length_drop, List.length_cons] at hn ⊢; omega
          have hno : chBT ∉ (b :: u).drop (decodeRune (b :: u)).2 := fun hm => hbt (List.mem_of_mem_drop hm)
          obtain ⟨i1, i2⟩ := ih _ t hlen hno
          have e1 : runesOf (b :: u ++ chBT :: t) = (decodeRune (b :: u)).1 ::
              runesOf ((b :: u).drop (decodeRune (b :: u)).2 ++ chBT :: t) := by
            rw [List.cons_append]
            conv => lhs; unfold runesOf
            rw [← List.cons_append, hd1, List.drop_append_of_le_length hd2]
          have e2 : runesOf (b :: u) = (decodeRune (b :: u)).1 :: runesOf ((b :: u).drop (decodeRune (b :: u)).2) := by
            conv => lhs; unfold runesOf
          rw [e1, e2, i1]
          refine ⟨by simp, ?_⟩
          simp only [List.mem_cons, not_or]
          exact ⟨fun e => hd3 e.symm, i2⟩
    obtain ⟨k1, k2⟩ := hr _ name [] (Nat.le_refl _) h1
    unfold splitIdent
    rw [List.cons_append, runesOf_ascii _ (by decide), k1, runesOf_ascii _ (by decide)]
    have := splitLoop_quoted (runesOf name) k2 (runesOf []) [] []
    simp only [List.cons_append, List.nil_append] at this
    rw [show chBT.toNat = 96 by decide, this]
    simp [runesOf, splitLoop]
  · rintro ⟨l, hl, rfl⟩
    have := runesOf_encode l hl []
    simp only [List.append_nil] at this
    rw [this]; simp [runesOf]

/-- A bare name (no dot, no backtick) also means the same name everywhere. -/
theorem C63_bare_name (name : Str) (h : WellFormed name) (h1 : chBT ∉ name) (h2 : (46 : UInt8) ∉ name) :
    unquoteIdent name = some name ∧ splitIdent name = [name] := by
  constructor
  · unfold unquoteIdent
    cases name with
    | nil => rfl
    | cons c t =>
      simp only
      rw [if_pos (fun e => h1 (by simp [e]))]
  · have := C46_split_partial [⟨false, name⟩] (by simp) (by
      intro c hc
      simp only [List.mem_singleton] at hc
      subst hc
      exact ⟨h, h1, fun _ => h2⟩)
    simpa [joinDots, Comp.text] using this

/-- C63 fails with a backslash: `` LET `a\n` = 1 `` defines `a` + newline, but `` `a\n` `` refers
to the three bytes `a\n`; and an unknown escape loses the start of the name. -/
theorem C63_backslash_refuted :
    (unquoteIdent (bs "`a\\n`") = some [97, 10] ∧ splitIdent (bs "`a\\n`") = [bs "a\\n"]) ∧
    (unquoteIdent (bs "`ab\\d`") = some (bs "\\d") ∧ splitIdent (bs "`ab\\d`") = [bs "ab\\d"]) := by
  decide +kernel

example : splitIdent (bs "`a.b c`") = [bs "a.b c"] ∧ unquoteIdent (bs "`a.b c`") = some (bs "a.b c") := by
  decide +kernel

/-! ## C47 -/

/-- The number of characters after the last newline, if there is one. -/
def sinceNewline (l : List Nat) : Option Nat :=
  if 10 ∈ l then some ((l.reverse.takeWhile (· ≠ 10)).length) else none

theorem findEnd_spec (l : List Nat) (p : TPos) :
    l.foldl endStep p = ⟨p.offset + l.length, p.line + l.count 10,
      match sinceNewline l with
      | some n => 1 + n
      | none => p.column + l.length⟩ := by
  induction l using List.reverseRecOn with
  | nil => simp [sinceNewline]
  | append_singleton l c ih =>
    rw [List.foldl_append, ih]
    simp only [List.foldl_cons, List.foldl_nil, endStep]
    by_cases hc : c = 10
    · subst hc
      simp [sinceNewline]; omega
    · rw [if_neg hc]
      have hs : sinceNewline (l ++ [c]) = (sinceNewline l).map (· + 1) := by
        unfold sinceNewline
        simp only [List.mem_append, List.mem_singleton, List.reverse_append, List.reverse_cons,
          List.reverse_nil, List.nil_append, List.cons_append]
        by_cases hm : 10 ∈ l
        · simp [hm, hc]
        · have : ¬ (10 ∈ l ∨ 10 = c) := by
            rintro (h | h)
            · exact hm h
            · exact hc h.symm
          rw [if_neg this, if_neg hm]; rfl
      rw [hs]
      have hcount : List.count 10 (l ++ [c]) = List.count 10 l := by
        simp [List.count_append, List.count_singleton, hc]
      rw [hcount]
      cases sinceNewline l <;> simp <;> omega

/-- C47 (line and column): the end of a token is on the line of its start plus its newlines,
at the column given by the characters since the last newline. -/
theorem C47_line_column (start : TPos) (text : Str) :
    (findEndPos start text).line = start.line + (runesOf text).count 10 ∧
    (findEndPos start text).column = (match sinceNewline (runesOf text) with
      | some n => 1 + n
      | none => start.column + (runesOf text).length) := by
  unfold findEndPos
  rw [findEnd_spec]
  exact ⟨rfl, rfl⟩

theorem runesOf_all_ascii (s : Str) (h : ∀ b ∈ s, b.toNat < 0x80) : runesOf s = s.map UInt8.toNat := by
  induction s with
  | nil => simp [runesOf]
  | cons b s ih =>
    rw [runesOf_ascii b (h b (by simp)), ih (fun b' h' => h b' (by simp [h']))]
    simp

/-- C47 (byte offset), for ASCII token texts only; missing: texts with multi byte characters,
where the offset is wrong (`C47_offset_refuted`). -/
theorem C47_offset_partial (start : TPos) (text : Str) (h : ∀ b ∈ text, b.toNat < 0x80) :
    (findEndPos start text).offset = start.offset + text.length := by
  unfold findEndPos
  rw [findEnd_spec, runesOf_all_ascii text h]
  simp

/-- The end offset in general advances by the number of characters. -/
theorem C47_offset_counts_characters (start : TPos) (text : Str) :
    (findEndPos start text).offset = start.offset + (runesOf text).length := by
  unfold findEndPos
  rw [findEnd_spec]

/-- C47 fails for multi byte characters: the end of the token `'é'` (4 bytes) is 3 after its start. -/
theorem C47_offset_refuted :
    (findEndPos ⟨0, 1, 1⟩ [39, 0xC3, 0xA9, 39]).offset = 3 ∧ [39, 0xC3, 0xA9, (39 : UInt8)].length = 4 := by
  decide +kernel

/-- The start position of a token is the position reached after the text before it. -/
def StartsAfter (s : Str) (base : TPos) (t : Tok) : Prop :=
  ∃ spans : List Str, (∃ rest, s = spans.flatten ++ t.value ++ rest) ∧
    t.pos = spans.foldl TPos.advance base

theorem tokenizeFrom_spec (next : Str → Option LexMatch) : ∀ (n : Nat) (s : Str) (pos : TPos) (l : List Tok),
    s.length ≤ n → tokenizeFrom next pos s = some l →
    (∀ t ∈ l, StartsAfter s pos t ∧ t.endPos = findEndPos t.pos t.value ∧ t.value ≠ [] ∧ pos.offset ≤ t.pos.offset) ∧
    l.Pairwise (fun a b => a.pos.offset + a.value.length ≤ b.pos.offset) := by
  intro n
  induction n with
  | zero =>
    intro s pos l hn h
    cases s with
    | nil => unfold tokenizeFrom at h; cases h; simp
    | cons _ _ => simp at hn
  | succ n ih =>
    intro s pos l hn h
    cases s with
    | nil => unfold tokenizeFrom at h; cases h; simp
    | cons b t =>
      unfold tokenizeFrom at h
      cases hm : next (b :: t) with
      | none => simp only [hm] at h; cases h
      | some m =>
        simp only [hm] at h
        split at h
        · cases h
        · rename_i hw
          simp only [not_or, Nat.not_lt] at hw
          have hlen : ((b :: t).drop m.width).length ≤ n := by
            simp only [List.length_drop, List.length_cons] at hn ⊢; omega
          split at h
          · cases h
          · rename_i l' hl'
            obtain ⟨i1, i2⟩ := ih _ _ _ hlen hl'
            have hoff : (pos.advance ((b :: t).take m.width)).offset = pos.offset + m.width := by
              simp only [TPos.advance, List.length_take]; omega
            have lift : ∀ t' ∈ l', StartsAfter (b :: t) pos t' ∧ t'.endPos = findEndPos t'.pos t'.value ∧ t'.value ≠ [] ∧
                pos.offset ≤ t'.pos.offset := by
              intro t' ht'
              obtain ⟨⟨spans, ⟨rest, hr⟩, hp⟩, h2, h3, h4⟩ := i1 t' ht'
              refine ⟨⟨(b :: t).take m.width :: spans, ⟨rest, ?_⟩, ?_⟩, h2, h3, by omega⟩
              · rw [List.flatten_cons]
                conv => lhs; rw [← List.take_append_drop m.width (b :: t), hr]
                simp
              · rw [hp]; rfl
            split at h
            · cases h; exact ⟨lift, i2⟩
            · cases h
              refine ⟨?_, ?_⟩
              · intro t' ht'
                rcases List.mem_cons.1 ht' with rfl | ht'
                · refine ⟨⟨[], ⟨(b :: t).drop m.width, ?_⟩, rfl⟩, rfl, ?_, Nat.le_refl _⟩
                  · simp only [List.flatten_nil, List.nil_append, List.take_append_drop]
                  · intro e
                    have := congrArg List.length e
                    simp only [List.length_take, List.length_cons, List.length_nil] at this hw
                    omega
                · exact lift t' ht'
              · refine List.pairwise_cons.2 ⟨?_, i2⟩
                intro t' ht'
                have := (i1 t' ht').2.2.2
                simp only [List.length_take]
                omega

theorem advance_offset (spans : List Str) : ∀ base : TPos,
    (spans.foldl TPos.advance base).offset = base.offset + spans.flatten.length := by
  induction spans with
  | nil => simp
  | cons s spans ih =>
    intro base
    rw [List.foldl_cons, ih]
    simp only [TPos.advance, List.flatten_cons, List.length_append]
    omega

/-- C47: Tokenize gives the tokens in source order without overlap; each has the text found in
the source at its start offset. -/
theorem C47_tokens_in_order (next : Str → Option LexMatch) (s : Str) (l : List Tok)
    (h : tokenize next s = some l) :
    l.Pairwise (fun a b => a.pos.offset + a.value.length ≤ b.pos.offset) ∧
    ∀ t ∈ l, t.value ≠ [] ∧ (s.drop t.pos.offset).take t.value.length = t.value ∧
      t.endPos = findEndPos t.pos t.value := by
  obtain ⟨h1, h2⟩ := tokenizeFrom_spec next _ s _ l (Nat.le_refl _) h
  refine ⟨h2, fun t ht => ?_⟩
  obtain ⟨⟨spans, ⟨rest, hr⟩, hp⟩, he, hv, _⟩ := h1 t ht
  refine ⟨hv, ?_, he⟩
  have : t.pos.offset = spans.flatten.length := by rw [hp, advance_offset]; simp
  rw [this, hr]
  simp

example : (tokenize (fun s => match s with
      | 32 :: _ => some ⟨0, 1, true⟩
      | _ => some ⟨1, 2, false⟩) (bs "ab cd")).map (·.map (fun t => (t.value, t.pos.offset))) =
    some [(bs "ab", 0), (bs "cd", 3)] := by decide +kernel

/-! ## C48 -/

/-- C48: for every position the parser can report the snippet is built without an out of range
access; it is text around the position with a bar at the position. -/
theorem C48_no_crash (pos : Nat) (expression : Str) (h : pos ≤ expression.length) :
    ∃ a b, reportError pos expression = some (a ++ [124] ++ b) ∧
      ∃ i j, a = (expression.take (min pos (expression.length - 1))).drop i ∧
        b = (expression.drop (min pos (expression.length - 1))).take j := by
  have clamp : ∀ x len : Int, (if (if x ≥ len then len - 1 else x) < 0 then 0
      else (if x ≥ len then len - 1 else x)) = max 0 (min x (len - 1)) := by
    intro x len
    by_cases h1 : x ≥ len
    · simp only [h1, if_true]; split <;> omega
    · simp only [h1, if_false]; split <;> omega
  have clamp2 : ∀ x : Int, (if x < 0 then 0 else x) = max 0 x := by
    intro x; split <;> omega
  unfold reportError
  simp only [clamp, clamp2]
  unfold goSlice
  rw [if_pos (by omega)]
  simp only [Option.bind_some]
  rw [if_pos (by omega)]
  simp only [Option.map_some]
  refine ⟨_, _, rfl, ?_⟩
  have ho : (max (0 : Int) (min (pos : Int) ((expression.length : Int) - 1))).toNat =
      min pos (expression.length - 1) := by omega
  rw [ho]
  exact ⟨(max (0 : Int) ((pos : Int) - 10)).toNat, _, List.drop_take.symm, rfl⟩

example : reportError 5 (bs "SELEC") = some (bs "SELE|") := by decide +kernel
example : reportError 0 [] = some (bs "|") := by decide +kernel

end Vfilter
