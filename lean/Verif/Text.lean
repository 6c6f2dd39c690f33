import Verif.Ops
/-!
# Text level code: string literals, identifiers, positions, error snippets, statements
-/

set_option linter.unusedVariables false

namespace Vfilter

/-- `'\''` -/
abbrev chSQ : UInt8 := 39
/-- `'"'` -/
abbrev chDQ : UInt8 := 34
/-- `'\\'` -/
abbrev chBS : UInt8 := 92
/-- `` '`' `` -/
abbrev chBT : UInt8 := 96

/-! ## Unquote (utils/unquote.go:9-107) -/

/-- `hex_lookup` (utils/unquote.go:179-200); `none` is -1. -/
def hexVal (c : UInt8) : Option Nat :=
  if 48 ≤ c.toNat ∧ c.toNat ≤ 57 then some (c.toNat - 48)
  else if 97 ≤ c.toNat ∧ c.toNat ≤ 102 then some (c.toNat - 97 + 10)
  else if 65 ≤ c.toNat ∧ c.toNat ≤ 70 then some (c.toNat - 65 + 10)
  else none

/-- `decode_hex` (utils/unquote.go:165-177). `res<<4 | res2` is `16 * res + res2` since
both are below 16 (the shift is done on `int8`, and the conversion to `uint8` undoes its
wraparound). -/
def decodeHex (l r : UInt8) : Option UInt8 :=
  match hexVal l, hexVal r with
  | some a, some b => some (UInt8.ofNat (16 * a + b))
  | _, _ => none

/-- The store `out[j] = b; j++` (`out` has the length of `in`); `none` is the index panic. -/
def putByte (inp acc : Str) (b : UInt8) : Option Str :=
  if acc.length < inp.length then some (acc ++ [b]) else none

/-- The loop of `Unquote` (utils/unquote.go:40-106).  The third argument is `in[i:]`, `acc` is
`out[:j]`.  `none` is an index panic.  Note the malformed hex case reads `in[j]`, not
`in[i]` (line 66). -/
def unquoteLoop (inp : Str) : Str → Str → Option Str
  | [], acc => some acc
  | c :: rest, acc =>
    if c = chBS then
      match rest with
      | [] => some acc
      | d :: rest2 =>
        if d = 120 ∨ d = 88 then
          match rest2 with
          | h1 :: h2 :: rest3 =>
            match decodeHex h1 h2 with
            | some b => (putByte inp acc b).bind (unquoteLoop inp rest3)
            | none => (inp[acc.length]?).bind fun b =>
                (putByte inp acc b).bind (unquoteLoop inp (d :: h1 :: h2 :: rest3))
          | _ => some acc
        else if d = 114 then (putByte inp acc 13).bind (unquoteLoop inp rest2)
        else if d = 110 then (putByte inp acc 10).bind (unquoteLoop inp rest2)
        else if d = 116 then (putByte inp acc 9).bind (unquoteLoop inp rest2)
        else (putByte inp acc d).bind (unquoteLoop inp rest2)
    else (putByte inp acc c).bind (unquoteLoop inp rest)
  termination_by r _ => r.length

/-- `'''` -/
def q3 : Str := [chSQ, chSQ, chSQ]

/-- `Unquote` (utils/unquote.go:9-107); `none` is a panic (slice or index out of range). -/
def unquote (s : Str) : Option Str :=
  if q3.isPrefixOf s ∧ q3.isSuffixOf s then goSlice s 3 (s.length - 3)
  else match s with
    | [] => none
    | q :: _ =>
      if q ≠ chDQ ∧ q ≠ chSQ then some s
      else (goSlice s 1 (s.length - 1)).bind (fun inp => unquoteLoop inp inp [])

/-! ## String tokens (vfilter.go:176-177) -/

/-- The rest of a `String` token (vfilter.go:177) after its opening quote `q`: the body
up to the closing quote, and the text after it.  The regular expression
`[^q\\]*(\\.[^q\\]*)*` is matched byte by byte, which is the same since both the quote and the
backslash are ASCII. -/
def scanStr (q : UInt8) : Str → Option (Str × Str)
  | [] => none
  | c :: r =>
    if c = q then some ([], r)
    else if c = chBS then
      match r with
      | [] => none
      | d :: r' => (scanStr q r').map fun p => (c :: d :: p.1, p.2)
    else (scanStr q r).map fun p => (c :: p.1, p.2)

/-- The rest of a `MultilineString` token (vfilter.go:176): up to the first `'''`. -/
def scanML : Str → Option (Str × Str)
  | [] => none
  | c :: r =>
    if q3.isPrefixOf (c :: r) then some ([], (c :: r).drop 3)
    else (scanML r).map fun p => (c :: p.1, p.2)

/-- The string token at the start of the text and the rest of the text; `MultilineString`
is tried first (vfilter.go:176-177). -/
def lexLiteral (s : Str) : Option (Str × Str) :=
  match (if q3.isPrefixOf s then scanML (s.drop 3) else none) with
  | some (b, r) => some (q3 ++ b ++ q3, r)
  | none =>
    match s with
    | [] => none
    | q :: r =>
      if q = chSQ ∨ q = chDQ then (scanStr q r).map fun p => (q :: p.1 ++ [q], p.2)
      else none

/-! ## Runes -/

/-- Unicode scalar values.  Go runes are natural numbers here. -/
def validRune (r : Nat) : Prop := r < 0xD800 ∨ (0xE000 ≤ r ∧ r < 0x110000)

instance (r : Nat) : Decidable (validRune r) := by unfold validRune; infer_instance

def bN (n : Nat) : UInt8 := UInt8.ofNat n

/-- `string(r)` / `utf8.EncodeRune` of a valid rune (Go standard library, documented
behaviour). -/
def encodeRuneV (r : Nat) : Str :=
  if r < 0x80 then [bN r]
  else if r < 0x800 then [bN (0xC0 + r / 64), bN (0x80 + r % 64)]
  else if r < 0x10000 then [bN (0xE0 + r / 4096), bN (0x80 + r / 64 % 64), bN (0x80 + r % 64)]
  else [bN (0xF0 + r / 262144), bN (0x80 + r / 4096 % 64), bN (0x80 + r / 64 % 64), bN (0x80 + r % 64)]

/-- `string(r)`: invalid runes are written as U+FFFD. -/
def encodeRune (r : Nat) : Str := if validRune r then encodeRuneV r else encodeRuneV 0xFFFD

def isCont (b : UInt8) : Bool := decide (0x80 ≤ b.toNat ∧ b.toNat < 0xC0)

/-- `utf8.DecodeRune` (Go standard library): the first rune and its width; invalid bytes
give U+FFFD of width 1.  Only called on non-empty input. -/
def decodeRune : Str → Nat × Nat
  | [] => (0xFFFD, 0)
  | b0 :: t =>
    let n0 := b0.toNat
    if n0 < 0x80 then (n0, 1)
    else if n0 < 0xC2 then (0xFFFD, 1)
    else if n0 < 0xE0 then
      match t with
      | b1 :: _ => if isCont b1 then ((n0 - 0xC0) * 64 + (b1.toNat - 0x80), 2) else (0xFFFD, 1)
      | _ => (0xFFFD, 1)
    else if n0 < 0xF0 then
      match t with
      | b1 :: b2 :: _ =>
        if isCont b1 && isCont b2 && !(n0 == 0xE0 && decide (b1.toNat < 0xA0)) &&
            !(n0 == 0xED && decide (0xA0 ≤ b1.toNat)) then
          ((n0 - 0xE0) * 4096 + (b1.toNat - 0x80) * 64 + (b2.toNat - 0x80), 3)
        else (0xFFFD, 1)
      | _ => (0xFFFD, 1)
    else if n0 < 0xF5 then
      match t with
      | b1 :: b2 :: b3 :: _ =>
        if isCont b1 && isCont b2 && isCont b3 && !(n0 == 0xF0 && decide (b1.toNat < 0x90)) &&
            !(n0 == 0xF4 && decide (0x90 ≤ b1.toNat)) then
          ((n0 - 0xF0) * 262144 + (b1.toNat - 0x80) * 4096 + (b2.toNat - 0x80) * 64 + (b3.toNat - 0x80), 4)
        else (0xFFFD, 1)
      | _ => (0xFFFD, 1)
    else (0xFFFD, 1)

theorem decodeRune_width (b : UInt8) (t : Str) : 1 ≤ (decodeRune (b :: t)).2 := by
  unfold decodeRune
  simp only
  repeat' split
  all_goals simp

/-- The runes visited by `for _, c := range s`. -/
def runesOf (s : Str) : List Nat :=
  match s with
  | [] => []
  | b :: t => (decodeRune (b :: t)).1 :: runesOf ((b :: t).drop (decodeRune (b :: t)).2)
  termination_by s.length
  decreasing_by
    have := decodeRune_width b t
    simp only [List.length_drop, List.length_cons]; omega

/-- `string(runes)`. -/
def encodeRunes (l : List Nat) : Str := l.flatMap encodeRune

/-! ## Identifiers -/

/-- The loop of `SplitIdent` (utils/unquote.go:140-162) on the remaining runes. -/
def splitLoop : List Nat → List Nat → Bool → List Str → List Str
  | [], cur, _, res => res ++ [encodeRunes cur]
  | c :: cs, cur, esc, res =>
    if esc then
      if c = 96 then splitLoop cs cur false res else splitLoop cs (cur ++ [c]) true res
    else if c = 96 then splitLoop cs cur true res
    else if c = 46 then splitLoop cs [] false (res ++ [encodeRunes cur])
    else splitLoop cs (cur ++ [c]) false res

/-- `SplitIdent` (utils/unquote.go:133-163). -/
def splitIdent (s : Str) : List Str := splitLoop (runesOf s) [] false []

/-- Value of a run of hex digits. -/
def hexRun : List UInt8 → Option Nat
  | [] => some 0
  | l => l.foldl (fun acc c => match acc, hexVal c with
      | some a, some d => some (16 * a + d)
      | _, _ => none) (some 0)

/-- `\xHH`, `\uHHHH`, `\UHHHHHHHH` in `strconv.UnquoteChar`: `d` is the letter, `r` the text after. -/
def unquoteHex (d : UInt8) (n : Nat) (r : Str) : Option (Nat × Str) :=
  if r.length < n then none
  else match hexRun (r.take n) with
    | none => none
    | some v => if d = 120 ∨ validRune v then some (v, r.drop n) else none

/-- Octal escapes in `strconv.UnquoteChar`. -/
def unquoteOct (d : UInt8) (r : Str) : Option (Nat × Str) :=
  match r with
  | e :: f :: r' =>
    if 48 ≤ e.toNat ∧ e.toNat ≤ 55 ∧ 48 ≤ f.toNat ∧ f.toNat ≤ 55 ∧
        (d.toNat - 48) * 64 + (e.toNat - 48) * 8 + (f.toNat - 48) ≤ 255 then
      some ((d.toNat - 48) * 64 + (e.toNat - 48) * 8 + (f.toNat - 48), r')
    else none
  | _ => none

/-- Single letter escapes of `strconv.UnquoteChar` (`\a \b \f \n \r \t \v \\`). -/
def simpleEsc (d : UInt8) : Option Nat :=
  if d = 97 then some 7 else if d = 98 then some 8 else if d = 102 then some 12
  else if d = 110 then some 10 else if d = 114 then some 13 else if d = 116 then some 9
  else if d = 118 then some 11 else if d = chBS then some 92 else none

/-- The part of `strconv.UnquoteChar` after a backslash. -/
def unquoteEsc (d : UInt8) (r : Str) : Option (Nat × Str) :=
  match simpleEsc d with
  | some v => some (v, r)
  | none =>
    if d = 120 then unquoteHex d 2 r
    else if d = 117 then unquoteHex d 4 r
    else if d = 85 then unquoteHex d 8 r
    else if 48 ≤ d.toNat ∧ d.toNat ≤ 55 then unquoteOct d r
    else none

/-- `strconv.UnquoteChar(s, '`')` (Go standard library): value and rest, or an error.
With a backquote as quote, quotes are ordinary characters unless escaped, in which case
they are errors. -/
def unquoteChar (s : Str) : Option (Nat × Str) :=
  match s with
  | [] => none
  | c :: t =>
    if 0x80 ≤ c.toNat then some ((decodeRune s).1, s.drop (decodeRune s).2)
    else if c ≠ chBS then some (c.toNat, t)
    else match t with
      | [] => none
      | d :: r => unquoteEsc d r

theorem unquoteEsc_len {d : UInt8} {r t : Str} {v : Nat} (h : unquoteEsc d r = some (v, t)) :
    t.length ≤ r.length := by
  unfold unquoteEsc at h
  split at h
  · cases h; omega
  · have hx : ∀ n, unquoteHex d n r = some (v, t) → t.length ≤ r.length := by
      intro n h
      unfold unquoteHex at h
      split at h
      · cases h
      · split at h
        · cases h
        · split at h
          · cases h; simp
          · cases h
    have ho : unquoteOct d r = some (v, t) → t.length ≤ r.length := by
      intro h
      unfold unquoteOct at h
      split at h
      · split at h
        · cases h; simp; omega
        · cases h
      · cases h
    split at h
    · exact hx _ h
    · split at h
      · exact hx _ h
      · split at h
        · exact hx _ h
        · split at h
          · exact ho h
          · cases h

theorem unquoteChar_shrinks {s t : Str} {v : Nat} (h : unquoteChar s = some (v, t)) :
    t.length < s.length := by
  unfold unquoteChar at h
  split at h
  · cases h
  · rename_i c t0
    have hw := decodeRune_width c t0
    split at h
    · cases h; simp only [List.length_drop, List.length_cons]; omega
    · split at h
      · cases h; simp
      · split at h
        · cases h
        · have := unquoteEsc_len h
          simp only [List.length_cons]; omega

/-- The loop of `Unquote_ident` (utils/unquote.go:122-130); on an error the *remaining* text
is returned. -/
def unquoteIdentLoop (s out : Str) : Str :=
  match s with
  | [] => out
  | c :: t =>
    match h : unquoteChar (c :: t) with
    | none => c :: t
    | some (v, tail) => unquoteIdentLoop tail (out ++ encodeRune v)
  termination_by s.length
  decreasing_by exact unquoteChar_shrinks h

/-- `Unquote_ident` (utils/unquote.go:109-131); `none` is the slice panic on a lone
backquote. -/
def unquoteIdent (s : Str) : Option Str :=
  match s with
  | [] => some []
  | q :: _ =>
    if q ≠ chBT then some s
    else (goSlice s 1 (s.length - 1)).map (fun b => unquoteIdentLoop b [])

/-! ## Token positions (tokenizer.go) -/

/-- `lexer.Position` without the file name. -/
structure TPos where
  offset : Nat
  line : Nat
  column : Nat
  deriving DecidableEq, Repr

/-- The loop body of `findEndPos` (tokenizer.go:70-79). -/
def endStep (res : TPos) (c : Nat) : TPos :=
  if c = 10 then ⟨res.offset + 1, res.line + 1, 1⟩
  else ⟨res.offset + 1, res.line, res.column + 1⟩

/-- `findEndPos` (tokenizer.go:68-81). -/
def findEndPos (start : TPos) (value : Str) : TPos := (runesOf value).foldl endStep start

/-- `Position.Advance` of participle (library, trusted): byte offset by the length, line by
the number of newlines, column by characters. -/
def TPos.advance (p : TPos) (span : Str) : TPos :=
  ⟨p.offset + span.length, p.line + (runesOf span).count 10,
   if 10 ∈ runesOf span then 1 + ((runesOf span).reverse.takeWhile (· ≠ 10)).length
   else p.column + (runesOf span).length⟩

/-- A rule match at the start of the remaining text: token type, width, and whether the rule
is elided (`whitespace`, vfilter.go:150).  Any function is allowed here; the regular
expressions themselves are not modelled. -/
structure LexMatch where
  type : Nat
  width : Nat
  ignore : Bool

/-- `Token` (tokenizer.go:10-20). -/
structure Tok where
  type : Nat
  value : Str
  pos : TPos
  endPos : TPos
  deriving DecidableEq, Repr

/-- `Tokenize` (tokenizer.go:32-66) over the participle lexer loop: at each position the
first matching rule gives a span; an empty or missing match is an error; elided spans only
advance the position. -/
def tokenizeFrom (next : Str → Option LexMatch) (pos : TPos) (s : Str) : Option (List Tok) :=
  match s with
  | [] => some []
  | b :: t =>
    match next (b :: t) with
    | none => none
    | some m =>
      if hw : m.width = 0 ∨ (b :: t).length < m.width then none
      else
        let span := (b :: t).take m.width
        match tokenizeFrom next (pos.advance span) ((b :: t).drop m.width) with
        | none => none
        | some l =>
          if m.ignore then some l
          else some (⟨m.type, span, pos, findEndPos pos span⟩ :: l)
  termination_by s.length
  decreasing_by simp only [List.length_drop, List.length_cons] at *; omega

/-- `Tokenize` starts at offset 0, line 1, column 1. -/
def tokenize (next : Str → Option LexMatch) (s : Str) : Option (List Tok) :=
  tokenizeFrom next ⟨0, 1, 1⟩ s

/-! ## Error snippets -/

/-- `reportError` (vfilter.go:251-277): the text added to the error; `none` is a slice
panic. -/
def reportError (pos : Int) (expression : Str) : Option Str :=
  let len : Int := expression.length
  let e0 := pos + 10
  let e1 := if e0 ≥ len then len - 1 else e0
  let end_ := if e1 < 0 then 0 else e1
  let s0 := pos - 10
  let start := if s0 < 0 then 0 else s0
  let o0 := pos
  let o1 := if o0 ≥ len then len - 1 else o0
  let offset := if o1 < 0 then 0 else o1
  (goSlice expression start offset).bind fun a =>
    (goSlice expression offset end_).map fun b => a ++ [124] ++ b

/-! ## Statements and comments -/

section
variable {C S : Type}

/-- What the parser sees at the top level: comments and statements.  Simplified: comments
inside a statement belong to the statement. -/
inductive Item (C S : Type) where
  | comment (c : C)
  | stmt (s : S)

/-- `MultiVQL` (vfilter.go:325-330). -/
inductive MultiVQL (C S : Type) where
  | mk (comments : List C) (vql1 : S) (comments2 : List C) (vql2 : Option (MultiVQL C S))

/-- `{ @@ }` on comments: takes all comments at the front. -/
def takeComments : List (Item C S) → List C × List (Item C S)
  | .comment c :: r => let p := takeComments r; (c :: p.1, p.2)
  | l => ([], l)

theorem takeComments_len (l : List (Item C S)) : (takeComments l).2.length ≤ l.length := by
  induction l with
  | nil => simp [takeComments]
  | cons a l ih => cases a <;> simp [takeComments]; omega

/-- Parsing the `MultiVQL` grammar (vfilter.go:325-330) with greedy repetition; `none`: no
statement where one is required, or text left over. -/
def parseMulti (l : List (Item C S)) : Option (MultiVQL C S) :=
  match h : takeComments l with
  | (comments, .stmt s :: r) =>
    match h2 : takeComments r with
    | (comments2, []) => some (.mk comments s comments2 none)
    | (comments2, x :: xs) =>
      match parseMulti (x :: xs) with
      | some m => some (.mk comments s comments2 (some m))
      | none => none
  | _ => none
  termination_by l.length
  decreasing_by
    have h1 := takeComments_len l
    have h3 := takeComments_len r
    rw [h] at h1
    rw [h2] at h3
    simp only [List.length_cons] at h1 h3 ⊢
    omega

/-- `GetStatements` (vfilter.go:332-347): statements with their comments.  `extra` are the
comments moved from the previous statement (line 338). -/
def getStatementsWith (extra : List C) : MultiVQL C S → List (List C × S)
  | .mk comments vql1 comments2 vql2 =>
    (extra ++ comments, vql1) ::
      match vql2 with
      | none => []
      | some m => getStatementsWith comments2 m

/-- `GetStatements` (vfilter.go:332-347). -/
def getStatements (m : MultiVQL C S) : List (List C × S) := getStatementsWith [] m

/-- `droppingLexer` (vfilter.go:218-249): comments are dropped before parsing. -/
def dropComments : List (Item C S) → List (Item C S)
  | [] => []
  | .comment _ :: r => dropComments r
  | .stmt s :: r => .stmt s :: dropComments r

/-- `MultiParse` (vfilter.go:295-309) on the item level. -/
def multiParse (l : List (Item C S)) : Option (List (List C × S)) :=
  (parseMulti (dropComments l)).map getStatements

/-- `MultiParseWithComments` (vfilter.go:311-323) on the item level. -/
def multiParseWithComments (l : List (Item C S)) : Option (List (List C × S)) :=
  (parseMulti l).map getStatements

end
end Vfilter
