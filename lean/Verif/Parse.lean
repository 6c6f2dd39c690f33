import Verif.Format
/-!
# Lexer and parser (vfilter.go:149-268, 327-394, 583-596, 772-1048)

The lexer is the list of regular expressions at vfilter.go:150-177, tried in order at every
position (participle `lexer.MustSimple`).  The parser is participle v2 run on the grammar in the
struct tags, with its default lookahead of one token.

Participle itself is a dependency; its behaviour is part of the trusted base:
* a rule's pattern is anchored at the current position and sees the text from there on, so that
  `\b` and `^` at its beginning always hold in front of a letter;
* tokens of rules with a lower case name (white space) are dropped;
* a sequence whose first element does not match does not match; a later element that does not
  match is an error;
* a choice takes the first alternative that matches; `[ ]`, `{ }` and `?` stop at the first
  failure.  In both cases a failure after more than one token has been read is final
  (`Stop` with lookahead 1).

Text is a list of bytes.  The patterns are ASCII except for "any other character" classes, so
working on bytes gives the same matches, with one simplification: `(?i)` here ignores case for
ASCII letters only (Go also lets U+017F match `s` and U+212A match `k`).
-/

set_option linter.all false

namespace Vfilter.Fmt

/-! ## Tokens -/

/-- The lexer rules (vfilter.go:150-177). -/
inductive TK where
  | space | mlComment | vqlComment | comment
  | explain | select | where_ | and_ | or_ | altOr | altAnd | from_ | not_ | as_ | in_ | limit
  | null | desc | groupBy | orderBy | bool | let_
  | number | ident | symIdent | op | mlString | string
deriving DecidableEq, Repr

/-- A token. -/
structure Tok where
  kind : TK
  text : Str
deriving DecidableEq

/-- `\s` -/
def isWS (c : UInt8) : Bool := c == 32 || c == 9 || c == 10 || c == 12 || c == 13

/-- `\d` -/
def isDigit (c : UInt8) : Bool := 48 ≤ c && c ≤ 57

/-- `[a-zA-Z_]` -/
def isLetter (c : UInt8) : Bool := (65 ≤ c && c ≤ 90) || (97 ≤ c && c ≤ 122) || c == 95

/-- `\w`, `[a-zA-Z0-9_]` -/
def isWord (c : UInt8) : Bool := isLetter c || isDigit c

/-- `[0-9a-fA-F]` -/
def isHex (c : UInt8) : Bool := isDigit c || (65 ≤ c && c ≤ 70) || (97 ≤ c && c ≤ 102)

/-- Upper case of an ASCII letter. -/
def upper (c : UInt8) : UInt8 := if 97 ≤ c && c ≤ 122 then c - 32 else c

/-- `\b` behind a word character. -/
def atBoundary : Str → Bool
  | [] => true
  | c :: _ => !isWord c

/-- `(?i)W` for a word in upper case: what is matched and what is left. -/
def foldPrefix : Str → Str → Option (Str × Str)
  | [], s => some ([], s)
  | _ :: _, [] => none
  | w :: ws, c :: cs =>
    if upper c = w then (foldPrefix ws cs).map fun p => (c :: p.1, p.2) else none

/-- `(?i)\bW\b` -/
def keyword (w : Str) (s : Str) : Option (Str × Str) :=
  match foldPrefix w s with
  | some (m, r) => if atBoundary r then some (m, r) else none
  | none => none

/-- `(?i)\bV\s+W\b` -/
def keyword2 (v w : Str) (s : Str) : Option (Str × Str) :=
  match foldPrefix v s with
  | none => none
  | some (m, r) =>
    match r.span isWS with
    | ([], _) => none
    | (b, r) =>
      match keyword w r with
      | none => none
      | some (m2, r2) => some (m ++ b ++ m2, r2)

/-- Everything up to and including the first occurrence of `stop` (`.*?stop` with `(?s)`). -/
def upTo (stop : Str) : Str → Option (Str × Str)
  | [] => if stop = [] then some ([], []) else none
  | c :: cs =>
    if stop.isPrefixOf (c :: cs) then some (stop, (c :: cs).drop stop.length)
    else (upTo stop cs).map fun p => (c :: p.1, p.2)

/-- `open.*?close` with `(?s)`. -/
def delimited (opn close : Str) (s : Str) : Option (Str × Str) :=
  if opn.isPrefixOf s then (upTo close (s.drop opn.length)).map fun p => (opn ++ p.1, p.2)
  else none

/-- `(?m)^opn.*?$`: to the end of the line. -/
def lineFrom (opn : Str) (s : Str) : Option (Str × Str) :=
  if opn.isPrefixOf s then some (s.span (· != 10)) else none

/-- One or more characters of a class. -/
def many1 (p : UInt8 → Bool) (s : Str) : Option (Str × Str) :=
  match s.span p with
  | ([], _) => none
  | (m, r) => some (m, r)

/-- `([eE][-+]?\d+)?` -/
def exponent (s : Str) : Str × Str :=
  match s with
  | e :: s1 =>
    if e = 101 ∨ e = 69 then
      let (sg, s2) := match s1 with
        | c :: s2 => if c = 43 ∨ c = 45 then ([c], s2) else ([], s1)
        | [] => ([], s1)
      match many1 isDigit s2 with
      | some (d, r) => (e :: sg ++ d, r)
      | none => ([], s)
    else ([], s)
  | [] => ([], s)

/-- `\d*\.?\d+` -/
def decimal (s : Str) : Option (Str × Str) :=
  match s.span isDigit with
  | (d, 46 :: r) =>
    match many1 isDigit r with
    | some (f, r2) => some (d ++ 46 :: f, r2)
    | none => if d = [] then none else some (d, 46 :: r)
  | (d, r) => if d = [] then none else some (d, r)

/-- `0x[0-9a-fA-F]+|\d*\.?\d+([eE][-+]?\d+)?` -/
def unsigned (s : Str) : Option (Str × Str) :=
  let dec := match decimal s with
    | none => none
    | some (m, r) => let (e, r2) := exponent r; some (m ++ e, r2)
  match s with
  | 48 :: 120 :: r =>
    match many1 isHex r with
    | some (h, r2) => some (48 :: 120 :: h, r2)
    | none => dec
  | _ => dec

/-- `-?(0x[0-9a-fA-F]+|\d*\.?\d+([eE][-+]?\d+)?)` -/
def number (s : Str) : Option (Str × Str) :=
  match s with
  | 45 :: r => (unsigned r).map fun p => (45 :: p.1, p.2)
  | _ => unsigned s

/-- The identifiers: letters, or anything between backticks. -/
def identifier (s : Str) : Option (Str × Str) :=
  match s with
  | [] => none
  | c :: r =>
    if isLetter c then
      let (m, r2) := r.span isWord
      some (c :: m, r2)
    else if c = chBT then
      match r.span (· != chBT) with
      | ([], _) => none
      | (_, []) => none
      | (m, q :: r2) => some (c :: m ++ [q], r2)
    else none

/-- `-` and an identifier. -/
def symIdentifier (s : Str) : Option (Str × Str) :=
  match s with
  | 45 :: r => (identifier r).map fun p => (45 :: p.1, p.2)
  | _ => none

/-- The operators of two characters. -/
def ops2 : List Str := [bs "<>", bs "!=", bs "<=", bs ">=", bs "=>", bs "=~"]

/-- The operators of one character. -/
def ops1 : Str := bs "-+:*/%,.()=<>{}[]"

/-- `<>|!=|<=|>=|=>|=~|[-]|[+]|[:*/%,.()=<>{}\[\]]` -/
def operator (s : Str) : Option (Str × Str) :=
  if ops2.contains (s.take 2) then some (s.take 2, s.drop 2)
  else match s with
    | c :: r => if ops1.contains c then some ([c], r) else none
    | [] => none

/-- The rest of a quoted string behind the opening quote:
`[^'\\]*(\\.[^'\\]*)*'` -/
def quotedRest (q : UInt8) : Str → Option (Str × Str)
  | [] => none
  | c :: cs =>
    if c = q then some ([c], cs)
    else if c = chBS then
      match cs with
      | [] => none
      | d :: ds => (quotedRest q ds).map fun p => (c :: d :: p.1, p.2)
    else (quotedRest q cs).map fun p => (c :: p.1, p.2)

/-- `'...'` or `"..."`. -/
def quoted (s : Str) : Option (Str × Str) :=
  match s with
  | c :: r => if c = chSQ ∨ c = chDQ then (quotedRest c r).map fun p => (c :: p.1, p.2) else none
  | [] => none

/-- The rules in order (vfilter.go:150-177). -/
def rules : List (TK × (Str → Option (Str × Str))) :=
  [(.space, many1 isWS),
   (.mlComment, delimited (bs "/*") (bs "*/")),
   (.vqlComment, lineFrom (bs "--")),
   (.comment, lineFrom (bs "//")),
   (.explain, keyword (bs "EXPLAIN")),
   (.select, keyword (bs "SELECT")),
   (.where_, keyword (bs "WHERE")),
   (.and_, keyword (bs "AND")),
   (.or_, keyword (bs "OR")),
   (.altOr, many1 (· == 124)),
   (.altAnd, fun s => if (bs "&&").isPrefixOf s then some (bs "&&", s.drop 2) else none),
   (.from_, keyword (bs "FROM")),
   (.not_, keyword (bs "NOT")),
   (.as_, keyword (bs "AS")),
   (.in_, keyword (bs "IN")),
   (.limit, keyword (bs "LIMIT")),
   (.null, keyword (bs "NULL")),
   (.desc, keyword (bs "DESC")),
   (.groupBy, keyword2 (bs "GROUP") (bs "BY")),
   (.orderBy, keyword2 (bs "ORDER") (bs "BY")),
   (.bool, fun s => (keyword (bs "TRUE") s).or (keyword (bs "FALSE") s)),
   (.let_, keyword (bs "LET")),
   (.number, number),
   (.ident, identifier),
   (.symIdent, symIdentifier),
   (.op, operator),
   (.mlString, delimited (bs "'''") (bs "'''")),
   (.string, quoted)]

/-- The first rule that matches. -/
def firstRule : List (TK × (Str → Option (Str × Str))) → Str → Option (TK × Str × Str)
  | [], _ => none
  | (k, f) :: rs, s =>
    match f s with
    | some (m, r) => some (k, m, r)
    | none => firstRule rs s

/-- `participle.Upper("IN", "DESC")` (vfilter.go:194, 201, 206). -/
def mkTok (k : TK) (m : Str) : Tok :=
  if k = .in_ ∨ k = .desc then ⟨k, m.map upper⟩ else ⟨k, m⟩

/-- Split a text into tokens; `none` is a lexer error.  Every token has at least one character,
so as many rounds as there are characters are enough. -/
def lexN : Nat → Str → Option (List Tok)
  | _, [] => some []
  | 0, _ :: _ => none
  | n + 1, s =>
    match firstRule rules s with
    | none => none
    | some (k, m, r) =>
      if m = [] then none
      else if k = .space then lexN n r
      else (lexN n r).map (mkTok k m :: ·)

/-- `vqlLexer` (vfilter.go:149-178). -/
def lex (s : Str) : Option (List Tok) := lexN s.length s

/-- `vqlLexerNoComments` (vfilter.go:187-190, 213-249). -/
def dropComments (ts : List Tok) : List Tok :=
  ts.filter fun t => !(t.kind = .comment || t.kind = .mlComment || t.kind = .vqlComment)

/-! ## Parser combinators -/

/-- What a grammar node returns: no match, a value and the tokens left, an error with the tokens
left at that point, or (model only) out of fuel. -/
inductive Res (α : Type) where
  | no
  | ok (a : α) (rest : List Tok)
  | err (rest : List Tok)
  | fuel

/-- A grammar node. -/
abbrev P (α : Type) := List Tok → Res α

/-- An element of a sequence and what follows it. -/
def P.bind {α β : Type} (p : P α) (f : α → P β) : P β := fun ts =>
  match p ts with
  | .ok a r => f a r
  | .no => .no
  | .err r => .err r
  | .fuel => .fuel

/-- A later element of a sequence: it has to match. -/
def need {α : Type} (p : P α) : P α := fun ts =>
  match p ts with
  | .no => .err ts
  | x => x

/-- Nothing to read. -/
def ret {α : Type} (a : α) : P α := fun ts => .ok a ts

/-- Change the value. -/
def P.map {α β : Type} (f : α → β) (p : P α) : P β := p.bind fun a => ret (f a)

/-- `Stop` with lookahead 1: the failed attempt has read more than one token. -/
def tooFar (ts r : List Tok) : Bool := ts.length > r.length + 1

/-- `[ ]`, `?` -/
def opt {α : Type} (p : P α) : P (Option α) := fun ts =>
  match p ts with
  | .ok a r => .ok (some a) r
  | .no => .ok none ts
  | .err r => if tooFar ts r then .err r else .ok none ts
  | .fuel => .fuel

/-- `{ }` -/
def many {α : Type} (p : P α) : Nat → P (List α)
  | 0 => fun _ => .fuel
  | n + 1 => fun ts =>
    match p ts with
    | .ok a r => (many p n).bind (fun as => ret (a :: as)) r
    | .no => .ok [] ts
    | .err r => if tooFar ts r then .err r else .ok [] ts
    | .fuel => .fuel

/-- `a | b` -/
def alt {α : Type} (p q : P α) : P α := fun ts =>
  match p ts with
  | .ok a r => .ok a r
  | .no => q ts
  | .err r =>
    if tooFar ts r then .err r
    else match q ts with
      | .no => .err ts
      | .err r2 => if tooFar ts r2 then .err r2 else .err ts
      | x => x
  | .fuel => .fuel

/-- A token of a kind. -/
def tok (k : TK) : P Str
  | [] => .no
  | t :: ts => if t.kind = k then .ok t.text ts else .no

/-- A literal. -/
def lit (s : Str) : P Str
  | [] => .no
  | t :: ts => if t.text = s then .ok t.text ts else .no

/-- One of several literals. -/
def lits : List Str → P Str
  | [] => fun _ => .no
  | s :: ss => alt (lit s) (lits ss)

/-- `_Comment` (vfilter.go:349-353). -/
def pComment : P Comment :=
  alt ((tok .vqlComment).map .vql) (alt ((tok .comment).map .line) ((tok .mlComment).map .multi))

/-- `[ @@ ]` for comments. -/
def optC : P (List Comment) := (opt pComment).map Option.toList

/-- `p { "," p }` -/
def sepBy {α : Type} (p : P α) (n : Nat) : P (List α) :=
  p.bind fun a => (many ((lit (bs ",")).bind fun _ => need p) n).bind fun as => ret (a :: as)

/-- `p { "." p }` with the texts put together. -/
def dotted (first : P Str) (n : Nat) : P Str :=
  first.bind fun a =>
    (many ((lit (bs ".")).bind fun d => (need (tok .ident)).bind fun i => ret (d ++ i)) n).bind
      fun as => ret (a ++ as.flatten)

/-- The comparison operators (vfilter.go:1003). -/
def cmpOp : P Str :=
  alt (lits [bs "<>", bs "<=", bs ">=", bs "=", bs "<", bs ">", bs "!="])
    (alt (tok .in_) (lit (bs "=~")))

section
variable (lim : Str → Option Int)

mutual
/-- `_AndExpression` (vfilter.go:967-980). -/
def pAnd : Nat → P CAnd
  | 0 => fun _ => .fuel
  | n + 1 => optC.bind fun cs => (need (pOr n)).bind fun l =>
      (many ((alt (tok .and_) (tok .altAnd)).bind fun op =>
        (need (pOr n)).bind fun t => ret (CAndT.mk op t)) n).bind fun rs => ret (.mk cs l rs)
/-- `_OrExpression` (vfilter.go:983-992). -/
def pOr : Nat → P COr
  | 0 => fun _ => .fuel
  | n + 1 => optC.bind fun cs => (need (pCond n)).bind fun l =>
      (many ((alt (tok .or_) (tok .altOr)).bind fun op =>
        (need (pCond n)).bind fun t => ret (COrT.mk op t)) n).bind fun rs => ret (.mk cs l rs)
/-- `_ConditionOperand` (vfilter.go:995-1005).  The operand of NOT takes all comparisons, so that
none is left for the outer one. -/
def pCond : Nat → P CCond
  | 0 => fun _ => .fuel
  | n + 1 => optC.bind fun cs =>
      (need (alt ((tok .not_).bind fun _ => (need (pCond n)).bind fun c => ret (CCond.not cs c))
        ((pAdd n).bind fun l =>
          (many (cmpOp.bind fun op => (need (pAdd n)).bind fun r => ret (CCmpT.mk op r)) n).bind
            fun rs => ret (CCond.cmp cs l rs.getLast?))))
/-- `_AdditionExpression` (vfilter.go:899-908). -/
def pAdd : Nat → P CAdd
  | 0 => fun _ => .fuel
  | n + 1 => optC.bind fun cs => (need (pMul n)).bind fun l =>
      (many ((alt (lit (bs "+")) (lit (bs "-"))).bind fun op =>
        (need (pMul n)).bind fun t => ret (CAddT.mk op t)) n).bind fun rs => ret (.mk cs l rs)
/-- `_MultiplicationExpression` (vfilter.go:911-920). -/
def pMul : Nat → P CMul
  | 0 => fun _ => .fuel
  | n + 1 => optC.bind fun cs => (need (pMember n)).bind fun l =>
      (many ((alt (lit (bs "*")) (lit (bs "/"))).bind fun op =>
        (need (pVal n)).bind fun t => ret (CMulT.mk op t)) n).bind fun rs => ret (.mk cs l rs)
/-- `_MemberExpression` (vfilter.go:924-939).  Of repeated indexes the last is kept; `Range` is
only ever compared with nil, so its text is left out. -/
def pMember : Nat → P CMember
  | 0 => fun _ => .fuel
  | n + 1 => optC.bind fun cs => (need (pVal n)).bind fun l =>
      (many (alt
        ((lit (bs "[")).bind fun _ => (many (pVal n) n).bind fun is =>
          (many (lit (bs ":")) n).bind fun cl => (many (pVal n) n).bind fun js =>
          (need (lit (bs "]"))).bind fun _ => ret
            (if cl.isEmpty then
              match is.getLast? with
              | some i => CMTerm.index i
              | none => CMTerm.empty
            else CMTerm.range is.getLast? js.getLast?))
        ((lit (bs ".")).bind fun _ => (need (tok .ident)).bind fun i => ret (CMTerm.field i)))
        n).bind fun rs => ret (.mk cs l rs)
/-- `_CommaExpression` (vfilter.go:953-964). -/
def pComma : Nat → P CComma
  | 0 => fun _ => .fuel
  | n + 1 => optC.bind fun cs => (need (pAnd n)).bind fun l =>
      (many (optC.bind fun c1 => (need (lit (bs ","))).bind fun _ => optC.bind fun c2 =>
        (many (pAnd n) n).bind fun ts => ret (CCommaT.mk c1 c2 ts.getLast?)) n).bind fun rs =>
      ret (.mk cs l rs)
/-- `_Value` (vfilter.go:1031-1048). -/
def pVal : Nat → P CVal
  | 0 => fun _ => .fuel
  | n + 1 => optC.bind fun cs => (need
      (alt ((pSym n).map CValB.sym)
      (alt ((lit (bs "(")).bind fun _ => (need (pComma n)).bind fun c =>
        (need (lit (bs ")"))).bind fun _ => ret (CValB.sub c))
      (alt ((alt (tok .mlString) (tok .string)).map CValB.str)
      (alt ((tok .number).map CValB.num)
      (alt ((tok .bool).map CValB.bool)
      ((tok .null).map fun _ => CValB.null))))))).bind fun b => ret (.mk cs b)
/-- `_SymbolRef` (vfilter.go:1015-1029). -/
def pSym : Nat → P CSym
  | 0 => fun _ => .fuel
  | n + 1 => optC.bind fun cs => (need (dotted (alt (tok .symIdent) (tok .ident)) n)).bind fun s =>
      (many ((lit (bs "(")).bind fun _ => (opt (sepBy (pArg n) n)).bind fun as =>
        (need (lit (bs ")"))).bind fun _ => ret (as.getD [])) n).bind fun calls =>
      ret (.mk cs s (!calls.isEmpty) calls.flatten)
/-- `_Args` (vfilter.go:790-802). -/
def pArg : Nat → P CArg
  | 0 => fun _ => .fuel
  | n + 1 => optC.bind fun cs => (need (tok .ident)).bind fun i => (need (lit (bs "="))).bind fun _ =>
      (need
        (alt ((lit (bs "{")).bind fun _ => (need (pSelect n)).bind fun q =>
          (need (lit (bs "}"))).bind fun _ => ret (CArgV.select q))
        (alt ((lit (bs "[")).bind fun _ => (opt (pComma n)).bind fun c =>
          (need (lit (bs "]"))).bind fun _ => ret (match c with
            | some c => CArgV.array c
            | none => CArgV.empty))
        ((pAnd n).map CArgV.expr)))).bind fun v => ret (.mk cs i v)
/-- `_AliasedExpression` (vfilter.go:809-825). -/
def pCol : Nat → P CCol
  | 0 => fun _ => .fuel
  | n + 1 => (many pComment n).bind fun cs => (need
      (alt ((lit (bs "*")).map fun _ => CColB.star)
      (alt ((lit (bs "{")).bind fun _ => (need (pSelect n)).bind fun q =>
        (need (lit (bs "}"))).bind fun _ => ret (CColB.select q))
      ((pAnd n).map CColB.expr)))).bind fun b =>
      (opt ((tok .as_).bind fun _ => need (tok .ident))).bind fun a => ret (.mk cs b (a.getD []))
/-- `Plugin` (vfilter.go:776-788). -/
def pPlugin : Nat → P CPlugin
  | 0 => fun _ => .fuel
  | n + 1 => (dotted (tok .ident) n).bind fun s =>
      (opt ((lit (bs "(")).bind fun _ => (opt (sepBy (pArg n) n)).bind fun as =>
        (need (lit (bs ")"))).bind fun _ => ret (as.getD []))).bind fun args =>
      ret (.mk s args.isSome (args.getD []))
/-- `_Select`, `_SelectExpression`, `_From` (vfilter.go:583-596, 772-774, 804-807).  A column list
that is empty altogether does not match (participle takes a sequence without values for no
match).  `lim` converts the number after LIMIT to an `int64`. -/
def pSelect : Nat → P CSelect
  | 0 => fun _ => .fuel
  | n + 1 => (many pComment n).bind fun cs => (many (tok .explain) n).bind fun ex =>
      (need (tok .select)).bind fun _ =>
      (opt ((lit (bs "*")).bind fun _ => opt (lit (bs ",")))).bind fun all =>
      (opt (sepBy (pCol n) n)).bind fun cols =>
      (if all.isNone ∧ cols.isNone then fun ts => .err ts else
      (need (tok .from_)).bind fun _ => (need (pPlugin n)).bind fun from_ =>
      (opt ((tok .where_).bind fun _ => need (pComma n))).bind fun wh =>
      (opt ((tok .groupBy).bind fun _ => need (pComma n))).bind fun gb =>
      (opt ((tok .orderBy).bind fun _ => (need (tok .ident)).bind fun k =>
        (opt (tok .desc)).bind fun d => ret (k, d.isSome))).bind fun ob =>
      (opt ((tok .limit).bind fun _ => need (tok .number))).bind fun l =>
      match l with
      | none => ret (.mk cs (!ex.isEmpty) all.isSome (cols.getD []) from_ wh gb ob none)
      | some t => match lim t with
        | none => fun ts => .err ts
        | some i => ret (.mk cs (!ex.isEmpty) all.isSome (cols.getD []) from_ wh gb ob (some i)))
end

/-- `LetParameter` (vfilter.go:355-361). -/
def pLetParam (n : Nat) : P CLetParam :=
  alt ((pArg lim n).map CLetParam.dflt) ((tok .ident).map CLetParam.name)

/-- `VQL` (vfilter.go:364-383). -/
def pStmt (n : Nat) : P CStmt :=
  alt
    ((tok .let_).bind fun _ => (need (tok .ident)).bind fun name =>
      (opt ((lit (bs "(")).bind fun _ => (opt (sepBy (pLetParam lim n) n)).bind fun ps =>
        (need (lit (bs ")"))).bind fun _ => ret (ps.getD []))).bind fun ps =>
      (need (alt (lit (bs "=")) (lit (bs "<=")))).bind fun op =>
      (need (alt ((pSelect lim n).map CLetBody.select) ((pAnd lim n).map CLetBody.expr))).bind fun b =>
      ret (CStmt.let_ [] name ps.isSome (ps.getD []) op b))
    ((pSelect lim n).map (CStmt.query []))

/-- `VQL1.Comments = Comments` (vfilter.go:334). -/
def CStmt.withComments (cs : List Comment) : CStmt → CStmt
  | .let_ _ n c ps op b => .let_ cs n c ps op b
  | .query _ q => .query cs q

/-- `VQL2.Comments = append(Comments2, VQL2.Comments...)` (vfilter.go:338-341). -/
def giveComments (cs : List Comment) : List CStmt → List CStmt
  | [] => []
  | s :: ss => (match s with
    | .let_ c n cl ps op b => .let_ (cs ++ c) n cl ps op b
    | .query c q => .query (cs ++ c) q) :: ss

/-- `MultiVQL` and `GetStatements` (vfilter.go:326-347). -/
def pMulti : Nat → P (List CStmt)
  | 0 => fun _ => .fuel
  | n + 1 => (many pComment n).bind fun cs => (need (pStmt lim n)).bind fun s =>
      (many pComment n).bind fun c2 => (many (pMulti n) n).bind fun rest =>
      ret (s.withComments cs :: giveComments c2 (rest.getLast?.getD []))

/-- A complete input: nothing may be left. -/
def complete {α : Type} (p : P α) (ts : List Tok) : Option α :=
  match p ts with
  | .ok a [] => some a
  | _ => none

/-- Enough fuel for an input. -/
def fuelFor (ts : List Tok) : Nat := 12 * ts.length + 40

/-- `Parse` (vfilter.go:278-289). -/
def parse (s : Str) : Option CStmt :=
  (lex s).bind fun ts => let ts := dropComments ts; complete (pStmt lim (fuelFor ts)) ts

/-- `MultiParse` (vfilter.go:292-305). -/
def multiParse (s : Str) : Option (List CStmt) :=
  (lex s).bind fun ts => let ts := dropComments ts; complete (pMulti lim (fuelFor ts)) ts

/-- `MultiParseWithComments` (vfilter.go:308-321). -/
def multiParseWithComments (s : Str) : Option (List CStmt) :=
  (lex s).bind fun ts => complete (pMulti lim (fuelFor ts)) ts

end

end Vfilter.Fmt
