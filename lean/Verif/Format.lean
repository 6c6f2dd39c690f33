import Verif.Text
/-!
# The formatter (visitor.go)

`Visitor` walks a syntax tree and appends text fragments.  Where several layouts are
possible it formats the node several times on copies of itself and keeps one of the copies
(`abTest`).

The trees are those of the comment keeping parser (`MultiParseWithComments`,
vfilter.go:252-268), so unlike `Verif.Syntax` every struct has its comments.  Source positions
are left out.  Fragments and positions are counted in bytes as in Go.

Simplifications: `max_line` and `checkInvariant` (visitor.go:1092-1104) only serve debug
output and are left out.  `strings.TrimSpace` is modelled for ASCII blanks.  The printed form of
a number (`strconv`, visitor.go:750-765) is a parameter `num` of the formatter.
-/

set_option linter.all false

namespace Vfilter.Fmt

/-! ## Trees with comments -/

/-- `_Comment` (vfilter.go:349-353): the grammar fills exactly one of the three fields. -/
inductive Comment where
  | vql (text : Str)
  | line (text : Str)
  | multi (text : Str)
deriving DecidableEq

mutual
/-- `_AndExpression` (vfilter.go:967-975). -/
inductive CAnd where
  | mk (comments : List Comment) (left : COr) (right : List CAndT)
/-- `_OpAndTerm` (vfilter.go:977-980). -/
inductive CAndT where
  | mk (op : Str) (term : COr)
/-- `_OrExpression` (vfilter.go:983-987). -/
inductive COr where
  | mk (comments : List Comment) (left : CCond) (right : List COrT)
/-- `_OpOrTerm` (vfilter.go:989-992). -/
inductive COrT where
  | mk (op : Str) (term : CCond)
/-- `_ConditionOperand` (vfilter.go:995-1000). -/
inductive CCond where
  | not (comments : List Comment) (c : CCond)
  | cmp (comments : List Comment) (left : CAdd) (right : Option CCmpT)
/-- `_OpComparison` (vfilter.go:1002-1005). -/
inductive CCmpT where
  | mk (op : Str) (right : CAdd)
/-- `_AdditionExpression` (vfilter.go:899-903). -/
inductive CAdd where
  | mk (comments : List Comment) (left : CMul) (right : List CAddT)
/-- `_OpAddTerm` (vfilter.go:905-908). -/
inductive CAddT where
  | mk (op : Str) (term : CMul)
/-- `_MultiplicationExpression` (vfilter.go:911-915). -/
inductive CMul where
  | mk (comments : List Comment) (left : CMember) (right : List CMulT)
/-- `_OpFactor` (vfilter.go:917-920). -/
inductive CMulT where
  | mk (op : Str) (factor : CVal)
/-- `_MemberExpression` (vfilter.go:924-932). -/
inductive CMember where
  | mk (comments : List Comment) (left : CVal) (right : List CMTerm)
/-- `_OpMembershipTerm` (vfilter.go:934-939). -/
inductive CMTerm where
  | range (start stop : Option CVal)
  | index (i : CVal)
  | field (ident : Str)
  | empty
/-- `_CommaExpression` (vfilter.go:953-957). -/
inductive CComma where
  | mk (comments : List Comment) (left : CAnd) (right : List CCommaT)
/-- `_OpArrayTerm` (vfilter.go:959-964). -/
inductive CCommaT where
  | mk (comments comment2 : List Comment) (term : Option CAnd)
/-- `_Value` (vfilter.go:1031-1048). -/
inductive CVal where
  | mk (comments : List Comment) (body : CValB)
/-- The alternatives of `_Value`. -/
inductive CValB where
  | sym (s : CSym)
  | sub (c : CComma)
  | str (tok : Str)
  | num (tok : Str)
  | bool (tok : Str)
  | null
/-- `_SymbolRef` (vfilter.go:1015-1029). -/
inductive CSym where
  | mk (comments : List Comment) (symbol : Str) (called : Bool) (params : List CArg)
/-- `_Args` (vfilter.go:790-802). -/
inductive CArg where
  | mk (comments : List Comment) (name : Str) (rhs : CArgV)
/-- The right hand side of `_Args`. -/
inductive CArgV where
  | expr (e : CAnd)
  | select (q : CSelect)
  | array (c : CComma)
  | empty
/-- `_Select` (vfilter.go:583-596) with `_SelectExpression` (vfilter.go:804-807) inlined. -/
inductive CSelect where
  | mk (comments : List Comment) (explain all : Bool) (cols : List CCol) (from_ : CPlugin)
      (where_ groupBy : Option CComma) (orderBy : Option (Str × Bool)) (limit : Option Int)
/-- `_AliasedExpression` (vfilter.go:809-825). -/
inductive CCol where
  | mk (comments : List Comment) (body : CColB) (as_ : Str)
/-- `*`, an expression or `{ SELECT ... }` (vfilter.go:816-818). -/
inductive CColB where
  | star
  | expr (e : CAnd)
  | select (q : CSelect)
/-- `Plugin` (vfilter.go:776-788). -/
inductive CPlugin where
  | mk (name : Str) (call : Bool) (args : List CArg)
end

/-- `LetParameter` (vfilter.go:355-361). -/
inductive CLetParam where
  | name (n : Str)
  | dflt (a : CArg)

/-- `StoredQuery` or `Expression` of a LET (vfilter.go:373-374). -/
inductive CLetBody where
  | expr (e : CAnd)
  | select (q : CSelect)

/-- `VQL` (vfilter.go:364-383). `op` is the captured `=` or `<=`. -/
inductive CStmt where
  | let_ (comments : List Comment) (name : Str) (called : Bool) (params : List CLetParam)
      (op : Str) (body : CLetBody)
  | query (comments : List Comment) (q : CSelect)

/-- `Lambda` (lambda.go:17-21); `_ParameterList` (vfilter.go:385-394) is a non empty list of
names, its comments are never printed. -/
structure CLambda where
  first : Str
  rest : List Str
  body : CAnd

/-! ## The visitor -/

/-- The blanks `strings.TrimSpace` removes: tab, newline, vertical tab, form feed, carriage
return, space. -/
def isBlank (c : UInt8) : Bool := c == 32 || (9 ≤ c && c ≤ 13)

/-- `strings.TrimSpace` on ASCII text. -/
def trim (s : Str) : Str := ((s.dropWhile isBlank).reverse.dropWhile isBlank).reverse

/-- `CallSite` (visitor.go:70-79) without its position. -/
structure CallSite where
  type : Str
  name : Str
  args : List Str
deriving DecidableEq

/-- `FormatOptions` (visitor.go:52-66) without `BreakLines`, which changes during a visit. -/
structure Opts where
  indentWidth : Nat
  maxWidth : Nat
  collectCallSites : Bool
  collectComments : Bool

/-- `Visitor` (visitor.go:106-145) -/
structure Vis where
  opts : Opts
  breakLines : Bool
  frags : List Str
  callSites : List CallSite
  comments : List Str
  indents : List Nat
  lineBreaks : List Nat
  pos : Nat
  maxWidth : Nat
  hasComments : Bool

/-- `NewVisitor` (visitor.go:147-154). -/
def Vis.new (o : Opts) (brk : Bool) : Vis :=
  { opts := o, breakLines := brk, frags := [], callSites := [], comments := [], indents := [0],
    lineBreaks := [0], pos := 0, maxWidth := 0, hasComments := false }

/-- `merge` (visitor.go:157-166): the options, the collected comments and the definitions are
not taken over. -/
def Vis.merge (v w : Vis) : Vis :=
  { v with
    frags := w.frags, callSites := v.callSites ++ w.callSites, lineBreaks := w.lineBreaks,
    indents := w.indents, pos := w.pos, maxWidth := w.maxWidth, hasComments := w.hasComments }

/-- `copy` (visitor.go:168-181): call sites and comments start empty. -/
def Vis.copy (v : Vis) : Vis := { v with callSites := [], comments := [], hasComments := false }

/-- `push` of one fragment (visitor.go:1107-1119). -/
def push (s : Str) (v : Vis) : Vis :=
  { v with
    frags := v.frags ++ [s], pos := v.pos + s.length,
    maxWidth := if v.maxWidth < v.pos + s.length then v.pos + s.length else v.maxWidth }

/-- `push` of several fragments. -/
def pushes (ss : List Str) (v : Vis) : Vis := ss.foldl (fun v s => push s v) v

/-- `pop` (visitor.go:1121-1127). -/
def pop (v : Vis) : Vis :=
  match v.frags.getLast? with
  | none => v
  | some s => { v with frags := v.frags.dropLast, pos := v.pos - s.length }

/-- `push_indent` (visitor.go:184-186). -/
def pushIndent (v : Vis) : Vis := { v with indents := v.indents ++ [v.pos] }

/-- `indents[len-1]`, or 0. -/
def lastIndent (v : Vis) : Nat := v.indents.getLast?.getD 0

/-- `indent_in` (visitor.go:203-210). -/
def indentIn (v : Vis) : Vis := { v with indents := v.indents ++ [lastIndent v + 2] }

/-- `pop_indent` (visitor.go:212-218). -/
def popIndent (v : Vis) : Vis := { v with indents := v.indents.dropLast }

/-- `strings.Repeat(" ", n)` -/
def spaces (n : Nat) : Str := List.replicate n 32

/-- `new_line` (visitor.go:189-200). -/
def newLine (pos : Nat) (v : Vis) : Vis :=
  let v := { v with indents := v.indents ++ [pos], pos := pos }
  if v.breakLines then
    { v with frags := v.frags ++ [[10]] ++ [spaces pos], lineBreaks := v.lineBreaks ++ [v.frags.length + 1] }
  else v

/-- The fragments after which no blank is added (visitor.go:233). -/
def tightAfter : List Str :=
  [bs " ", bs "(", bs "{", bs "=", bs "[", bs "=["]

/-- `line_break` (visitor.go:222-257). -/
def lineBreak (v : Vis) : Vis :=
  let last := v.frags.getLast?.getD []
  if !v.breakLines then
    if tightAfter.contains last then v
    else if last.getLast? = some 32 then v
    else push (bs " ") v
  else
    let v := if trim last = [] then pop v else v
    let ind := lastIndent v
    let v := { v with pos := 0, frags := v.frags ++ [[10]], lineBreaks := v.lineBreaks ++ [v.frags.length + 1] }
    push (spaces ind) v

/-- `current_line` (visitor.go:259-269). -/
def currentLine (v : Vis) : Str :=
  match v.lineBreaks.getLast? with
  | none => []
  | some i => (v.frags.drop i).flatten

/-- `isCurrentLineSpace` (visitor.go:441-443). -/
def lineSpace (v : Vis) : Bool := (trim (currentLine v)).isEmpty

/-- `ToString` (visitor.go:271-273). -/
def Vis.text (v : Vis) : Str := v.frags.flatten

/-- `is_better` (visitor.go:1280-1315). -/
def isBetter (v other : Vis) : Bool :=
  let w := v.opts.maxWidth
  if other.maxWidth > w ∧ v.maxWidth < w then false
  else if v.maxWidth > w ∧ other.maxWidth < w then true
  else if v.maxWidth < w ∧ other.maxWidth < w ∧ other.lineBreaks.length > v.lineBreaks.length then false
  else if other.maxWidth > v.maxWidth then false
  else true

/-- `abTest` (visitor.go:1230-1277), with the comparison of two trials as a parameter.  Without
line breaking only the first layout is tried. -/
def abTest (better : Vis → Vis → Bool) (cbs : List (Vis → Vis)) (v : Vis) : Vis :=
  match cbs with
  | [] => v
  | cb :: rest =>
    if !v.breakLines then v.merge (cb v.copy)
    else v.merge (rest.foldl (fun res cb =>
      let t := cb v.copy
      if better res t then res.merge t else res) (cb v.copy))

/-- `visitComment` (visitor.go:388-424). -/
def visitComment (c : Comment) (v : Vis) : Vis :=
  let note (t : Str) (v : Vis) : Vis :=
    if v.opts.collectComments then { v with comments := v.comments ++ [t] } else v
  match c with
  | .line t => lineBreak (push t (note t v))
  | .vql t => lineBreak (push t (note t v))
  | .multi t => popIndent (lineBreak (push t (newLine 0 (note t v))))

/-- `Visit([]*_Comment)` (visitor.go:296-299). -/
def visitComments (cs : List Comment) (v : Vis) : Vis := cs.foldl (fun v c => visitComment c v) v

/-- Record a call site. -/
def site (c : CallSite) (v : Vis) : Vis := { v with callSites := v.callSites ++ [c] }

/-- Decimal digits of a number (`strconv.FormatInt`, `%d`). -/
def natText (n : Nat) : Str := ((Nat.toDigits 10 n).map fun c => UInt8.ofNat c.toNat)

/-- `%d` -/
def intText : Int → Str
  | .ofNat n => natText n
  | .negSucc n => 45 :: natText (n + 1)

/-- `arg.Left` without backticks. -/
def argName : CArg → Str
  | .mk _ n _ => (unquoteIdent n).getD []

/-- The loop body of `visitAndExpression` (visitor.go:662-669) before the term; the deferred
`pop_indent`s run when the function returns. -/
def andStep (op : Str) (v : Vis) : Vis :=
  pushIndent (pushes [bs " ", op, bs " "] (lineBreak v))

/-- `n` deferred `pop_indent`s. -/
def popIndents : Nat → Vis → Vis
  | 0, v => v
  | n + 1, v => popIndents n (popIndent v)

/-- `line_break` when the cursor is beyond the threshold (visitor.go:829-831). -/
def breakIfFar (v : Vis) : Vis := if v.pos > v.opts.indentWidth then lineBreak v else v

/-- The three layouts of an argument list (visitor.go:591-656, 915-983); `one` and `many` visit
the arguments on one line and on a line each. -/
def callLayouts (better : Vis → Vis → Bool) (one many : Vis → Vis) (v : Vis) : Vis :=
  abTest better
    [fun v => push (bs ")") (one (push (bs "(") { v with breakLines := false })),
     fun v => popIndent (push (bs ")") (many (pushIndent (push (bs "(") v)))),
     fun v => popIndent (push (bs ")") (many (lineBreak (indentIn (push (bs "(") v)))))] v

/-- `visitSelectExpression` (visitor.go:997-1017); `cols` visits the columns. -/
def starThen (all empty : Bool) (cols : Vis → Vis) (v : Vis) : Vis :=
  cols (if all then
    let v := push (bs "*") v
    if empty then v else pushes [bs ",", bs " "] v
  else v)

/-- The two places for the column list (visitor.go:1032-1053). -/
def selectLayouts (better : Vis → Vis → Bool) (cols : Vis → Vis) (v : Vis) : Vis :=
  abTest better
    [fun v => popIndent (cols (pushIndent v)),
     fun v => popIndent (popIndent (cols (push (bs "  ") (indentIn (newLine 2 v)))))] v

section
variable (better : Vis → Vis → Bool) (num : Str → Str)

mutual
/-- `visitAndExpression` (visitor.go:659-670); its own comments are not visited. -/
def fAnd : CAnd → Vis → Vis
  | .mk _ l rs, v => popIndents rs.length (fAndTs rs (fOr l v))
/-- The loop of `visitAndExpression`. -/
def fAndTs : List CAndT → Vis → Vis
  | [], v => v
  | .mk op t :: rs, v => fAndTs rs (fOr t (andStep op v))
/-- `visitOrExpression` (visitor.go:672-681). -/
def fOr : COr → Vis → Vis
  | .mk cs l rs, v => fOrTs rs (fCond l (visitComments cs v))
/-- The loop of `visitOrExpression`; the comments of the right hand operands are visited
here. -/
def fOrTs : List COrT → Vis → Vis
  | [], v => v
  | .mk op t :: rs, v => fOrTs rs (fCondC t (pushes [bs " ", op, bs " "] v))
/-- The comments of a condition, then the condition (visitor.go:678-679). -/
def fCondC : CCond → Vis → Vis
  | .not cs c, v => fCond c (push (bs "NOT ") (visitComments cs v))
  | .cmp cs l r, v => fCmp r (fAdd l (visitComments cs v))
/-- `visitConditionOperand` (visitor.go:683-695); its own comments are not visited. -/
def fCond : CCond → Vis → Vis
  | .not _ c, v => fCond c (push (bs "NOT ") v)
  | .cmp _ l r, v => fCmp r (fAdd l v)
/-- The comparison part of `visitConditionOperand`. -/
def fCmp : Option CCmpT → Vis → Vis
  | none, v => v
  | some (.mk op r), v => fAdd r (pushes [bs " ", op, bs " "] v)
/-- `visitAdditionExpression` (visitor.go:697-704). -/
def fAdd : CAdd → Vis → Vis
  | .mk cs l rs, v => fAddTs rs (fMul l (visitComments cs v))
/-- The loop of `visitAdditionExpression`. -/
def fAddTs : List CAddT → Vis → Vis
  | [], v => v
  | .mk op t :: rs, v => fAddTs rs (fMul t (pushes [bs " ", op, bs " "] v))
/-- `visitMultiplicationExpression` (visitor.go:706-717). -/
def fMul : CMul → Vis → Vis
  | .mk cs l rs, v => fMulTs rs (fMember l (visitComments cs v))
/-- The loop of `visitMultiplicationExpression`. -/
def fMulTs : List CMulT → Vis → Vis
  | [], v => v
  | .mk op t :: rs, v => fMulTs rs (fVal t (pushes [bs " ", op, bs " "] v))
/-- `visitMemberExpression` (visitor.go:798-826). -/
def fMember : CMember → Vis → Vis
  | .mk cs l rs, v => fMTerms rs (fVal l (visitComments cs v))
/-- The loop of `visitMemberExpression`.  The empty `[]` falls into the last branch, where
visiting the nil term pushes nothing. -/
def fMTerms : List CMTerm → Vis → Vis
  | [], v => v
  | .range i j :: rs, v =>
    fMTerms rs (push (bs "]") (fOptVal j (push (bs ":") (fOptVal i (push (bs "[") v)))))
  | .index i :: rs, v => fMTerms rs (push (bs "]") (fVal i (push (bs "[") v)))
  | .field n :: rs, v => fMTerms rs (push n (push (bs ".") v))
  | .empty :: rs, v => fMTerms rs (push (bs ".") v)
/-- An optional range end (visitor.go:805-813). -/
def fOptVal : Option CVal → Vis → Vis
  | none, v => v
  | some x, v => fVal x v
/-- `visitCommaExpression` (visitor.go:784-796). -/
def fComma : CComma → Vis → Vis
  | .mk cs l rs, v => fCommaTs rs (fAnd l (visitComments cs v))
/-- The loop of `visitCommaExpression`. -/
def fCommaTs : List CCommaT → Vis → Vis
  | [], v => v
  | .mk c1 c2 none :: rs, v =>
    fCommaTs rs (visitComments c2 (visitComments c1 (pushes [bs ",", bs " "] v)))
  | .mk c1 c2 (some t) :: rs, v =>
    fCommaTs rs (fAnd t (visitComments c2 (visitComments c1 (pushes [bs ",", bs " "] v))))
/-- `visitValue` (visitor.go:719-782). -/
def fVal : CVal → Vis → Vis
  | .mk cs b, v => fValB b (visitComments cs v)
/-- `visitValue` after the comments. -/
def fValB : CValB → Vis → Vis
  | .sym s, v => fSym s v
  | .sub c, v => popIndent (push (bs ")") (fComma c (indentIn (push (bs "(") v))))
  | .str t, v => push t v
  | .num t, v => push (num t) v
  | .bool t, v => push t v
  | .null, v => push (bs "NULL") v
/-- `visitSymbolRef` (visitor.go:532-657). -/
def fSym : CSym → Vis → Vis
  | .mk cs n called ps, v =>
    let v := visitComments cs v
    let far := v.pos > v.opts.indentWidth
    let v := if far then lineBreak (indentIn v) else v
    let v := push n v
    let v :=
      if called = false ∧ ps.isEmpty then site ⟨bs "symbol", n, []⟩ v
      else
        let v := if called ∧ v.opts.collectCallSites then
          site ⟨bs "function", n, ps.map argName⟩ v else v
        if ps.isEmpty then push (bs "()") v
        else callLayouts better (fArgs1 ps) (fArgs2 true ps) v
    if far then popIndent v else v
/-- Arguments on one line (visitor.go:598-604). -/
def fArgs1 : List CArg → Vis → Vis
  | [], v => v
  | a :: as, v => fArgs1 as ((if as.isEmpty then id else pushes [bs ",", bs " "]) (fArg a v))
/-- One argument per line (visitor.go:618-627); no line break before the first. -/
def fArgs2 (first : Bool) : List CArg → Vis → Vis
  | [], v => v
  | a :: as, v =>
    fArgs2 false as ((if as.isEmpty then id else pushes [bs ",", bs " "])
      (fArg a (if first then v else lineBreak v)))
/-- `visitArgs` (visitor.go:828-878): a comment switches line breaking on. -/
def fArg : CArg → Vis → Vis
  | .mk cs n r, v =>
    let v := breakIfFar v
    let v := if cs.isEmpty then v
      else visitComments cs { v with hasComments := true, breakLines := true }
    fArgV n r v
/-- The right hand side of an argument (visitor.go:842-877). -/
def fArgV (n : Str) : CArgV → Vis → Vis
  | .expr e, v => fAnd e (pushes [n, bs "="] v)
  | .select q, v =>
    let v := pushes [n, bs "={"] v
    if v.breakLines then
      popIndent (push (bs "}") (lineBreak (popIndent
        (fSelect q (push (bs "  ") (indentIn (newLine 2 v)))))))
    else push (bs " }") (fSelect q (push (bs " ") v))
  | .array c, v => push (bs "]") (fComma c (pushes [n, bs "=["] v))
  | .empty, v => pushes [n, bs "=[]"] v
/-- `visitSelect` (visitor.go:1019-1090). -/
def fSelect : CSelect → Vis → Vis
  | .mk cs ex all cols from_ wh gb ob lim, v =>
    let v := visitComments cs v
    let v := if ex then push (bs "EXPLAIN ") v else v
    let v := push (bs "SELECT ") v
    let v := selectLayouts better (starThen all cols.isEmpty (fColList 0 cols)) v
    let v := fPlugin from_ (push (bs "FROM ") (lineBreak v))
    let v := fClause (bs "WHERE ") wh v
    let v := fGroup gb v
    let v := match ob with
      | none => v
      | some (k, desc) =>
        let v := pushes [bs "ORDER BY ", k] (lineBreak v)
        if desc then push (bs " DESC ") v else v
    let v := match lim with
      | none => v
      | some n => push (bs "LIMIT " ++ intText n ++ bs " ") (lineBreak v)
    match gb with
    | none => v
    | some _ => popIndent v
/-- `WHERE` (visitor.go:1062-1066). -/
def fClause (kw : Str) : Option CComma → Vis → Vis
  | none, v => v
  | some c, v => fComma c (push kw (lineBreak v))
/-- `GROUP BY` (visitor.go:1068-1075). -/
def fGroup : Option CComma → Vis → Vis
  | none, v => v
  | some c, v => fComma c (pushIndent (push (bs "GROUP BY ") (lineBreak v)))
/-- The loop of `visitSelectExpression`. -/
def fColList (idx : Nat) : List CCol → Vis → Vis
  | [], v => v
  | c :: cs, v =>
    fColList (idx + 1) cs
      ((if cs.isEmpty then id else fun v => lineBreak (pushes [bs ",", bs " "] v)) (fCol idx c v))
/-- `visitAliasedExpression` (visitor.go:446-530). -/
def fCol (idx : Nat) : CCol → Vis → Vis
  | .mk cs b as_, v => fColB idx as_ b (visitComments cs v)
/-- `visitAliasedExpression` after the comments. -/
def fColB (idx : Nat) (as_ : Str) : CColB → Vis → Vis
  | .star, v => push (bs "*") v
  | .expr e, v =>
    if as_ ≠ [] then
      abTest better
        [fun v => pushes [bs " AS ", as_] (fAnd e { v with breakLines := false }),
         fun v => pushes [bs " AS ", as_]
           (fAnd e (if idx > 0 ∧ lineSpace v = false then lineBreak v else v))] v
    else
      abTest better
        [fun v => fAnd e { v with breakLines := false },
         fun v => fAnd e (if lineSpace v = false then lineBreak v else v)] v
  | .select q, v =>
    let v := pushes [bs "{", bs " "] v
    let brk := v.breakLines
    let v := if brk then
        push (bs "}") (lineBreak (fSelect q (push (bs "  ") (indentIn (newLine 2 v)))))
      else push (bs " }") (fSelect q v)
    let v := if as_ ≠ [] then pushes [bs " AS ", as_] v else v
    if brk then popIndent (popIndent v) else v
/-- `visitPlugin` (visitor.go:880-995). -/
def fPlugin : CPlugin → Vis → Vis
  | .mk n call args, v =>
    let v := push n v
    if call then
      let v := if v.opts.collectCallSites then site ⟨bs "plugin", n, args.map argName⟩ v else v
      if args.isEmpty then push (bs "()") v else callLayouts better (fArgs1 args) (fArgs2 true args) v
    else if v.opts.collectCallSites then site ⟨bs "symbol", n, []⟩ v else v
end

/-- The names of LET parameters (`getParameters`, vfilter.go:540-581). -/
def paramName : CLetParam → Str
  | .name n => (unquoteIdent n).getD []
  | .dflt a => argName a

/-- `argsCache[name]`: the last default given under that name (vfilter.go:561-577). -/
def paramDefault (ps : List CLetParam) (name : Str) : Option CArg :=
  (ps.filterMap fun p => match p with
    | .name _ => none
    | .dflt a => if argName a = name then some a else none).getLast?

/-- The parameter loop of `visitVQL` (visitor.go:1175-1189): a parameter name that has a
default is printed as that default, any other name without its backticks. -/
def fParams (all : List CLetParam) : List CLetParam → Vis → Vis
  | [], v => v
  | p :: ps, v =>
    let v := match paramDefault all (paramName p) with
      | some a => fArg better num a v
      | none => push (paramName p) v
    fParams all ps (if ps.isEmpty then v else pushes [bs ",", bs " "] v)

/-- The deferred function of `visitVQL` (visitor.go:1135-1140). -/
def stmtEnd (v : Vis) : Vis := { lineBreak v with pos := 0, maxWidth := 0 }

/-- `visitVQL` (visitor.go:1130-1227). -/
def fStmt : CStmt → Vis → Vis
  | .let_ cs n _ ps op b, v =>
    let v := pushes [bs "LET ", n] (visitComments cs v)
    let v := if ps.isEmpty then v
      else push (bs ")") (fParams better num ps ps (push (bs "(") v))
    let v := indentIn (pushes [bs " ", op, bs " "] v)
    let v := match b with
      | .expr e => fAnd better num e v
      | .select q => fSelect better num q v
    stmtEnd (popIndent v)
  | .query cs q, v => stmtEnd (fSelect better num q (visitComments cs v))

/-- `Visit([]*VQL)` (visitor.go:277-283). -/
def fStmts : List CStmt → Vis → Vis
  | [], v => v
  | s :: ss, v => fStmts ss (lineBreak (fStmt better num s v))

/-- `visitLambda`, `visitParameterList` (visitor.go:426-439). -/
def fLambda (l : CLambda) (v : Vis) : Vis :=
  let v := l.rest.foldl (fun v n => push n (push (bs ", ") v)) (push l.first v)
  fAnd better num l.body (push (bs " => ") v)

end

/-- `ToStringOptions` (visitor.go:18-22). -/
def toStringOpts : Opts := ⟨0, 1000000, false, false⟩

/-- `DefaultFormatOptions` (visitor.go:24-31). -/
def defaultOpts : Opts := ⟨50, 80, false, false⟩

/-- `CollectAllInfo` (visitor.go:45-49). -/
def collectAllOpts : Opts := ⟨0, 0, true, true⟩

/-- `FormatToString` of a statement (visitor.go:1317-1325). -/
def formatStmt (num : Str → Str) (s : CStmt) : Str :=
  trim (fStmt isBetter num s (Vis.new toStringOpts false)).text

/-- `FormatToString` of a query. -/
def formatSelect (num : Str → Str) (q : CSelect) : Str :=
  trim (fSelect isBetter num q (Vis.new toStringOpts false)).text

/-- `FormatToString` of an expression. -/
def formatAnd (num : Str → Str) (e : CAnd) : Str :=
  trim (fAnd isBetter num e (Vis.new toStringOpts false)).text

/-- `strings.Split(s, "\n")` -/
def lines : Str → List Str
  | [] => [[]]
  | c :: cs =>
    if c = 10 then [] :: lines cs
    else match lines cs with
      | [] => [[c]]
      | l :: ls => (c :: l) :: ls

/-- `strings.TrimRight(l, " ")` -/
def trimRight (s : Str) : Str := (s.reverse.dropWhile (· == 32)).reverse

/-- `ReFormatVQL` after parsing (reformat/visitor.go:17-26). -/
def reformat (num : Str → Str) (o : Opts) (brk : Bool) (ss : List CStmt) : Str :=
  List.intercalate [10]
    ((lines (fStmts isBetter num ss (Vis.new o brk)).text).map trimRight)

end Vfilter.Fmt
