import Verif.Syntax
import Verif.Logic
import Verif.Text
import Verif.Aggregates
/-!
# The evaluator (vfilter.go, lazy.go, stored.go, vfilter_group.go, grouper/grouper.go)

The evaluator is written as a program over two kinds of requests:

* `Call`: a recursive call of one of the Go methods (`_AndExpression.Reduce`,
  `_Select.Eval`, `Scope.Resolve`, ...), each with its result type `Call.Ret`;
* `Prim`: an access to the heap (`Scope.Copy`, `AppendVars`, `SetAggregatorCtx`, the caches
  of lazy expressions, lazy rows and syntax nodes, the log, the state of the embedding
  application).

`body c` is the code of the Go method `c`.  `run n c` executes it with recursion depth at
most `n`; the result is `none` exactly if the depth does not suffice.  Functions, plugins
and operators registered by the embedding application are arbitrary programs of the same
kind (`Host`).

Simplifications: goroutines are run to completion one after the other, so a plugin
delivers all its rows before the rows are processed (the streaming behaviour and the
schedules are the subject of `Verif.Conc`); contexts are never cancelled; closing of
scopes is left out (`Verif.Scope`); statistics, tracing, explaining and throttling are left
out.  Strings and identifiers in syntax trees come from the lexer, so the panicking case of
`Unquote` (see `Verif.Text`) does not arise and is mapped to the empty string.
-/

namespace Vfilter.Vql

/-- `StoredExpression` (stored.go:164-169). -/
structure SExpr where
  name : Str
  params : List Str
  defaults : List (Str × Arg)
  body : AndE

/-- `_StoredQuery` (stored.go:36-41). -/
structure SQuery where
  name : Str
  params : List Str
  defaults : List (Str × Arg)
  query : Select

/-- Go objects other than plain data that can be VQL values.  Objects with state are
represented by an index into the heap. -/
inductive Obj where
  /-- `*LazyExprImpl` (lazy.go:122-127). -/
  | lazy (cell : Nat)
  /-- `*StoredExpression` (stored.go:164). -/
  | sexpr (e : SExpr)
  /-- `*_StoredQuery` (stored.go:36). -/
  | squery (q : SQuery)
  /-- a `*_Select` passed as `arg={ SELECT ... }` (vfilter.go:1940-1941, 1985-1986). -/
  | select (q : Select)
  /-- `*StoredQueryCallSite` (stored.go:269-272). -/
  | site (cell : Nat)
  /-- `*Scope`. -/
  | scope (id : Nat)
  /-- `*LazyRowImpl` (lazy.go:22-37). -/
  | row (cell : Nat)
  /-- a registered function. -/
  | fn (name : Str)
  /-- a registered plugin. -/
  | plugin (name : Str)
  /-- any other object of the embedding application. -/
  | host (id : Nat)

/-- VQL values; `.query rows` is a materialized query (`InMemoryMatrializer`,
materializer/in_memory.go:11-13). -/
abbrev V (F : Type) := Val F Obj

/-- A column getter of a lazy row (vfilter.go:1099-1145): a value of the source row, or a
column expression with the scope it is evaluated in. -/
inductive Getter (F : Type) where
  | const (v : V F)
  | col (c : Col) (name : Str) (scope : Nat)

/-- `Scope` (scope/scope.go:84-114): variables in the order they were appended. -/
structure Scp (F : Type) where
  vars : List (V F) := []
  depth : Nat := 0
  parent : Option Nat := none
  ag : Option Nat := none

/-- `LazyExprImpl` (lazy.go:122-127). -/
structure LazyCell (F : Type) where
  expr : AndE
  scope : Nat
  value : Option (V F) := none

/-- `LazyRowImpl` (lazy.go:22-37): `columns` and `getters` in one list, in the order of
`AddColumn`; the getter of a name is the last one added. -/
structure RowCell (F : Type) where
  cols : List (Str × Getter F) := []
  cache : OD (V F) := []

/-- The heap.  `split` and `fns` are the caches of syntax nodes (`split_symbol`,
`function`, vfilter.go:1026-1028).  `evals` is a ghost list of the column expressions
evaluated so far.  `host` is the state of the embedding application. -/
structure St (F S : Type) where
  scopes : List (Scp F) := []
  ctxs : List (AggCtx F Obj) := []
  lazies : List (LazyCell F) := []
  rows : List (RowCell F) := []
  sites : List (V F × Nat) := []
  split : List Nat := []
  fns : List (Nat × Str) := []
  log : List Str := []
  evals : List (Str × Nat) := []
  host : S

/-! ## Requests -/

/-- Heap accesses. -/
inductive Prim (F S : Type) where
  | copy (s : Nat)
  | append (s : Nat) (v : V F)
  | newAg (s : Nat)
  | mkCtx
  | setAg (s c : Nat)
  | ag (s : Nat) (f : AggCtx F Obj → V F × AggCtx F Obj)
  | vars (s : Nat)
  | depth (s : Nat)
  | newLazy (e : AndE) (s : Nat)
  | lazyInfo (c : Nat)
  | lazySet (c : Nat) (v : V F)
  | newRow (cols : List (Str × Getter F))
  | rowInfo (c : Nat)
  | rowSet (c : Nat) (k : Str) (v : V F)
  | newSite (q : V F) (s : Nat)
  | siteInfo (c : Nat)
  | split (node : Nat)
  | fnOf (node : Nat) (name : Str)
  | log (msg : Str)
  | eval (name : Str) (s : Nat)
  | host (f : S → V F × S)

/-- Result type of a heap access. -/
@[reducible] def Prim.Ret {F S : Type} : Prim F S → Type
  | .copy _ | .mkCtx | .depth _ | .newLazy _ _ | .newRow _ | .newSite _ _ => Nat
  | .append _ _ | .newAg _ | .setAg _ _ | .lazySet _ _ | .rowSet _ _ _ | .log _ | .eval _ _ => Unit
  | .ag _ _ | .host _ => V F
  | .vars _ => List (V F)
  | .lazyInfo _ => Option (LazyCell F)
  | .rowInfo _ => Option (RowCell F)
  | .siteInfo _ => Option (V F × Nat)
  | .split _ => Bool
  | .fnOf _ _ => Str

/-- Recursive calls. -/
inductive Call (F : Type) where
  | and (e : AndE) (s : Nat)
  | or (e : OrE) (s : Nat)
  | cond (e : Cond) (s : Nat)
  | add (e : AddE) (s : Nat)
  | mul (e : MulE) (s : Nat)
  | member (e : Member) (s : Nat)
  | comma (e : Comma) (s : Nat)
  | value (e : Value) (s : Nat)
  | sym (e : Sym) (s : Nat)
  | negate (v : V F) (s : Nat)
  | col (c : Col) (s : Nat)
  | getter (g : Getter F)
  | rowGet (c : Nat) (k : Str)
  | lazyWith (c : Nat) (s : Nat)
  | lazyReduce (c : Nat)
  | resolve (s : Nat) (name : Str)
  | assoc (a : V F) (k : Key F Obj) (s : Nat)
  | members (v : V F) (s : Nat)
  | select (q : Select) (s : Nat)
  | plugin (p : Plugin) (s : Nat)
  | evalSymbolWithArgs (args : List Arg) (v : V F) (s : Nat)
  | evalSymbol (v : V F) (s : Nat)
  | evalQuery (v : V F) (s : Nat)

/-- Result type of a call.  `Associative` and `Resolve` return a possibly nil value and a
presence flag. -/
@[reducible] def Call.Ret {F : Type} : Call F → Type
  | .rowGet _ _ | .resolve _ _ | .assoc _ _ _ => Option (V F) × Bool
  | .members _ _ => List Str
  | .select _ _ | .plugin _ _ | .evalSymbolWithArgs _ _ _ | .evalSymbol _ _ | .evalQuery _ _ =>
    List (V F)
  | _ => V F

/-- Programs. -/
inductive Prog (F S : Type) : Type → Type 1 where
  | ret {α : Type} (a : α) : Prog F S α
  | call {α : Type} (c : Call F) (k : c.Ret → Prog F S α) : Prog F S α
  | prim {α : Type} (p : Prim F S) (k : p.Ret → Prog F S α) : Prog F S α

namespace Prog
variable {F S α β : Type}

def bind : Prog F S α → (α → Prog F S β) → Prog F S β
  | .ret a, f => f a
  | .call c k, f => .call c (fun r => (k r).bind f)
  | .prim p k, f => .prim p (fun r => (k r).bind f)

instance : Monad (Prog F S) where
  pure := .ret
  bind := bind

end Prog

/-- Performs a recursive call. -/
def call {F S : Type} (c : Call F) : Prog F S c.Ret := .call c .ret

/-- Performs a heap access. -/
def prim {F S : Type} (p : Prim F S) : Prog F S p.Ret := .prim p .ret

/-! ## The embedding application -/

/-- Arithmetic operators (`scope.Add`, `Sub`, `Mul`, `Div`). -/
inductive Arith where
  | add | sub | mul | div

/-- Comparison operators (`scope.Membership`, `Lt`, `Eq`, `Gt`, `Match`). -/
inductive Rel where
  | mem | lt | eq | gt | match_

/-- What the embedding application and the rest of the package provide: registered
functions and plugins, the operator protocols, the sorter, the text of a column and number
parsing.  The evaluator theorems hold for every `Host`. -/
structure Host (F S : Type) where
  /-- `scope.GetFunction(name)` succeeds. -/
  isFn : Str → Bool
  /-- `scope.GetPlugin(name)` succeeds. -/
  isPlugin : Str → Bool
  /-- `Call` of the copy of the function `name` that belongs to syntax node `node`. -/
  fn : (name : Str) → (node s : Nat) → OD (V F) → Prog F S (V F)
  /-- all rows the plugin delivers. -/
  plugin : (name : Str) → (s : Nat) → OD (V F) → Prog F S (List (V F))
  arith : Arith → V F → V F → (s : Nat) → Prog F S (V F)
  rel : Rel → V F → V F → (s : Nat) → Prog F S Bool
  /-- `scope.Bool`. -/
  truth : V F → (s : Nat) → Prog F S Bool
  /-- `types.ToString`. -/
  toStr : V F → (s : Nat) → Prog F S Str
  /-- `Scope.Sort` by a column, descending if the flag is set. -/
  sort : Str → Bool → List (V F) → (s : Nat) → Prog F S (List (V F))
  /-- registered `AssociativeProtocol` implementations. -/
  assocImpl : V F → Key F Obj → (s : Nat) → Option (Prog F S (Option (V F) × Bool)) := fun _ _ _ => none
  /-- `DefaultAssociative` (protocols/protocol_associative.go:167-302) apart from string
  keys on slices. -/
  assocDefault : V F → Key F Obj → (s : Nat) → Prog F S (Option (V F) × Bool)
  /-- `GetMembers` of other objects. -/
  hostMembers : V F → (s : Nat) → Prog F S (List Str)
  /-- `_AliasedExpression.GetName` (vfilter.go:828-850). -/
  colName : Col → Str
  /-- `maybeParseStrNumber` (vfilter.go:1641-1663): `none` if the text is no number. -/
  num : Str → Option (V F)
  /-- `FormatToString(scope, self)` of the statement, the value of `$Query`. -/
  stmtText : Select → Str

/-! ## Pure helpers -/

section
variable {F S : Type}

/-- `Unquote_ident` on a token. -/
def ident (s : Str) : Str := (unquoteIdent s).getD []

/-- The value implements `types.StoredQuery`. -/
def isQuery : V F → Bool
  | .query _ => true
  | .obj (.squery _) => true
  | .obj (.select _) => true
  | .obj (.site _) => true
  | _ => false

/-- `CheckForOverflow` (scope/scope.go) for a scope of this depth. -/
def overflow (depth : Nat) : Bool := decide (1000 ≤ depth)

/-- `self.getters[key]`: the last getter added under the name. -/
def RowCell.getter (r : RowCell F) (k : Str) : Option (Getter F) :=
  (r.cols.reverse.find? (fun p => decide (p.1 = k))).map (·.2)

/-- The number of rows `LIMIT n` lets through (vfilter.go:618-646): the count is checked
after a row was sent. -/
def limitCount (n : I64) : Nat := max 1 n.toInt.toNat

/-! ## Loops -/

/-- Runs `f` on every element in order and collects the results. -/
def mapP {α β : Type} (f : α → Prog F S β) : List α → Prog F S (List β)
  | [] => pure []
  | a :: r => do
    let b ← f a
    let bs ← mapP f r
    pure (b :: bs)

/-- Threads an accumulator through a list. -/
def foldP {α β : Type} (f : β → α → Prog F S β) : β → List α → Prog F S β
  | b, [] => pure b
  | b, a :: r => do
    let b' ← f b a
    foldP f b' r

/-! ## The code -/

variable (H : Host F S)

/-- The loop of `_AndExpression.Reduce` (vfilter.go:1461-1475). -/
def andLoopP (s : Nat) : V F → List AndT → Prog F S (V F)
  | last, [] => pure last
  | _, .mk op t :: r => do
    let v ← call (.or t s)
    let b ← H.truth v s
    if b = false then pure (.bool false)
    else andLoopP s (if op = bs "&&" then v else .bool true) r

/-- The loop of `_OrExpression.Reduce` (vfilter.go:1501-1513). -/
def orLoopP (s : Nat) : V F → List OrT → Prog F S (V F)
  | last, [] => pure last
  | _, .mk op t :: r => do
    let v ← call (.cond t s)
    let b ← H.truth v s
    if b = true then pure (if op = bs "||" then v else .bool true)
    else orLoopP s v r

/-- The operator switch of `_ConditionOperand.Reduce` (vfilter.go:1575-1594). -/
def relP (op : Str) (a b : V F) (s : Nat) : Prog F S Bool :=
  if op = bs "IN" ∨ op = bs "in" ∨ op = bs "In" then H.rel .mem a b s
  else if op = bs "<" then H.rel .lt a b s
  else if op = bs "=" then H.rel .eq a b s
  else if op = bs "!=" then do
    let r ← H.rel .eq a b s
    pure (!r)
  else if op = bs "<=" then do
    let r ← H.rel .lt a b s
    if r then pure true else H.rel .eq a b s
  else if op = bs ">" then H.rel .gt a b s
  else if op = bs ">=" then do
    let r ← H.rel .gt a b s
    if r then pure true else H.rel .eq a b s
  else if op = bs "=~" then H.rel .match_ b a s
  else pure false

/-- One term of `_AdditionExpression.Reduce` (vfilter.go:1531-1539). -/
def addStepP (s : Nat) (acc : V F) : AddT → Prog F S (V F)
  | .mk op t => do
    let v ← call (.mul t s)
    if op = bs "+" then H.arith .add acc v s
    else if op = bs "-" then H.arith .sub acc v s
    else pure acc

/-- One term of `_MultiplicationExpression.Reduce` (vfilter.go:1616-1624). -/
def mulStepP (s : Nat) (acc : V F) : MulT → Prog F S (V F)
  | .mk op t => do
    let v ← call (.value t s)
    if op = bs "*" then H.arith .mul acc v s
    else if op = bs "/" then H.arith .div acc v s
    else pure acc

/-- A bound of a range expression (vfilter.go:1364-1380): `none` if it is not a number. -/
def boundP [FloatOps F] (s : Nat) : Option Value → Prog F S (Option (Option I64))
  | none => pure (some none)
  | some e => do
    let v ← call (.value e s)
    match v.toInt64 with
    | none => pure none
    | some i => pure (some (some i))

/-- The terms of `_MemberExpression.Reduce` (vfilter.go:1359-1395). -/
def memberLoopP [FloatOps F] (s : Nat) : V F → List MTerm → Prog F S (V F)
  | lhs, [] => pure lhs
  | lhs, .range st en :: r => do
    match ← boundP s st with
    | none => pure .null
    | some a =>
      match ← boundP s en with
      | none => pure .null
      | some b =>
        match ← call (.assoc lhs (.range a b) s) with
        | (_, false) => pure .null
        | (v, true) => memberLoopP s (v.getD .null) r
  | lhs, .index i :: r => do
    let k ← call (.value i s)
    match ← call (.assoc lhs (.val k) s) with
    | (_, false) => pure .null
    | (v, true) => memberLoopP s (v.getD .null) r
  | lhs, .field f :: r => do
    match ← call (.assoc lhs (.val (.str (ident f))) s) with
    | (_, false) => pure .null
    | (v, true) => memberLoopP s (v.getD .null) r
  | _, .empty :: _ => pure .null

/-- The terms of `_CommaExpression.Reduce` (vfilter.go:1426-1434). -/
def commaLoopP (s : Nat) : List (V F) → List CommaT → Prog F S (V F)
  | acc, [] => pure (.arr acc)
  | acc, .mk none :: _ => pure (.arr acc)
  | acc, .mk (some e) :: r => do
    let v ← call (.and e s)
    commaLoopP s (acc ++ [v]) r

/-- `buildArgsFromParameters` (vfilter.go:1924-1961). -/
def buildArgsP (s : Nat) (params : List Arg) : Prog F S (OD (V F)) :=
  foldP (fun acc a => match a with
    | .mk n (.expr e) => do
      let v ← call (.and e s)
      pure (OD.set acc (ident n) v)
    | .mk n (.select q) => pure (OD.set acc (ident n) (.obj (.select q)))
    | .mk n (.array c) => do
      let v ← call (.comma c s)
      pure (OD.set acc (ident n) v)
    | .mk n .empty => pure (OD.set acc (ident n) (.arr []))) [] params

/-- `applyDefaults` (stored.go:186-208).  The Go code ranges over a map; here the defaults
are visited in a fixed but arbitrary order, the order of the list. -/
def applyDefaultsP (s : Nat) (defaults : List (Str × Arg)) (args : OD (V F)) :
    Prog F S (OD (V F)) :=
  foldP (fun acc d => match OD.get acc d.1 with
    | some _ => pure acc
    | none => match d.2 with
      | .mk _ (.expr e) => do
        let v ← call (.and e s)
        pure (OD.set acc d.1 v)
      | .mk n (.select q) => pure (OD.set acc n (.obj (.select q)))
      | .mk _ (.array c) => do
        let v ← call (.comma c s)
        pure (OD.set acc d.1 v)
      | .mk _ .empty => pure (OD.set acc d.1 (.arr []))) args defaults

/-- `types.Materialize` (types/stored_query.go:14-33). -/
def materializeP (s : Nat) (q : V F) : Prog F S (List (V F)) := do
  let s' ← prim (.copy s)
  call (.evalQuery q s')

/-- The arguments of a function call (vfilter.go:1973-1988). -/
def fnArgsP (s : Nat) (params : List Arg) : Prog F S (OD (V F)) :=
  foldP (fun acc a => match a with
    | .mk n (.expr e) => do
      let c ← prim (.newLazy e s)
      pure (OD.set acc (ident n) (.obj (.lazy c)))
    | .mk n (.array c) => do
      let v ← call (.comma c s)
      pure (OD.set acc (ident n) v)
    | .mk n .empty => pure (OD.set acc (ident n) (.arr []))
    | .mk n (.select q) => pure (OD.set acc (ident n) (.obj (.select q)))) [] params

/-- `callFunction` (vfilter.go:1964-2025): a node keeps using the function it called
first. -/
def callFunctionP (node : Nat) (name : Str) (params : List Arg) (s : Nat) : Prog F S (V F) := do
  let args ← fnArgsP s params
  let f ← prim (.fnOf node name)
  H.fn f node s args

/-- Walks a dotted name starting at the scope (vfilter.go:1196-1212, 1762-1782).  The log
message of an unknown first component is only tagged with the name. -/
def walkP (s : Nat) (first : Bool) : V F → List Str → Prog F S (Option (V F))
  | v, [] => pure (some v)
  | v, c :: r => do
    match ← call (.assoc v (.val (.str c)) s) with
    | (_, false) =>
      if first then do
        prim (.log (bs "ERROR: not found " ++ c))
        pure none
      else pure none
    | (x, true) => walkP s false (x.getD .null) r

/-- Does the first component start with a minus sign (vfilter.go:1747)? -/
def hasMinus : List Str → Bool
  | (45 :: _) :: _ => true
  | _ => false

/-- `components[0] = strings.TrimPrefix(components[0], "-")` (vfilter.go:1749). -/
def trimMinus : List Str → List Str
  | (45 :: c) :: r => c :: r
  | l => l

/-- The negation decided by `getFunction`: only when the node is split for the first time
(vfilter.go:1742-1752). -/
def negateP (neg : Bool) (v : V F) (s : Nat) : Prog F S (V F) :=
  if neg then call (.negate v s) else pure v

/-- The arguments of a symbol that is called; none for a bare name
(vfilter.go:1914-1923). -/
def argsP (called : Bool) (s : Nat) (params : List Arg) : Prog F S (OD (V F)) :=
  if called then buildArgsP s params else pure []

/-- A called expression gets an aggregator context of its own (vfilter.go:1844-1847). -/
def agP (called : Bool) (sub : Nat) : Prog F S Unit :=
  if called then prim (.newAg sub) else pure ()

/-- Defaults of a stored query (vfilter.go:1884). -/
def queryDefaultsP (s : Nat) (v : V F) (args : OD (V F)) : Prog F S (OD (V F)) :=
  match v with
  | .obj (.squery q) => applyDefaultsP s q.defaults args
  | _ => pure args

/-- Looks a name up: a single component that is called is first looked up among the
registered functions or plugins, everything else walks from the scope
(vfilter.go:1175-1214, 1737-1785). -/
def findP (isReg : Str → Bool) (mk : Str → Obj) (called : Bool) (comps : List Str) (s : Nat) :
    Prog F S (Option (V F)) :=
  match comps with
  | [c] => if called = true ∧ isReg c = true then pure (some (.obj (mk c)))
    else walkP s true (.obj (.scope s)) [c]
  | cs => walkP s true (.obj (.scope s)) cs

/-- The value of a resolved symbol (vfilter.go:1827-1907). -/
def symValueP (node : Nat) (symbol : Str) (called : Bool) (params : List Arg) (neg : Bool) (s : Nat) :
    V F → Prog F S (V F)
  | .obj (.fn name) =>
    if called = false then do
      prim (.log (bs "ERROR: function not called " ++ symbol))
      pure .null
    else do
      let v ← callFunctionP H node name params s
      negateP neg v s
  | .obj (.sexpr e) => do
    let sub ← prim (.copy s)
    agP called sub
    let d ← prim (.depth sub)
    if overflow d then pure .null
    else do
      let args ← argsP called s params
      let args ← applyDefaultsP s e.defaults args
      prim (.append sub (.dict args))
      let v ← call (.and e.body sub)
      negateP neg v s
  | v =>
    if isQuery v = true ∧ params.isEmpty = false then do
      let sub ← prim (.copy s)
      prim (.newAg sub)
      let d ← prim (.depth sub)
      if overflow d then pure .null
      else do
        let args ← argsP called s params
        let args ← queryDefaultsP s v args
        prim (.append sub (.dict args))
        let c ← prim (.newSite v sub)
        negateP neg (.obj (.site c)) s
    else if called then do
      prim (.log (bs "ERROR: not a function " ++ symbol))
      pure .null
    else negateP neg v s

/-- `_SymbolRef.Reduce` with `getFunction` (vfilter.go:1737-1785, 1820-1910). -/
def symP (node : Nat) (symbol : Str) (called : Bool) (params : List Arg) (s : Nat) :
    Prog F S (V F) := do
  let first ← prim (.split node)
  let found ← findP H.isFn Obj.fn called (trimMinus (splitIdent symbol)) s
  match found with
  | none => pure .null
  | some v => symValueP H node symbol called params (first && hasMinus (splitIdent symbol)) s v

/-- `Has` of a lazy row under construction (lazy.go:46-58). -/
def hasCol (cols : List (Str × Getter F)) (k : Str) : Bool := cols.any (fun p => decide (p.1 = k))

/-- One member of the source row in a `*` (vfilter.go:1057-1067, 1100-1107). -/
def starStepP (dedup : Bool) (s : Nat) (row : V F) (acc : List (Str × Getter F)) (m : Str) :
    Prog F S (List (Str × Getter F)) :=
  if dedup = true ∧ hasCol acc m = true then pure acc
  else do
    match ← call (.assoc row (.val (.str m)) s) with
    | (v, true) => pure (acc ++ [(m, .const (v.getD .null))])
    | (_, false) => pure acc

/-- The columns a `*` adds (vfilter.go:1054-1069 with `dedup`, 1099-1108 without). -/
def starP (dedup : Bool) (s : Nat) (row : V F) (cols : List (Str × Getter F)) :
    Prog F S (List (Str × Getter F)) := do
  let ms ← call (.members row s)
  foldP (starStepP dedup s row) cols ms

/-- The columns of `SELECT *` (vfilter.go:1099-1108). -/
def allColsP (all : Bool) (s : Nat) (row : V F) : Prog F S (List (Str × Getter F)) :=
  if all then starP false s row [] else pure []

/-- One column of `Transform` (vfilter.go:1113-1145). -/
def addColP (s ns : Nat) (row : V F) (acc : List (Str × Getter F)) (c : Col) :
    Prog F S (List (Str × Getter F)) :=
  if H.colName c = bs "*" then starP true s row acc
  else pure (acc ++ [(H.colName c, .col c (H.colName c) ns)])

/-- `_SelectExpression.Transform` (vfilter.go:1080-1148). -/
def transformP (all : Bool) (cols : List Col) (s : Nat) (row : V F) : Prog F S Nat := do
  let init ← allColsP all s row
  let ns ← prim (.copy s)
  prim (.append ns row)
  let getters ← foldP (addColP H s ns row) init cols
  prim (.newRow getters)

/-- What a column getter returns: queries are materialized (vfilter.go:1131-1141). -/
def colValueP (ns : Nat) (item : V F) : Prog F S (V F) :=
  match item with
  | .query rows => pure (.arr rows)
  | item => if isQuery item then do
      let rows ← materializeP ns item
      pure (.query rows)
    else pure item

/-- One column of `MaterializedLazyRow` (lazy.go:104-112). -/
def matColP (cell : Nat) (acc : OD (V F)) (column : Str) : Prog F S (OD (V F)) := do
  match ← prim (.rowInfo cell) with
  | none => pure acc
  | some r =>
    match OD.get r.cache column with
    | some v => pure (OD.set acc column v)
    | none =>
      match r.getter column with
      | none => pure acc
      | some g => do
        let v ← call (.getter g)
        pure (OD.set acc column v)

/-- `MaterializedLazyRow` on a lazy row (lazy.go:95-118): the values it computes are not
stored in the cache of the row. -/
def matRowP (cell : Nat) : Prog F S (V F) := do
  match ← prim (.rowInfo cell) with
  | none => pure .null
  | some r => do
    let d ← foldP (matColP cell) [] (r.cols.map (·.1))
    pure (.dict d)

/-- `processSingleRow` (vfilter.go:718-770): the rows emitted for one source row. -/
def processRowP (all : Bool) (cols : List Col) (where_ : Option Comma) (s : Nat) (row : V F) :
    Prog F S (List (V F)) := do
  let sub ← prim (.copy s)
  let cell ← transformP H all cols sub row
  match where_ with
  | none => do
    let out ← matRowP cell
    pure [out]
  | some w => do
    let ns ← prim (.copy sub)
    prim (.append ns row)
    prim (.append ns (.obj (.row cell)))
    let v ← call (.comma w ns)
    let b ← H.truth v s
    if b then do
      let out ← matRowP cell
      pure [out]
    else pure []

/-- The WHERE clause of a grouped query (vfilter_group.go:50-64). -/
def passP (where_ : Option Comma) (ns g : Nat) : Prog F S Bool :=
  match where_ with
  | none => pure true
  | some w => do
    let v ← call (.comma w ns)
    H.truth v g

/-- A bin of the grouper (grouper/grouper.go:33-36): aggregator context and last row. -/
structure Bin (F : Type) where
  ctx : Nat
  row : V F

/-- The aggregator context of a group (grouper/grouper.go:54-66). -/
def binCtxP (bins : OD (Bin F)) (key : Str) : Prog F S Nat :=
  match OD.get bins key with
  | some b => pure b.ctx
  | none => prim .mkCtx

/-- One row of `DefaultGrouper.Group` with `GetNextRow` (vfilter_group.go:28-83,
grouper/grouper.go:45-76). -/
def groupRowP (all : Bool) (cols : List Col) (where_ : Option Comma) (gb : Comma) (g : Nat)
    (bins : OD (Bin F)) (row : V F) : Prog F S (OD (Bin F)) := do
  let ns ← prim (.copy g)
  let cell ← transformP H all cols ns row
  prim (.append ns row)
  prim (.append ns (.obj (.row cell)))
  let pass ← passP H where_ ns g
  if pass = false then pure bins
  else do
    let k ← call (.comma gb ns)
    let key ← H.toStr k ns
    let c ← binCtxP bins key
    prim (.setAg ns c)
    let out ← matRowP cell
    pure (OD.update bins key ⟨c, out⟩)

/-- An argument of a stored query (stored.go:105-119). -/
def storeArgP (sub : Nat) (v : V F) : Prog F S (V F) :=
  match v with
  | .obj (.lazy c) => call (.lazyReduce c)
  | .query rows => pure (.arr rows)
  | v => if isQuery v then do
      let rows ← materializeP sub v
      pure (.arr rows)
    else pure v

/-- `checkCallingArgs` (stored.go:126-152): what is logged if a stored query is called with these
arguments.  The keys of a dictionary differ, so there are as many in `seen_map`; the parameters are
nil if and only if there are none (vfilter.go:540-542). -/
def callWarnings (q : SQuery) (keys : List Str) : List Str :=
  if q.params = [] then []
  else (keys.filter fun k => !q.params.contains k).map
      (fun k => bs "ERROR:Extra unrecognized arg " ++ k ++ bs " when calling " ++ q.name) ++
    if keys.length < q.params.length then
      (q.params.filter fun k => !keys.contains k).map
        (fun k => bs "ERROR:Missing arg " ++ k ++ bs " when calling " ++ q.name)
    else []

/-- Several messages. -/
def logsP (msgs : List Str) : Prog F S Unit := foldP (fun _ m => prim (.log m)) () msgs

/-- `_StoredQuery.Call` (stored.go:93-124). -/
def storedQueryCallP (q : SQuery) (s : Nat) (args : OD (V F)) : Prog F S (List (V F)) := do
  let sub ← prim (.copy s)
  prim (.newAg sub)
  logsP (callWarnings q (OD.keys args))
  let vars ← foldP (fun acc (p : Str × V F) => do
    let v ← storeArgP sub p.2
    pure (OD.set acc p.1 v)) [] args
  prim (.append sub (.dict vars))
  call (.evalQuery (.obj (.squery q)) sub)

/-- The loop of `_ResolveVars` (scope/scope.go:648-683), innermost variables first. -/
def resolveLoopP (s : Nat) (name : Str) : Option (V F) → List (V F) →
    Prog F S (Option (V F) × Bool)
  | dflt, [] => pure (dflt, dflt.isSome)
  | dflt, r :: rs => do
    match ← call (.assoc r (.val (.str name)) s) with
    | (e, true) => pure (some (e.getD .null), true)
    | (e, false) => resolveLoopP s name (if e.isSome && dflt.isNone then e else dflt) rs

/-- The rows of a `{ SELECT }` column (vfilter.go:869-882). -/
def unwrapP (s : Nat) (item : V F) : Prog F S (List (V F)) := do
  let ms ← call (.members item s)
  match ms with
  | [m] => do
    match ← call (.assoc item (.val (.str m)) s) with
    | (v, true) => pure [v.getD .null]
    | (_, false) => pure []
  | _ => pure [item]

/-- `Associative` with a string key (protocols/protocol_associative.go:52-104) and its
fallbacks. -/
def assocStrP (a : V F) (k : Str) (s : Nat) : Prog F S (Option (V F) × Bool) :=
  match a with
  | .null => pure (some .null, true)
  | .obj (.scope i) => call (.resolve i k)
  | .obj (.sexpr e) => do
    let sub ← prim (.copy s)
    let v ← call (.and e.body sub)
    call (.assoc v (.val (.str k)) s)
  | .obj (.row c) => call (.rowGet c k)
  | .dict d =>
    if dictMethods.contains k then H.assocDefault a (.val (.str (k.drop 1))) s
    else match OD.get d k with
      | some v => pure (some v, true)
      | none => pure (none, false)
  | a =>
    if isQuery a then do
      let rows ← call (.evalQuery a s)
      let vs ← mapP (fun r => do
        match ← call (.assoc r (.val (.str k)) s) with
        | (v, true) => pure (v.getD .null)
        | (_, false) => pure .null) rows
      pure (some (.arr vs), true)
    else match H.assocImpl a (.val (.str k)) s with
      | some p => p
      | none => match a with
        | .arr l => do
          let vs ← foldP (fun acc x => do
            match ← call (.assoc x (.val (.str k)) s) with
            | (v, true) => pure (acc ++ [v.getD .null])
            | (_, false) => pure acc) [] l
          pure (some (.arr vs), true)
        | a => H.assocDefault a (.val (.str k)) s

/-- The code of each method. -/
def body [FloatOps F] : (c : Call F) → Prog F S c.Ret
  -- vfilter.go:1451-1476
  | .and (.mk l r) s => do
    let left ← call (.or l s)
    match r with
    | [] => pure left
    | r => do
      let b ← H.truth left s
      if b = false then pure (.bool false) else andLoopP H s left r
  -- vfilter.go:1491-1514
  | .or (.mk l r) s => do
    let left ← call (.cond l s)
    match r with
    | [] => pure left
    | r => do
      let b ← H.truth left s
      if b = true then pure left else orLoopP H s left r
  -- vfilter.go:1562-1599
  | .cond (.not c) s => do
    let v ← call (.cond c s)
    let b ← H.truth v s
    pure (.bool (!b))
  | .cond (.cmp l none) s => call (.add l s)
  | .cond (.cmp l (some (.mk op r))) s => do
    let a ← call (.add l s)
    let b ← call (.add r s)
    let res ← relP H op a b s
    pure (.bool res)
  -- vfilter.go:1529-1542
  | .add (.mk l r) s => do
    let v ← call (.mul l s)
    foldP (addStepP H s) v r
  -- vfilter.go:1614-1627
  | .mul (.mk l r) s => do
    let v ← call (.member l s)
    foldP (mulStepP H s) v r
  -- vfilter.go:1357-1398
  | .member (.mk l r) s => do
    let v ← call (.value l s)
    memberLoopP s v r
  -- vfilter.go:1414-1435
  | .comma (.mk l r) s => do
    let v ← call (.and l s)
    match r with
    | [] => pure v
    | r => commaLoopP s [v] r
  -- vfilter.go:1665-1715
  | .value (.sub c) s => call (.comma c s)
  | .value (.sym e) s => call (.sym e s)
  | .value (.num t) _ => match H.num t with
    | some v => pure v
    | none => do
      prim (.log (bs "ERROR:Unable to parse " ++ t ++ bs " as a number."))
      pure .null
  | .value (.str t) _ => pure (.str ((unquote t).getD []))
  | .value (.bool t) _ => pure (.bool (decide (t.map upperByte = bs "TRUE")))
  | .value .null _ => pure .null
  | .sym (.mk node symbol called params) s => symP H node symbol called params s
  -- vfilter.go:1787-1818
  | .negate v s => match v with
    | .obj (.lazy c) => do
      let v ← call (.lazyWith c s)
      call (.negate v s)
    | .bool b => pure (.bool (!b))
    | .float f => pure (.float (FloatOps.neg f))
    | .int i => pure (.int (-i))
    | _ => pure .null
  -- vfilter.go:864-896
  | .col (.mk b _) s => match b with
    | .star => pure .null
    | .expr e => call (.and e s)
    | .select q => do
      let items ← call (.select q s)
      let rows ← foldP (fun acc i => do
        let r ← unwrapP s i
        pure (acc ++ r)) [] items
      match rows with
      | [x] => pure x
      | rows => pure (.arr rows)
  -- vfilter.go:1101-1106, 1126-1144
  | .getter (.const v) => pure v
  | .getter (.col c name ns) => do
    prim (.eval name ns)
    let item ← call (.col c ns)
    colValueP ns item
  -- lazy.go:60-76
  | .rowGet c k => do
    match ← prim (.rowInfo c) with
    | none => pure (some .null, false)
    | some r =>
      match OD.get r.cache k with
      | some v => pure (some v, true)
      | none => match r.getter k with
        | none => pure (some .null, false)
        | some g => do
          let v ← call (.getter g)
          prim (.rowSet c k v)
          pure (some v, true)
  -- lazy.go:139-167
  | .lazyWith c s => do
    match ← prim (.lazyInfo c) with
    | none => pure .null
    | some l => do
      let r ← call (.and l.expr l.scope)
      match r with
      | .query rows => pure (.arr rows)
      | .obj (.lazy c') => call (.lazyReduce c')
      | r => pure r
  -- lazy.go:169-178
  | .lazyReduce c => do
    match ← prim (.lazyInfo c) with
    | none => pure .null
    | some l => match l.value with
      | some v => pure v
      | none => do
        let v ← call (.lazyWith c l.scope)
        prim (.lazySet c v)
        pure v
  -- scope/scope.go:634-646
  | .resolve s name => do
    let d ← prim (.depth s)
    if overflow d then pure (some .null, false)
    else do
      let vars ← prim (.vars s)
      resolveLoopP s name none vars.reverse
  -- protocols/protocol_associative.go:45-119
  | .assoc a k s => match k with
    | .val (.str n) => assocStrP H a n s
    | k => match a with
      | .null => pure (some .null, true)
      | a => match H.assocImpl a k s with
        | some p => p
        | none => match a with
          -- materializer/in_memory.go:60-67
          | .query rows => call (.assoc (.arr rows) k s)
          | a => H.assocDefault a k s
  -- protocols/protocol_associative.go:121-147, 331-358
  | .members v s => match v with
    | .obj (.scope _) => pure []
    | .obj (.row c) => do
      match ← prim (.rowInfo c) with
      | none => pure []
      | some r => pure (r.cols.map (·.1))
    | .dict d => pure (OD.keys d)
    | .null => pure []
    | .arr (x :: _) => call (.members x s)
    | .query (x :: _) => call (.members x s)
    | v => H.hostMembers v s
  -- vfilter.go:604-716
  | .select (.mk ex all cols from_ where_ groupBy orderBy limit) s =>
    match limit with
    | some n => do
      let rows ← call (.select (.mk ex all cols from_ where_ groupBy orderBy none) s)
      pure (rows.take (limitCount n))
    | none => match groupBy with
      | some gb => do
        -- vfilter_group.go:91-122, grouper/grouper.go:15-96
        let rows ← call (.plugin from_ s)
        let g ← prim (.copy s)
        let bins ← foldP (groupRowP H all cols where_ gb g) [] rows
        let out := bins.map (fun b => b.2.row)
        match orderBy with
        | none => pure out
        | some (k, desc) => H.sort (ident k) desc out s
      | none => match orderBy with
        | some (k, desc) => do
          let rows ← call (.select (.mk ex all cols from_ where_ none none none) s)
          H.sort (ident k) desc rows s
        | none => do
          let rows ← call (.plugin from_ s)
          foldP (fun acc row => do
            let out ← processRowP H all cols where_ s row
            pure (acc ++ out)) [] rows
  -- vfilter.go:1175-1255
  | .plugin (.mk name called args) s => do
    let found ← findP H.isPlugin Obj.plugin called (splitIdent name) s
    match found with
    | none => do
      prim (.log (bs "ERROR: Plugin not found " ++ name))
      pure []
    | some v => if called then call (.evalSymbolWithArgs args v s) else call (.evalSymbol v s)
  -- vfilter.go:1257-1298
  | .evalSymbolWithArgs params v s => do
    let d ← prim (.depth s)
    if overflow d then pure []
    else match v with
      | .obj (.sexpr e) => do
        let sub ← prim (.copy s)
        let args ← buildArgsP s params
        let args ← applyDefaultsP s e.defaults args
        prim (.append sub (.dict args))
        let r ← call (.and e.body sub)
        call (.evalSymbol r s)
      | .obj (.plugin n) => do
        let args ← buildArgsP s params
        H.plugin n s args
      | .obj (.squery q) => do
        let args ← buildArgsP s params
        let args ← applyDefaultsP s q.defaults args
        storedQueryCallP q s args
      | _ => do
        prim (.log (bs "ERROR: not callable as a plugin"))
        pure []
  -- vfilter.go:1301-1347
  | .evalSymbol v s => do
    let d ← prim (.depth s)
    if overflow d then pure []
    else match v with
      | .obj (.sexpr e) => do
        let r ← call (.and e.body s)
        call (.evalSymbol r s)
      | .arr l => pure l
      | v => if isQuery v then call (.evalQuery v s) else pure [v]
  -- stored.go:65-85, 274-277, materializer/in_memory.go:21-39, vfilter.go:604
  | .evalQuery v s => match v with
    | .obj (.squery q) => do
      let ns ← prim (.copy s)
      call (.select q.query ns)
    | .obj (.select q) => call (.select q s)
    | .obj (.site c) => do
      match ← prim (.siteInfo c) with
      | none => pure []
      | some (q, s') => call (.evalQuery q s')
    | .query rows => pure rows
    | _ => pure []

/-- `getParameterNames` (vfilter.go:530-581): names and defaults, by unquoted name.  A
later default for the same name replaces the earlier one. -/
def letParams (ps : List LetParam) : List Str × List (Str × Arg) :=
  (ps.map (fun p => ident p.name),
   ps.foldl (fun acc p => match p.dflt with
     | none => acc
     | some d => OD.update acc (ident p.name) (.mk p.name d)) [])

/-- The value of `LET x <= expr` (vfilter.go:455-464). -/
def matExprP (s : Nat) (v : V F) : Prog F S (V F) :=
  if isQuery v then do
    let rows ← materializeP s v
    pure (.query rows)
  else pure v

/-- `VQL.Eval` (vfilter.go:415-528). -/
def stmtP : Stmt → Nat → Prog F S (List (V F))
  | .let_ name _ params mat (.expr e), s => do
    if mat then do
      let v ← call (.and e s)
      let v ← matExprP s v
      prim (.append s (.dict [(ident name, v)]))
      pure []
    else do
      let (ps, ds) := letParams params
      prim (.append s (.dict [(ident name, .obj (.sexpr ⟨ident name, ps, ds, e⟩))]))
      pure []
  | .let_ name _ params mat (.select q), s => do
    if mat then do
      let rows ← materializeP s (.obj (.select q))
      prim (.append s (.dict [(ident name, .query rows)]))
      pure []
    else do
      let (ps, ds) := letParams params
      prim (.append s (.dict [(ident name, .obj (.squery ⟨ident name, ps, ds, q⟩))]))
      pure []
  | .query q, s => do
    let sub ← prim (.copy s)
    prim (.append sub (.dict [(bs "$Query", .str (H.stmtText q))]))
    call (.select q sub)

end

/-! ## Running -/

section
variable {F S : Type}

/-- Scope `s` (an empty one for an index that does not exist, which never happens). -/
def St.scp (st : St F S) (s : Nat) : Scp F := (st.scopes[s]?).getD {}

/-- The scope that holds the aggregator context of `s`: the closest ancestor with a context,
else the root (`GetAggregatorCtx`, scope/scope.go:131-143).  Parents have smaller indices,
so `s + 1` steps suffice. -/
def St.agHolder (st : St F S) : Nat → Nat → Nat
  | 0, s => s
  | n + 1, s => match (st.scp s).ag with
    | some _ => s
    | none => match (st.scp s).parent with
      | some p => agHolder st n p
      | none => s

/-- `AppendVars` (scope/scope.go). -/
def St.appendVar (st : St F S) (s : Nat) (v : V F) : St F S :=
  { st with scopes := st.scopes.set s { st.scp s with vars := (st.scp s).vars ++ [v] } }

/-- `SetAggregatorCtx(c)`. -/
def St.setAg (st : St F S) (s c : Nat) : St F S :=
  { st with scopes := st.scopes.set s { st.scp s with ag := some c } }

/-- `GetAggregatorCtx`: creates a context at the root if there is none. -/
def St.getAg (st : St F S) (s : Nat) : Nat × St F S :=
  let h := st.agHolder (s + 1) s
  match (st.scp h).ag with
  | some c => (c, st)
  | none => (st.ctxs.length, { st.setAg h st.ctxs.length with ctxs := st.ctxs ++ [[]] })

/-- Effect and result of a heap access. -/
def Prim.step : (p : Prim F S) → St F S → p.Ret × St F S
  | .copy s, st => (st.scopes.length,
      { st with scopes := st.scopes ++ [⟨(st.scp s).vars, (st.scp s).depth + 1, some s, none⟩] })
  | .append s v, st => ((), st.appendVar s v)
  | .newAg s, st => ((), { st.setAg s st.ctxs.length with ctxs := st.ctxs ++ [[]] })
  | .mkCtx, st => (st.ctxs.length, { st with ctxs := st.ctxs ++ [[]] })
  | .setAg s c, st => ((), st.setAg s c)
  | .ag s f, st =>
    let (c, st) := st.getAg s
    let (v, ctx) := f ((st.ctxs[c]?).getD [])
    (v, { st with ctxs := st.ctxs.set c ctx })
  | .vars s, st => ((st.scp s).vars, st)
  | .depth s, st => ((st.scp s).depth, st)
  | .newLazy e s, st => (st.lazies.length, { st with lazies := st.lazies ++ [⟨e, s, none⟩] })
  | .lazyInfo c, st => (st.lazies[c]?, st)
  | .lazySet c v, st => ((), { st with lazies := match st.lazies[c]? with
      | some l => st.lazies.set c { l with value := some v }
      | none => st.lazies })
  | .newRow cols, st => (st.rows.length, { st with rows := st.rows ++ [⟨cols, []⟩] })
  | .rowInfo c, st => (st.rows[c]?, st)
  | .rowSet c k v, st => ((), { st with rows := match st.rows[c]? with
      | some r => st.rows.set c { r with cache := OD.set r.cache k v }
      | none => st.rows })
  | .newSite q s, st => (st.sites.length, { st with sites := st.sites ++ [(q, s)] })
  | .siteInfo c, st => (st.sites[c]?, st)
  | .split n, st => (!st.split.contains n,
      { st with split := if st.split.contains n then st.split else st.split ++ [n] })
  | .fnOf n name, st => match st.fns.find? (fun p => p.1 == n) with
    | some p => (p.2, st)
    | none => (name, { st with fns := st.fns ++ [(n, name)] })
  | .log m, st => ((), { st with log := st.log ++ [m] })
  | .eval n s, st => ((), { st with evals := st.evals ++ [(n, s)] })
  | .host f, st => ((f st.host).1, { st with host := (f st.host).2 })

/-- Runs a program, given what recursive calls do. -/
def interp {α : Type} (rec : (c : Call F) → St F S → Option (c.Ret × St F S)) :
    Prog F S α → St F S → Option (α × St F S)
  | .ret a, st => some (a, st)
  | .call c k, st => match rec c st with
    | none => none
    | some (r, st') => interp rec (k r) st'
  | .prim p k, st => interp rec (k (p.step st).1) (p.step st).2

variable [FloatOps F] (H : Host F S)

/-- Runs a call with recursion depth at most `n`. -/
def run : Nat → (c : Call F) → St F S → Option (c.Ret × St F S)
  | 0, _, _ => none
  | n + 1, c, st => interp (run n) (body H c) st

/-- Runs a program with recursion depth at most `n`. -/
def exec {α : Type} (n : Nat) (p : Prog F S α) (st : St F S) : Option (α × St F S) :=
  interp (run H n) p st

/-- Runs a list of statements on scope `s`, returning the rows of each. -/
def runStmts (n : Nat) : List Stmt → Nat → St F S → Option (List (List (V F)) × St F S)
  | [], _, st => some ([], st)
  | q :: r, s, st => match exec H n (stmtP H q s) st with
    | none => none
    | some (rows, st') => match runStmts n r s st' with
      | none => none
      | some (rs, st'') => some (rows :: rs, st'')

end
end Vfilter.Vql
