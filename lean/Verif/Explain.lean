import Verif.Conc
/-!
# EXPLAIN: what an explainer is told about a query

`Conc` has the row loop of SELECT without the calls of the explainer; here they are added, one
after the other, as the code makes them.
-/

namespace Vfilter.Expl

/-- The clauses of a SELECT that decide how `_Select.Eval` calls itself (vfilter.go:604-716). -/
structure Clauses where
  limit : Option Int
  groupBy : Bool
  orderBy : Bool
  deriving DecidableEq

/-- Calls of an explainer (types/explain.go:11-28).  `ParseArgs` (arg_parser/args.go:71-98) is
called by functions and plugins and left out. -/
inductive Ev (R O : Type) where
  /-- `StartQuery` -/
  | start (q : Clauses)
  /-- `PluginOutput` -/
  | source (r : R)
  /-- `SelectOutput` -/
  | emit (o : O)
  /-- `RejectRow` -/
  | reject
  deriving DecidableEq

/-- The calls before the first row: `StartQuery` of the query, and again of the copies without LIMIT
(vfilter.go:625-632) and without ORDER BY (vfilter.go:672-675).  These calls come in this order,
because each copy is evaluated after the call for the query it was made from. -/
def announce {R O : Type} : Clauses → List (Ev R O)
  | ⟨some n, g, o⟩ => .start ⟨some n, g, o⟩ :: announceRest g o
  | ⟨none, g, o⟩ => announceRest g o
where
  announceRest : Bool → Bool → List (Ev R O)
    | true, o => [.start ⟨none, true, o⟩]
    | false, true => [.start ⟨none, false, true⟩, .start ⟨none, false, false⟩]
    | false, false => [.start ⟨none, false, false⟩]

/-- Where the row loop is (vfilter.go:695-713, 718-770): waiting for a row; `PluginOutput` to be
called; transforming and filtering; sending; `SelectOutput` to be called. -/
inductive Pc (R O : Type) where
  | idle
  | seen (r : R)
  | work (r : R)
  | hold (o : O)
  | sent (o : O)

/-- State of the explained row loop. `taken` are the rows it has received so far. -/
structure ESt (R O : Type) where
  input : List R
  pc : Pc R O
  taken : List R
  out : List O
  evs : List (Ev R O)
  cancelled : Bool
  closed : Bool

/-- The row loop with the calls of the explainer (vfilter.go:688-713, 718-770); `f` is the
transformation, `none` if the WHERE clause rejects the row. -/
inductive EStep {R O : Type} (f : R → Option O) : By → ESt R O → ESt R O → Prop where
  | recv {r rs tk out ev c} :
      EStep f .input ⟨r :: rs, .idle, tk, out, ev, c, false⟩ ⟨rs, .seen r, tk ++ [r], out, ev, c, false⟩
  /-- `scope.Explainer().PluginOutput` (vfilter.go:708). -/
  | report {r rs tk out ev c} :
      EStep f .proc ⟨rs, .seen r, tk, out, ev, c, false⟩ ⟨rs, .work r, tk, out, ev ++ [.source r], c, false⟩
  | accept {r o rs tk out ev c} : f r = some o →
      EStep f .proc ⟨rs, .work r, tk, out, ev, c, false⟩ ⟨rs, .hold o, tk, out, ev, c, false⟩
  /-- `scope.Explainer().RejectRow` (vfilter.go:767). -/
  | reject {r rs tk out ev c} : f r = none →
      EStep f .proc ⟨rs, .work r, tk, out, ev, c, false⟩ ⟨rs, .idle, tk, out, ev ++ [.reject], c, false⟩
  | send {o rs tk out ev c} :
      EStep f .consumer ⟨rs, .hold o, tk, out, ev, c, false⟩ ⟨rs, .sent o, tk, out ++ [o], ev, c, false⟩
  /-- `scope.Explainer().SelectOutput` (vfilter.go:736, 764), after the row was sent. -/
  | tell {o rs tk out ev c} :
      EStep f .proc ⟨rs, .sent o, tk, out, ev, c, false⟩ ⟨rs, .idle, tk, out, ev ++ [.emit o], c, false⟩
  /-- `case <-ctx.Done(): return` in `processSingleRow` (vfilter.go:732, 760). -/
  | drop {o rs tk out ev} :
      EStep f .proc ⟨rs, .hold o, tk, out, ev, true, false⟩ ⟨rs, .idle, tk, out, ev, true, false⟩
  | finish {tk out ev c} :
      EStep f .proc ⟨[], .idle, tk, out, ev, c, false⟩ ⟨[], .idle, tk, out, ev, c, true⟩
  /-- `case <-ctx.Done(): return` (vfilter.go:700). -/
  | abort {rs tk out ev} :
      EStep f .proc ⟨rs, .idle, tk, out, ev, true, false⟩ ⟨rs, .idle, tk, out, ev, true, true⟩
  | inputEnds {r rs pc tk out ev} :
      EStep f .input ⟨r :: rs, pc, tk, out, ev, true, false⟩ ⟨[], pc, tk, out, ev, true, false⟩
  | cancel {rs pc tk out ev cl} :
      EStep f .env ⟨rs, pc, tk, out, ev, false, cl⟩ ⟨rs, pc, tk, out, ev, true, cl⟩

/-- A SELECT without GROUP BY whose source will deliver `input`. -/
def ESt.init {R O : Type} (q : Clauses) (input : List R) : ESt R O :=
  ⟨input, .idle, [], [], announce q, false, false⟩

/-- What a GROUP BY query tells the explainer, whatever its rows: `EvalGroupBy` and `GetNextRow`
(vfilter_group.go:26-122) call it nowhere. -/
def groupEvents {R O : Type} (q : Clauses) (_ : List R) : List (Ev R O) := announce q

/-! ## Which scopes are explained -/

/-- `enable_explainer` of all scopes made so far, in the order in which they were made. -/
abbrev Flags := List Bool

inductive FOp where
  /-- `EnableExplain` (scope/scope.go:616-621) -/
  | enable (s : Nat)
  /-- `Copy` (scope/scope.go:343-366) -/
  | copy (s : Nat)
  deriving DecidableEq

def FOp.apply (fl : Flags) : FOp → Flags
  | .enable s => fl.set s true
  | .copy s => fl ++ [fl.getD s false]

def runOps (fl : Flags) (ops : List FOp) : Flags := ops.foldl FOp.apply fl

/-- The scope asks its explainer (scope/scope.go:623-632); otherwise calls do nothing
(scope/null_explainer.go). -/
def Flags.on (fl : Flags) (s : Nat) : Bool := fl.getD s false

/-- `VQL.Eval` of a query on scope `s` (vfilter.go:483-527) up to its first `StartQuery`: the query
gets a copy of the scope, and EXPLAIN enables explaining there (vfilter.go:605-609). -/
def beginQuery (explain : Bool) (s : Nat) (fl : Flags) : Flags :=
  let fl' := FOp.apply fl (.copy s)
  if explain then FOp.apply fl' (.enable fl.length) else fl'

/-! ## The logging explainer (explain/logging_explainer.go) -/

/-- `fmt.Sprintf` without operands: verbs find no operand.  Flags, width and precision are skipped
as Go does; `*` and `[` are taken for verbs. -/
def sprintf0 : Str → Str
  | [] => []
  | c :: s => if c = 37 then skip s else c :: sprintf0 s
where
  /-- behind a percent sign -/
  skip : Str → Str
    | [] => bs "%!(NOVERB)"
    | c :: s =>
      if c ∈ bs "+-# .0123456789" then skip s
      else if c = 37 then 37 :: sprintf0 s
      else bs "%!" ++ c :: bs "(MISSING)" ++ sprintf0 s

/-- The line that `RejectRow` logs (explain/logging_explainer.go:101-104) for the text of the WHERE
clause: the text is part of the format. -/
def rejectLine (text : Str) : Str := sprintf0 (bs "DEBUG: REJECTED by " ++ text)

/-- The line that `StartQuery` logs (explain/logging_explainer.go:26-29): the text is an operand. -/
def startLine (text : Str) : Str := bs "DEBUG:Explain start query: " ++ text

/-! ## Statistics -/

/-- State of the goroutine of `_From.Eval`. `scanned` is `RowsScanned`, `charged` the number of
calls of the throttler. -/
structure FromSt (R : Type) where
  input : List R
  hold : Option R
  out : List R
  scanned : Nat
  charged : Nat
  cancelled : Bool
  closed : Bool

/-- `_From.Eval` (vfilter.go:1152-1171). -/
inductive FromStep {R : Type} : By → FromSt R → FromSt R → Prop where
  /-- `IncRowsScanned`, `ChargeOp` -/
  | recv {r rs out n m c} :
      FromStep .input ⟨r :: rs, none, out, n, m, c, false⟩ ⟨rs, some r, out, n + 1, m + 1, c, false⟩
  | send {r rs out n m c} :
      FromStep .consumer ⟨rs, some r, out, n, m, c, false⟩ ⟨rs, none, out ++ [r], n, m, c, false⟩
  | abort {r rs out n m} :
      FromStep .proc ⟨rs, some r, out, n, m, true, false⟩ ⟨rs, some r, out, n, m, true, true⟩
  | finish {out n m c} :
      FromStep .proc ⟨[], none, out, n, m, c, false⟩ ⟨[], none, out, n, m, c, true⟩
  | inputEnds {r rs h out n m} :
      FromStep .input ⟨r :: rs, h, out, n, m, true, false⟩ ⟨[], h, out, n, m, true, false⟩
  | cancel {rs h out n m cl} :
      FromStep .env ⟨rs, h, out, n, m, false, cl⟩ ⟨rs, h, out, n, m, true, cl⟩

def FromSt.init {R : Type} (input : List R) (n m : Nat) : FromSt R := ⟨input, none, [], n, m, false, false⟩

end Vfilter.Expl
