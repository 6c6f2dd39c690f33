import Verif.Props.ScopeClose
/-!
# The scopes of a row (vfilter.go:718-769, 1080-1148, vfilter_group.go:25-78, grouper/grouper.go:17-100)

What is done to scopes while one row is processed by a SELECT or by a SELECT with GROUP BY.  Evaluating an
expression may do anything to scopes (functions and plugins attach destructors, subqueries and calls copy and
close scopes); it is a function from the heap to a list of scope operations.

Simplifications: operations of one goroutine at a time.  Which columns WHERE asks for is not said here; their
evaluation is part of the evaluation of WHERE.  Rows that are sent to the output are not modelled.
-/

namespace Vfilter

section
variable {R V : Type} [Inhabited R]

/-- What evaluating an expression does to scopes. -/
abbrev Work (R V : Type) := Heap R V → List (SOp R V)

/-- A sequence of scope operations. -/
def Hist.does (grow : Nat → Nat) (x : Hist R V) (ops : List (SOp R V)) : Hist R V := ops.foldl (Hist.step grow) x

/-- Expressions are evaluated. -/
def Hist.work (grow : Nat → Nat) (x : Hist R V) (w : Work R V) : Hist R V := x.does grow (w x.heap)

/-- The number of the next scope. -/
def Hist.next (x : Hist R V) : Nat := x.heap.scopes.length

/-- `processSingleRow` up to the evaluation of WHERE (vfilter.go:720-749): `subscope` for the row, `new_scope` of
`Transform` for the columns (vfilter.go:1108-1113), and `new_scope` for WHERE, if there is one. -/
def selectStart (grow : Nat → Nat) (x : Hist R V) (s : Nat) (row lazyRow : R) (filtered : Bool) : Hist R V :=
  let sub := x.next
  let y := x.does grow [.copy s, .copy sub, .append (sub + 1) row]
  if filtered then y.does grow [.copy sub, .append (sub + 2) row, .append (sub + 2) lazyRow] else y

/-- The end of `processSingleRow`: the deferred calls, last one first (vfilter.go:721, 725, 743). -/
def selectEnd (sub : Nat) (filtered : Bool) : List (SOp R V) :=
  (if filtered then [.close (sub + 2)] else []) ++ [.close (sub + 1), .close sub]

/-- `processSingleRow` (vfilter.go:718-769).  `wh` is WHERE with its outcome. -/
def selectRow (grow : Nat → Nat) (x : Hist R V) (s : Nat) (row lazyRow : R) (wh : Option (Work R V × Bool))
    (cols : Work R V) : Hist R V :=
  let y := selectStart grow x s row lazyRow wh.isSome
  let z := match wh with
    | none => y.work grow cols
    | some (w, accept) => if accept then (y.work grow w).work grow cols else y.work grow w
  z.does grow (selectEnd x.next wh.isSome)

/-- A row of a GROUP BY query: WHERE (nothing to do if there is none) with its outcome, the group key, the
columns, and the context of the group, which is new or not. -/
structure GRow (R V : Type) where
  row : R
  lazyRow : R
  wh : Work R V
  accept : Bool
  key : Work R V
  ctx : Option Nat
  cols : Work R V

/-- `GetNextRow` up to the evaluation of WHERE (vfilter_group.go:33-48). -/
def groupStart (grow : Nat → Nat) (x : Hist R V) (g : Nat) (r : GRow R V) : Hist R V :=
  let n := x.next
  x.does grow [.copy g, .copy n, .append (n + 1) r.row, .append n r.row, .append n r.lazyRow]

/-- The row until the group key is known; `closer` closes the scope of the columns (vfilter_group.go:50-73). -/
def groupKey (grow : Nat → Nat) (x : Hist R V) (g : Nat) (r : GRow R V) : Hist R V :=
  (((groupStart grow x g r).work grow r.wh).work grow r.key).does grow [.close (x.next + 1)]

/-- The scope of the row gets the aggregator context of the group (grouper/grouper.go:73). -/
def groupCtx (n : Nat) (c : Option Nat) : List (SOp R V) :=
  match c with
  | none => [.newAg n]
  | some c => [.setAg n c]

/-- One row of a GROUP BY query (vfilter_group.go:28-75, grouper/grouper.go:46-81): a rejected row closes its
scopes, an accepted one does not close the scope it made; its columns are evaluated last. -/
def groupRow (grow : Nat → Nat) (x : Hist R V) (g : Nat) (r : GRow R V) : Hist R V :=
  if r.accept then
    ((groupKey grow x g r).does grow (groupCtx x.next r.ctx)).work grow r.cols
  else
    ((groupStart grow x g r).work grow r.wh).does grow [.close x.next, .close (x.next + 1)]

/-- A GROUP BY query on scope `s` (grouper/grouper.go:22-97). -/
def groupQuery (grow : Nat → Nat) (x : Hist R V) (s : Nat) (rows : List (GRow R V)) : Hist R V :=
  (rows.foldl (fun y r => groupRow grow y x.next r) (x.does grow [.copy s])).does grow [.close x.next]

end
end Vfilter
