import Verif.Ops
import Verif.ODLemmas
/-!
# Aggregate functions (functions/aggregates.go) and sorting (sort/sort.go)
-/

namespace Vfilter
variable {F X : Type} [FloatOps F]

/-! ## Aggregate functions -/

/-- Values kept in an aggregator context and returned by aggregate functions
(`types.Any` in `AggregatorCtx.data`, aggregators/aggregators.go:11): `uint64` for count,
`int64` for sum, a value for min and max, `[]types.Any` for enumerate, `types.Null`, and
Go `nil`. -/
inductive Cell (F X : Type) where
  | count (n : BitVec 64)
  | sum (i : I64)
  | val (v : Val F X)
  | items (l : List (Val F X))
  | null
  | nil

/-- `AggregatorCtx` (aggregators/aggregators.go:9-12): a map from instance id to value.
The mutex makes `Modify` atomic, so a context is a sequential object. -/
abbrev AggCtx (F X : Type) := OD (Cell F X)

/-- `AggregatorCtx.Modify` (aggregators/aggregators.go:14-23). -/
def AggCtx.modify (c : AggCtx F X) (name : Str) (f : Option (Cell F X) → Cell F X) :
    AggCtx F X × Cell F X :=
  let v := f (c.get name)
  (c.set name v, v)

/-- One evaluation of an aggregate function, after argument parsing
(`ExtractArgsWithContext` and, for min/max, `arg.Item.Reduce`).  `none` for sum: the
arguments did not parse (functions/aggregates.go:174-178). -/
inductive AggOp (F X : Type) where
  | count
  | sum (item : Option I64)
  | min (item : Val F X)
  | max (item : Val F X)
  | enumerate (item : Val F X)

/-- `_CountFunction.Call` (functions/aggregates.go:125-141). -/
def countMod : Option (Cell F X) → Cell F X
  | none => .count (0#64 + 1#64)
  | some (.count n) => .count (n + 1#64)
  | some _ => .null

/-- `_SumFunction.Call` (functions/aggregates.go:180-194). -/
def sumMod (item : I64) : Option (Cell F X) → Cell F X
  | none => .sum (0#64 + item)
  | some (.sum s) => .sum (s + item)
  | some _ => .null

/-- What `scope.Lt` sees when the previous value was stored by another kind of aggregate:
not reachable as ids are unique per instance (functions/aggregates.go:82-87); taken to be
NULL. -/
def Cell.toVal : Cell F X → Val F X
  | .val v => v
  | .sum i => .int i
  | .count n => .int n
  | .items l => .arr l
  | .null => .null
  | .nil => .null

/-- `_MinFunction.Call` (functions/aggregates.go:235-242). -/
def minMod (W : World F X) (item : Val F X) : Option (Cell F X) → Cell F X
  | none => .val item
  | some prev => if !ltV W item prev.toVal then prev else .val item

/-- `_MaxFunction.Call` (functions/aggregates.go:278-285). -/
def maxMod (W : World F X) (item : Val F X) : Option (Cell F X) → Cell F X
  | none => .val item
  | some prev => if ltV W item prev.toVal then prev else .val item

/-- `_EnumerateFunction.Call` (functions/aggregates.go:323-336).  Go's `append` may write
into spare capacity behind the slices returned earlier; those keep their own length, so
they are unchanged. -/
def enumMod (item : Val F X) : Option (Cell F X) → Cell F X
  | none => .items [item]
  | some (.items l) => .items (l ++ [item])
  | some _ => .nil

/-- One call of the aggregate instance `id` (functions/aggregates.go:114-337). -/
def aggCall (W : World F X) (c : AggCtx F X) (id : Str) : AggOp F X → AggCtx F X × Cell F X
  | .count => c.modify id countMod
  | .sum none => (c, .null)
  | .sum (some i) => c.modify id (sumMod i)
  | .min v => c.modify id (minMod W v)
  | .max v => c.modify id (maxMod W v)
  | .enumerate v => c.modify id (enumMod v)

/-- A history of calls of aggregate instances on one context and the returned values. -/
def aggRun (W : World F X) : AggCtx F X → List (Str × AggOp F X) → List (Str × Cell F X)
  | _, [] => []
  | c, (id, op) :: r => (id, (aggCall W c id op).2) :: aggRun W (aggCall W c id op).1 r

/-! ## Sorting -/

/-- `DefaultSorterCtx.Less` (sort/sort.go:74-100).  `key` is
`scope.Associative(row, OrderBy)`: the element and whether it is present. -/
def rowLess {R : Type} (W : World F X) (key : R → Val F X × Bool) (desc : Bool) (r1 r2 : R) : Bool :=
  let (e1, p1) := key r1
  let (e2, p2) := key r2
  if !p1 || !p2 then false
  else
    let e1 := if e1.isNil then .str [] else e1
    let e2 := if e2.isNil then .str [] else e2
    if desc then !ltV W e1 e2 else ltV W e1 e2

/-- The inner loop of Go's `insertionSort` (standard library, sort/zsortinterface.go):
the new element moves left past all elements it is less than.  The sorted part is
given from its right end. -/
def insertLeft {R : Type} (less : R → R → Bool) (x : R) : List R → List R
  | [] => [x]
  | y :: ys => if less x y then y :: insertLeft less x ys else x :: y :: ys

/-- Go's `insertionSort`, which `sort.Sort` uses for up to 12 elements.  The standard
library is not part of /repo; for longer inputs `sort.Sort` enters theorems as a function
with the documented contract (`SortContract`). -/
def insertionSort {R : Type} (less : R → R → Bool) (l : List R) : List R :=
  (l.foldl (fun acc x => insertLeft less x acc) []).reverse

end Vfilter
