import Verif.Float
/-!
# Value universe
-/

namespace Vfilter

/-- VQL values (`types.Any`, types/types.go:6).

* `null`: `types.Null`, `*types.Null`, `nil` and nil pointers.
* `int`: every Go integer kind (`int, int8..int64, uint8..uint64`).  Simplified:
  they are all represented by the `int64` that `utils.ToInt64`
  (utils/utils.go:158-211) converts them to, so `uint64` values above 2^63-1 are
  outside the model.
* `float`: `float64`.
* `str`: `string`.  `time`: `time.Time` as nanoseconds since the epoch.
* `arr`: any slice.  `dict`: `*ordereddict.Dict` without default value.
* `query`: a `types.StoredQuery` (types/stored_query.go:9-11), represented by the
  rows its `Eval` delivers (simplified: at this level evaluating it is pure and
  terminates; the evaluator model treats stored queries as code).
* `obj`: every other Go object (host types, scopes, lambdas, ...). -/
inductive Val (F X : Type) where
  | null
  | bool (b : Bool)
  | int (i : I64)
  | float (f : F)
  | str (s : Str)
  | time (ns : Int)
  | arr (l : List (Val F X))
  | dict (d : List (Str × Val F X))
  | query (rows : List (Val F X))
  | obj (x : X)
  deriving Inhabited

namespace Val
variable {F X : Type} [FloatOps F]
open FloatOps

/-- `types.IsNil` (types/null.go:18-34). Nil slices/maps are not distinguished
from empty ones (simplification). -/
def isNil : Val F X → Bool
  | .null => true
  | _ => false

/-- `is_array` (protocols/protocol_eq.go:119-125), `utils.IsArray` (utils/utils.go:63-69). -/
def isArr : Val F X → Bool
  | .arr _ => true
  | _ => false

/-- `isTime` (protocols/protocol_lt.go:156-164). -/
def isTime : Val F X → Bool
  | .time _ => true
  | _ => false

/-- `utils.ToFloat` (utils/utils.go:85-145). -/
def toFloat : Val F X → Option F
  | .bool b => some (ofI64 (if b then 1#64 else 0#64))
  | .float f => some f
  | .int i => some (ofI64 i)
  | _ => none

/-- `utils.ToInt64` (utils/utils.go:158-211). -/
def toInt64 : Val F X → Option I64
  | .bool b => some (if b then 1#64 else 0#64)
  | .int i => some i
  | .float f => some (toI64 f)
  | _ => none

/-- `utils.ToString` (utils/utils.go:72-83); `[]byte` is not modelled. -/
def toStr : Val F X → Option Str
  | .str s => some s
  | _ => none

/-- `toTime` (protocols/protocol_lt.go:166-191): result in nanoseconds. -/
def toTime : Val F X → Option Int
  | .time ns => some ns
  | .float f => some (unixNs f)
  | .bool b => some ((if b then 1 else 0) * 1000000000)
  | .int i => some (i.toInt * 1000000000)
  | _ => none

end Val
end Vfilter
