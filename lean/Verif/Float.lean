import Verif.Base
/-!
# float64

`FloatOps` lists the float64 operations the Go code uses.  `LawfulFloat` lists
the facts about them that some theorems need (all of them hold for IEEE-754
binary64).  `F64` (file `F64.lean`) is a concrete binary64 model that
instantiates both, so no theorem is vacuous.
-/

namespace Vfilter

/-- The float64 operations used by /repo (Go spec: floating point operators,
conversions; `math.Modf` via `protocols/protocol_lt.go:174-178`). -/
class FloatOps (F : Type) where
  /-- `float64(i)` for an int64 -/
  ofI64 : I64 → F
  /-- `int64(f)` (truncation; out of range is platform defined) -/
  toI64 : F → I64
  add : F → F → F
  sub : F → F → F
  mul : F → F → F
  div : F → F → F
  neg : F → F
  /-- `a < b` (false if either is NaN) -/
  lt : F → F → Bool
  /-- `a == b` (false if either is NaN) -/
  eq : F → F → Bool
  /-- nanoseconds of `time.Unix(int64(sec), int64(frac*1e9))`, `protocol_lt.go:174-178` -/
  unixNs : F → Int

namespace FloatOps
variable {F : Type} [FloatOps F]
/-- `0.0` -/
def zero : F := ofI64 (F := F) 0#64
/-- `x != x` -/
def isNaN (x : F) : Bool := !(eq x x)
end FloatOps

open FloatOps

/-- Facts about IEEE-754 comparison, multiplication and int64 conversion used in proofs. -/
class LawfulFloat (F : Type) extends FloatOps F where
  eq_symm : ∀ a b : F, eq a b = eq b a
  eq_trans : ∀ a b c : F, eq a b = true → eq b c = true → eq a c = true
  lt_irrefl : ∀ a : F, lt a a = false
  lt_trans : ∀ a b c : F, lt a b = true → lt b c = true → lt a c = true
  lt_eq_trans : ∀ a b c : F, lt a b = true → eq b c = true → lt a c = true
  eq_lt_trans : ∀ a b c : F, eq a b = true → lt b c = true → lt a c = true
  /-- comparisons with a NaN are false -/
  lt_nan : ∀ a b : F, lt a b = true → eq a a = true ∧ eq b b = true
  /-- two non-NaN floats compare -/
  total : ∀ a b : F, eq a a = true → eq b b = true → lt a b = true ∨ eq a b = true ∨ lt b a = true
  mul_comm : ∀ a b : F, mul a b = mul b a
  /-- integers convert to non-NaN floats, monotonically -/
  ofI64_num : ∀ i : I64, eq (ofI64 i) (ofI64 i) = true
  ofI64_mono : ∀ i j : I64, i.toInt ≤ j.toInt → lt (ofI64 j) (ofI64 i) = false

end Vfilter
