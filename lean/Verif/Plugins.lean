import Verif.Ops
/-!
# Plugins with sequential output: range, flatten
-/

namespace Vfilter

/-! ## range (plugins/range.go) -/

/-- `if arg.Step == 0 { arg.Step = 1 }` (plugins/range.go:36-38). -/
def rangeStep (step : I64) : I64 := if step = 0#64 then 1#64 else step

/-- The loop of `RangePlugin.Call` (plugins/range.go:40-48) without cancellation, from the loop
variable `i`: the first `fuel` loop tests.  The flag tells that the loop has ended (the
output channel is closed). -/
def rangeLoop (step end_ : I64) : Nat → I64 → List I64 × Bool
  | 0, _ => ([], false)
  | n + 1, i =>
    if i.toInt < end_.toInt then
      let r := rangeLoop step end_ n (i + step)
      (i :: r.1, r.2)
    else ([], true)

/-- `RangePlugin.Call` (plugins/range.go:19-53): the values of the `_value` column. -/
def rangeCall (start end_ step : I64) (fuel : Nat) : List I64 × Bool :=
  rangeLoop (rangeStep step) end_ fuel start

/-! ## flatten (plugins/flatten.go) -/

section
variable {F X : Type} [FloatOps F]

/-- The `_value` unwrapping in `flatten` (plugins/flatten.go:89-95). -/
def unwrapMember : Val F X → Val F X
  | .dict d => match OD.get d valueKey with
    | some v => v
    | none => .dict d
  | v => v

/-- `flatten` (plugins/flatten.go:73-115).  The second argument is `idx + 1`, the number of
columns still to expand; the cell is `members[idx]`.  `none` is the index panic. -/
def flattenRow (W : World F X) : Nat → OD (Val F X) → Option (List (OD (Val F X)))
  | 0, item => some [item]
  | idx + 1, item =>
    match (OD.keys item)[idx]? with
    | none => none
    | some column =>
      let cell := (OD.get item column).getD .null
      let members := (iterate W cell).map unwrapMember
      if members = [] then flattenRow W idx item
      else
        (members.mapM fun m =>
          flattenRow W idx (OD.update (OD.mergeFrom [] item) column m)).map List.flatten

/-- `flatten(ctx, scope, row_dict, len(members)-1)` (plugins/flatten.go:43-46). -/
def flattenCall (W : World F X) (row : OD (Val F X)) : Option (List (OD (Val F X))) :=
  flattenRow W (OD.keys row).length row

/-- The plugin (plugins/flatten.go:36-53): all input rows in order. -/
def flattenPlugin (W : World F X) (rows : List (OD (Val F X))) : Option (List (OD (Val F X))) :=
  (rows.mapM (flattenCall W)).map List.flatten

end
end Vfilter
