import Verif.Ops
/-!
# Dispatchers as objects: registering and copying
-/

namespace Vfilter
section
variable {α : Type}

/-- Operations on dispatchers: register implementations on one, or copy one
(`Copy`, protocols/protocol_add.go:21-24; `AddImpl`, 109-113). -/
inductive RegOp (α : Type) where
  | register (d : Nat) (elements : List α)
  | copy (d : Nat)

/-- The implementation lists of all dispatchers created so far. -/
def regStep (st : List (List α)) : RegOp α → List (List α)
  | .register d els => st.modify d (fun l => addImpl l els)
  | .copy d => match st[d]? with
    | some l => st ++ [l]
    | none => st

end
end Vfilter
