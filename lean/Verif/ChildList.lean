import Verif.Base
/-!
# The list of children of a scope

`Copy` adds the new scope to the list of children of its parent, and takes the empty places out of the list when there are
more than 10 of them (scope/scope.go:362-382); a child that is closed empties its place (517-529).  Both happen under the
lock of the parent, so what goroutines do is a sequence of these steps.  Scopes are their ids, which are never used twice
(`NextId`, 725-727).
-/

namespace Vfilter.ChildList

/-- The list with its empty places, the number of empty places that is kept, and the number of messages printed about
lists that are too long. -/
structure St where
  children : List (Option Nat)
  garbage : Nat
  warnings : Nat
deriving DecidableEq, Repr

def St.init : St := ⟨[], 0, 0⟩

inductive Op where
  /-- `Copy` makes the scope `id` -/
  | copy (id : Nat)
  /-- the scope `id`, a child or not, is closed (scope/scope.go:517-529) -/
  | close (id : Nat)
deriving DecidableEq, Repr

/-- Taking out the empty places (scope/scope.go:362-372). -/
def compact (σ : St) : St :=
  if 10 < σ.garbage then { σ with children := σ.children.filter (·.isSome), garbage := 0 } else σ

/-- Emptying the places of `id` (scope/scope.go:521-526). -/
def clear (id : Nat) : List (Option Nat) → List (Option Nat) × Nat
  | [] => ([], 0)
  | c :: cs => if c = some id then (none :: (clear id cs).1, (clear id cs).2 + 1) else (c :: (clear id cs).1, (clear id cs).2)

def step (σ : St) : Op → St
  | .copy id =>
    { compact σ with
      children := (compact σ).children ++ [some id]
      /- scope/scope.go:375-378 -/
      warnings := σ.warnings + if 1000 < (compact σ).children.length then 1 else 0 }
  | .close id => { σ with children := (clear id σ.children).1, garbage := σ.garbage + (clear id σ.children).2 }

/-- After some steps. -/
def after (h : List Op) : St := h.foldl step .init

end Vfilter.ChildList
