import Verif.Base
/-!
# What syntax nodes remember, with several goroutines

Nodes of a parsed query keep what they have worked out from their text: the value of a number or a constant
(`_Value.Reduce`, vfilter.go:1665-1715; `visitValue`, visitor.go:719-780), the parts of a name (`_SymbolRef.getFunction`,
vfilter.go:1739-1749; `Plugin.Eval`, 1218-1224), the parameters of a LET (`VQL.getParameters`, 539-580) and the name of
a column (`_AliasedExpression.GetName`, 828-850).  Workers of `foreach` share the nodes.

A section between `Lock` and `Unlock` is one step.  Simplifications: what is worked out is a function of the node (it
does not depend on the scope, which is only used for messages); what the evaluator does afterwards with the parts of a
name is left out.
-/

namespace Vfilter.NodeCache

/-- How a node keeps its value. -/
inductive Kind where
  /-- looked for and stored in one section (vfilter.go:544-580, 1218-1224, 1666-1713, 1739-1749) -/
  | one
  /-- looked for in one section and stored in another one (vfilter.go:829-847) -/
  | two
deriving DecidableEq

/-- The nodes of a query: how each keeps its value, the value worked out from its text, and whether its name begins
with a minus sign (vfilter.go:1743-1746). -/
structure Nodes (A : Type) where
  kind : Nat → Kind
  value : Nat → A
  minus : Nat → Bool

/-- A call in progress or finished; `negate` says that the caller has to negate what it finds (`negated`,
vfilter.go:1744). -/
inductive PC (A : Type) where
  | start (n : Nat)
  | miss (n : Nat)
  | fin (n : Nat) (a : A) (negate : Bool)
deriving DecidableEq

/-- The values that nodes keep, and the calls. -/
structure St (A : Type) where
  cell : Nat → Option A
  calls : List (PC A)

variable {A : Type}

/-- A new query, and calls that are about to be made on its nodes. -/
def St.init (ns : List Nat) : St A := ⟨fun _ => none, ns.map .start⟩

/-- Storing a value in a node. -/
def put (cell : Nat → Option A) (n : Nat) (a : A) : Nat → Option A := fun k => if k = n then some a else cell k

/-- The next step of a call: what nodes keep then, and the call then. -/
def advance (N : Nodes A) (cell : Nat → Option A) : PC A → (Nat → Option A) × PC A
  | .start n => match cell n with
    | some a => (cell, .fin n a false)
    | none => match N.kind n with
      | .one => (put cell n (N.value n), .fin n (N.value n) (N.minus n))
      | .two => (cell, .miss n)
  | .miss n => (put cell n (N.value n), .fin n (N.value n) (N.minus n))
  | .fin n a g => (cell, .fin n a g)

/-- Step of call number `i`. -/
def step (N : Nodes A) (σ : St A) (i : Nat) : St A :=
  match σ.calls[i]? with
  | none => σ
  | some c => ⟨(advance N σ.cell c).1, σ.calls.set i (advance N σ.cell c).2⟩

/-- A schedule says which call goes on, step by step. -/
def run (N : Nodes A) (σ : St A) (is : List Nat) : St A := is.foldl (step N) σ

end Vfilter.NodeCache
