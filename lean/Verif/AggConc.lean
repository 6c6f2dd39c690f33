import Verif.Aggregates
/-!
# Aggregate functions called by several goroutines

Calls of aggregate functions of a query that several goroutines evaluate, as the workers of foreach do
(plugins/foreach.go:95-187): finding the function of the call site (`callFunction`, vfilter.go:1964-2025), the
aggregator context (`GetAggregatorCtx`, scope/scope.go:131-143) and the update (`Modify`,
aggregators/aggregators.go:14-23).  A section between `Lock` and `Unlock` is one step.

Simplifications: calls in progress are kept in a list, whoever makes them, so a call that is made while the arguments
of another one are evaluated is a call like any other; an operation carries the values of its arguments; `GetAggregatorCtx`
is one step, as it holds the locks of all scopes from the one it is called on to the one that has the context.
-/
set_option linter.all false

namespace Vfilter.AggConc
variable {F X : Type} [FloatOps F]

/-- What `GetAggregatorCtx` sees of a scope: its parent and its context (scope/scope.go:88-106). -/
structure ASc where
  parent : Option Nat
  ctx : Option Nat
  deriving DecidableEq

/-- A call in progress at a call site, in a scope. -/
inductive Call (F X : Type) where
  /-- before the function of the call site is read (vfilter.go:1968-1971) -/
  | start (node scope : Nat) (op : AggOp F X)
  /-- the call site had no function (vfilter.go:2004) -/
  | copy (node scope : Nat) (op : AggOp F X)
  /-- before the copy is stored (vfilter.go:2006-2008) -/
  | store (node scope : Nat) (op : AggOp F X) (id : Nat)
  /-- before `GetAggregatorCtx` (functions/aggregates.go:126) -/
  | call (node scope : Nat) (op : AggOp F X) (id : Nat)
  /-- before `Modify` -/
  | modify (node scope : Nat) (op : AggOp F X) (id ctx : Nat)

/-- The call site. -/
def Call.node : Call F X → Nat
  | .start n .. => n
  | .copy n .. => n
  | .store n .. => n
  | .call n .. => n
  | .modify n .. => n

/-- A call that has returned. -/
structure Done (F X : Type) where
  node : Nat
  scope : Nat
  ctx : Nat
  id : Nat
  op : AggOp F X
  result : Cell F X

/-- The scopes, the contexts, the function each call site has, the counter of instances
(functions/aggregates.go:51-55), the calls in progress and those that have returned. -/
structure ASt (F X : Type) where
  scopes : List ASc
  ctxs : List (AggCtx F X)
  fns : Nat → Option Nat
  last : Nat
  calls : List (Call F X)
  log : List (Done F X)

def ASt.init : ASt F X := ⟨[], [], fun _ => none, 0, [], []⟩

/-- The key of an instance, `id_1`, `id_2` and so on (functions/aggregates.go:82-87); only that they differ matters. -/
def instId (n : Nat) : Str := List.replicate n 0

/-- The scope whose context is used: the nearest that has one, or the root (scope/scope.go:135-141). -/
def owner (l : List ASc) : Nat → Nat → Nat
  | 0, s => s
  | f + 1, s => match l[s]? with
    | some ⟨some p, none⟩ => owner l f p
    | _ => s

def ownerOf (σ : ASt F X) (s : Nat) : Nat := owner σ.scopes σ.scopes.length s

/-- The context of a scope (scope/scope.go:131-143), made if there is none. -/
def getCtx (σ : ASt F X) (s : Nat) : ASt F X × Nat :=
  match σ.scopes[ownerOf σ s]? with
  | some ⟨_, some c⟩ => (σ, c)
  | _ => ({ σ with scopes := σ.scopes.modify (ownerOf σ s) (fun x => { x with ctx := some σ.ctxs.length })
                   ctxs := σ.ctxs ++ [[]] }, σ.ctxs.length)

inductive Act (F X : Type) where
  | root | copyScope (s : Nat) | fresh (s : Nat)
  | begin (node scope : Nat) (op : AggOp F X)
  | step (i : Nat)

/-- Continuing a call. -/
def advance (W : World F X) (σ : ASt F X) (i : Nat) : Call F X → ASt F X
  | .start n s op => match σ.fns n with
    | some id => { σ with calls := σ.calls.set i (.call n s op id) }
    | none => { σ with calls := σ.calls.set i (.copy n s op) }
  /- CopyFunction gives a new instance (vfilter.go:2004, functions/aggregates.go:82-87) -/
  | .copy n s op => { σ with calls := σ.calls.set i (.store n s op (σ.last + 1)), last := σ.last + 1 }
  | .store n s op id =>
    { σ with calls := σ.calls.set i (.call n s op id), fns := fun k => if k = n then some id else σ.fns k }
  | .call n s op id => { (getCtx σ s).1 with calls := σ.calls.set i (.modify n s op id (getCtx σ s).2) }
  | .modify n s op id c =>
    let r := aggCall W (σ.ctxs.getD c []) (instId id) op
    { σ with ctxs := σ.ctxs.set c r.1, calls := σ.calls.eraseIdx i, log := σ.log ++ [⟨n, s, c, id, op, r.2⟩] }

def step (W : World F X) (σ : ASt F X) : Act F X → Option (ASt F X)
  | .root => some { σ with scopes := σ.scopes ++ [⟨none, none⟩] }
  /- Copy: no context of its own (scope/scope.go:343-384) -/
  | .copyScope s => if s < σ.scopes.length then some { σ with scopes := σ.scopes ++ [⟨some s, none⟩] } else none
  /- SetAggregatorCtx with a new context (scope/scope.go:119-128, grouper/grouper.go:60-69) -/
  | .fresh s => if s < σ.scopes.length then
      some { σ with scopes := σ.scopes.modify s (fun x => { x with ctx := some σ.ctxs.length }), ctxs := σ.ctxs ++ [[]] }
    else none
  | .begin n s op => if s < σ.scopes.length then some { σ with calls := σ.calls ++ [.start n s op] } else none
  | .step i => match σ.calls[i]? with
    | some c => some (advance W σ i c)
    | none => none

def run (W : World F X) (σ : ASt F X) : List (Act F X) → Option (ASt F X)
  | [] => some σ
  | a :: as => match step W σ a with
    | some σ' => run W σ' as
    | none => none

/-- The states that can be reached. -/
def Reach (W : World F X) (σ : ASt F X) : Prop := ∃ as, run W .init as = some σ

end Vfilter.AggConc
