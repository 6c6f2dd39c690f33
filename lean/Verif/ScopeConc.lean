import Verif.Base
/-!
# Scopes used by several goroutines

`Copy`, `AddDestructor` and `Close` (scope/scope.go) as steps of any number of goroutines.
A section between `Lock` and `Unlock` is one step, except `AddDestructor`, which holds the lock
of the scope but reads and writes the destructors in two sections of their own mutex.  A
goroutine that is not inside a call may begin any call on any scope at any time, so every program is
covered; destructors are run by goroutines that may do the same.

Simplifications: variables, aggregator contexts and everything else of a scope are left out (see
`Verif.Scope`); a registration is a number, given when it is accepted; a scope is known by its index.
-/
set_option linter.all false

namespace Vfilter.ScopeConc

/-- What `Close` is about in a scope (scope/scope.go:88-115). -/
structure Sc where
  parent : Option Nat
  children : List (Option Nat)
  garbage : Nat
  /-- `destructors.fn` (scope/scope.go:33) -/
  fn : List Nat
  /-- `destructors.is_destroyed` (scope/scope.go:34) -/
  destroyed : Bool
  deriving DecidableEq

/-- A call in progress. -/
inductive Frame where
  /-- `AddDestructor` between `IsDestroyed` and `AddDestructor` (scope/scope.go:470-477); the scope is locked. -/
  | adding (s : Nat)
  /-- `Close` with the children of the snapshot still to close (scope/scope.go:498, 511-515). -/
  | kids (s : Nat) (todo : List Nat)
  /-- `Close` before try `n` (scope/scope.go:543). -/
  | tries (s n : Nat)
  /-- `Close` with the removed destructors still to run, in this order (scope/scope.go:551). -/
  | batch (s n : Nat) (todo : List Nat)
  /-- `Close` waiting for a destructor (scope/scope.go:559-564). -/
  | wait (s n r : Nat) (todo : List Nat)
  /-- `Close` before the deferred `SetDestroyed` (scope/scope.go:539). -/
  | done (s : Nat)
  deriving DecidableEq

/-- What can be seen. -/
inductive Ev where
  | copied (s c : Nat)
  | accepted (s r : Nat)
  | refused (s : Nat)
  /-- `Close` of `s` begins: it reads the list of children. -/
  | closing (s : Nat)
  /-- A destructor of `s` is started. -/
  | started (s r : Nat)
  | finished (r : Nat)
  /-- A destructor has not finished within 60 seconds. -/
  | late (r : Nat)
  /-- `Close` of `s` returns. -/
  | closed (s : Nat)
  deriving DecidableEq

/-- The scopes, the calls each goroutine is in (innermost first), the next registration and what has
happened. -/
structure CSt where
  scopes : List Sc
  threads : List (List Frame)
  next : Nat
  log : List Ev
  deriving DecidableEq

/-- Nothing yet. -/
def CSt.init : CSt := ⟨[], [], 0, []⟩

/-- The scope is not locked by an `AddDestructor`. -/
def CSt.free (σ : CSt) (s : Nat) : Bool := σ.threads.all (fun st => !st.contains (.adding s))

def CSt.put (σ : CSt) (i : Nat) (st : List Frame) : CSt := { σ with threads := σ.threads.set i st }
def CSt.onSc (σ : CSt) (s : Nat) (f : Sc → Sc) : CSt := { σ with scopes := σ.scopes.modify s f }
def CSt.count (σ : CSt) : CSt := { σ with next := σ.next + 1 }
def CSt.say (σ : CSt) (e : Ev) : CSt := { σ with log := σ.log ++ [e] }

/-- The children are put together if more than 10 slots are empty (scope/scope.go:365-374). -/
def compact (x : Sc) : Sc :=
  if x.garbage > 10 then { x with children := x.children.filter (·.isSome), garbage := 0 } else x

/-- `Copy` (scope/scope.go:343-384) adds the child. -/
def link (c : Nat) (x : Sc) : Sc := { compact x with children := (compact x).children ++ [some c] }

/-- Clearing the slot of `c` (scope/scope.go:520-526). -/
def clear (c : Nat) (x : Sc) : Sc :=
  { x with children := x.children.map (fun k => if k = some c then none else k)
           garbage := x.garbage + x.children.count (some c) }

/-- Who does what: `i` is the number of the goroutine. -/
inductive Act where
  | root | spawn | copy (s : Nat) | refuse (s : Nat) | check (i s : Nat) | append (i : Nat) | close (i s : Nat)
  | child (i : Nat) | unlink (i : Nat) | remove (i : Nat) | start (i : Nat) | finish (s r : Nat) | wake (i : Nat)
  | late (i : Nat) | next (i : Nat) | ret (i : Nat)

/-- The step begins no call: it continues one or ends a destructor. -/
def Act.goesOn : Act → Bool
  | .root | .spawn | .copy _ | .refuse _ | .check _ _ | .close _ _ => false
  | _ => true

/-- The step, if it is possible. -/
def step (σ : CSt) : Act → Option CSt
  /- NewScope (scope/scope.go:575-600) -/
  | .root => some { σ with scopes := σ.scopes ++ [Sc.mk none [] 0 [] false] }
  | .spawn => some { σ with threads := σ.threads ++ [[]] }
  /- Copy (scope/scope.go:343-384) -/
  | .copy s => match σ.scopes[s]? with
    | some _ => if σ.free s then
        some (CSt.say { σ with scopes := σ.scopes.modify s (link σ.scopes.length) ++ [Sc.mk (some s) [] 0 [] false] }
          (.copied s σ.scopes.length))
      else none
    | none => none
  /- AddDestructor on a destroyed scope (scope/scope.go:470-475) -/
  | .refuse s => match σ.scopes[s]? with
    | some x => if x.destroyed && σ.free s then some (σ.say (.refused s)) else none
    | none => none
  /- AddDestructor: the scope is not destroyed (scope/scope.go:465-470) -/
  | .check i s => match σ.threads[i]?, σ.scopes[s]? with
    | some [], some x => if !x.destroyed && σ.free s then some (σ.put i [.adding s]) else none
    | _, _ => none
  /- AddDestructor: the destructor is added (scope/scope.go:477, 52-57) -/
  | .append i => match σ.threads[i]? with
    | some (.adding s :: st) =>
      some ((((σ.put i st).onSc s (fun x => { x with fn := x.fn ++ [σ.next] })).say (.accepted s σ.next)).count)
    | _ => none
  /- Close reads its children (scope/scope.go:492-507) -/
  | .close i s => match σ.threads[i]?, σ.scopes[s]? with
    | some [], some x => if σ.free s then
        some ((σ.put i [.kids s (x.children.filterMap id)]).say (.closing s))
      else none
    | _, _ => none
  /- child.Close() (scope/scope.go:511-515) -/
  | .child i => match σ.threads[i]? with
    | some (.kids s (c :: todo) :: st) => match σ.scopes[c]? with
      | some x => if σ.free c then
          some ((σ.put i (.kids c (x.children.filterMap id) :: .kids s todo :: st)).say (.closing c))
        else none
      | none => none
    | _ => none
  /- Close leaves the parent (scope/scope.go:517-528) -/
  | .unlink i => match σ.threads[i]? with
    | some (.kids s [] :: st) => match σ.scopes[s]? with
      | some x => match x.parent with
        | none => some (σ.put i (.tries s 0 :: st))
        | some p => if σ.free p then some ((σ.put i (.tries s 0 :: st)).onSc p (clear s)) else none
      | none => none
    | _ => none
  /- RemoveDestructors (scope/scope.go:543-549, 59-66) -/
  | .remove i => match σ.threads[i]? with
    | some (.tries s n :: st) => match σ.scopes[s]? with
      | some x => if n < 10 ∧ x.fn ≠ [] then
          some ((σ.put i (.batch s n x.fn.reverse :: st)).onSc s (fun x => { x with fn := [] }))
        else some (σ.put i (.done s :: st))
      | none => none
    | _ => none
  /- the goroutine of a destructor is started (scope/scope.go:551-557) -/
  | .start i => match σ.threads[i]? with
    | some (.batch s n (r :: rest) :: st) => some ((σ.put i (.wait s n r rest :: st)).say (.started s r))
    | _ => none
  | .finish s r => if .started s r ∈ σ.log ∧ .finished r ∉ σ.log then some (σ.say (.finished r)) else none
  /- cancel() (scope/scope.go:556, 563) -/
  | .wake i => match σ.threads[i]? with
    | some (.wait s n r rest :: st) => if .finished r ∈ σ.log then some (σ.put i (.batch s n rest :: st)) else none
    | _ => none
  /- the 60 seconds are over (scope/scope.go:552, 563) -/
  | .late i => match σ.threads[i]? with
    | some (.wait s n r rest :: st) => some ((σ.put i (.batch s n rest :: st)).say (.late r))
    | _ => none
  | .next i => match σ.threads[i]? with
    | some (.batch s n [] :: st) => some (σ.put i (.tries s (n + 1) :: st))
    | _ => none
  /- SetDestroyed and return (scope/scope.go:539, 38-43) -/
  | .ret i => match σ.threads[i]? with
    | some (.done s :: st) => some (((σ.put i st).onSc s (fun x => { x with destroyed := true })).say (.closed s))
    | _ => none

/-- A schedule. -/
def run (σ : CSt) : List Act → Option CSt
  | [] => some σ
  | a :: as => match step σ a with
    | some σ' => run σ' as
    | none => none

/-- The states that can be reached. -/
def Reach (σ : CSt) : Prop := ∃ as, run .init as = some σ

/-- No call is in progress. -/
def CSt.quiet (σ : CSt) : Prop := ∀ st ∈ σ.threads, st = []

end Vfilter.ScopeConc
