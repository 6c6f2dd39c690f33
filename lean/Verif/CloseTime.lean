import Verif.Base
/-!
# How long `Close` waits for destructors

The last part of `Scope.Close` (scope/scope.go:536-567): destructors are taken out of the list and started one after the
other, each in a goroutine of its own; `Close` waits for each of them at most 60 seconds.  Destructors may add new ones,
which are taken in the next of at most 10 rounds.

Time passes in seconds, and only while `Close` waits: what `Close` does itself takes no time.  Closing the children, which
comes before, is left out (C20, C80).
-/

namespace Vfilter.CloseTime

/-- Where `Close` is. -/
inductive PC where
  /-- before `RemoveDestructors` (scope/scope.go:541) -/
  | take
  /-- before the next destructor of those taken is started (scope/scope.go:547) -/
  | next (batch : List Nat)
  /-- waiting for destructor number `n`, started at time `t` (scope/scope.go:555-559) -/
  | wait (n t : Nat) (batch : List Nat)
  | done
deriving DecidableEq, Repr

/-- The time; the destructors in the list; the number of rounds; those that run, by their number, with the time of their
start; those that have been started, in order. -/
structure St where
  clock : Nat
  pending : List Nat
  rounds : Nat
  pc : PC
  running : List (Nat × Nat)
  started : List Nat
deriving DecidableEq, Repr

/-- `Close` of a scope with these destructors, in the order of their registration. -/
def St.init (ds : List Nat) : St := ⟨0, ds, 0, .take, [], []⟩

inductive Act where
  /-- `Close` goes on -/
  | close
  /-- one of the running destructors returns -/
  | finish (k : Nat)
  /-- a destructor is added (scope/scope.go:463-480) -/
  | add (d : Nat)
  /-- a second passes -/
  | tick
deriving DecidableEq, Repr

/-- Destructor number `n` runs. -/
def runs (σ : St) (n : Nat) : Bool := σ.running.any (fun x => x.1 == n)

/-- One step; `none` if it is not possible. -/
def step (σ : St) : Act → Option St
  | .close => match σ.pc with
    | .take =>
      /- scope/scope.go:539-545 -/
      if 10 ≤ σ.rounds ∨ σ.pending = [] then some { σ with pc := .done }
      else some { σ with pc := .next σ.pending.reverse, pending := [], rounds := σ.rounds + 1 }
    | .next [] => some { σ with pc := .take }
    | .next (d :: r) =>
      some { σ with pc := .wait σ.started.length σ.clock r, started := σ.started ++ [d]
                    running := σ.running ++ [(σ.started.length, σ.clock)] }
    | .wait n t r => if runs σ n = false ∨ t + 60 ≤ σ.clock then some { σ with pc := .next r } else none
    | .done => none
  | .finish k => if k < σ.running.length then some { σ with running := σ.running.eraseIdx k } else none
  | .add d => if σ.pc = .done then none else some { σ with pending := σ.pending ++ [d] }
  | .tick => match σ.pc with
    | .wait n t _ => if runs σ n = true ∧ σ.clock < t + 60 then some { σ with clock := σ.clock + 1 } else none
    | _ => none

def run (σ : St) : List Act → Option St
  | [] => some σ
  | a :: as => match step σ a with
    | some σ' => run σ' as
    | none => none

end Vfilter.CloseTime
