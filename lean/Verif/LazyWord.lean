import Verif.Base
/-!
# One lazy argument read by several goroutines (lazy.go:171-178)

`LazyExprImpl.Reduce` keeps the value of an argument in the field `Value`, without a lock.  The field is a
Go interface, which is two machine words: the type and the data.  Each word is read and written in one step,
an interface is not.  A nil interface is two zero words.

What the expression does is left open: it is evaluated, and some time later it gives one of the values that
it can give.

Simplifications: the Go memory model does not say in which order the two words are written; both orders are
modelled (`tyFirst`).  Words are read in the order type, data, and writes are seen by all goroutines at once
and in the order in which they are made, so real executions can be worse than the ones here, not better.
`ReduceWithScope` does not use the field (lazy.go:136-169); it is the step from `ask` to `yield`.
-/

namespace Vfilter.LazyWord

section
variable (T D : Type)

/-- What can be observed, in the order in which it happens. -/
inductive Ev where
  /-- the expression begins to be evaluated by a goroutine -/
  | evaluating (i : Nat)
  /-- it is evaluated; `none` is nil -/
  | got (i : Nat) (v : Option (T × D))
  /-- the caller of `Reduce` is given an interface with these words -/
  | returned (i : Nat) (t : Option T) (d : Option D)

/-- Where a goroutine is in `Reduce`. -/
inductive Pc where
  /-- not in `Reduce` -/
  | idle
  | evaluating
  /-- about to store the first word of the value -/
  | storing (v : Option (T × D))
  /-- about to store the second word -/
  | halfway (v : Option (T × D))
  /-- about to read the field in order to return it -/
  | reading
  /-- the type was read -/
  | half (t : Option T)

/-- The field, where the goroutines are, and what has happened. -/
structure WSt where
  ty : Option T
  data : Option D
  pc : Nat → Pc T D
  log : List (Ev T D)

/-- The steps of goroutine `i`. -/
inductive Act where
  /-- `Reduce` is called: `if self.Value != nil` -/
  | ask (i : Nat)
  /-- `ReduceWithScope` returns -/
  | yield (i : Nat) (v : Option (T × D))
  /-- a word is written -/
  | write (i : Nat)
  /-- a word is read -/
  | read (i : Nat)
end

section
variable {T D : Type}

/-- `NewLazyExpr` (lazy.go:127-134). -/
def WSt.init : WSt T D := ⟨none, none, fun _ => .idle, []⟩

/-- Goroutine `i` goes on at `p`. -/
def WSt.goto (σ : WSt T D) (i : Nat) (p : Pc T D) : WSt T D :=
  { σ with pc := fun n => if n = i then p else σ.pc n }

/-- Something happens. -/
def WSt.say (σ : WSt T D) (e : Ev T D) : WSt T D := { σ with log := σ.log ++ [e] }

/-- One of the words of the field is written. -/
def WSt.word (σ : WSt T D) (ty : Bool) (v : Option (T × D)) : WSt T D :=
  if ty then { σ with ty := v.map (·.1) } else { σ with data := v.map (·.2) }

/-- One step of `LazyExprImpl.Reduce` (lazy.go:172-178), for an expression that can give the values `can`. -/
def step (tyFirst : Bool) (can : Option (T × D) → Prop) [DecidablePred can] (σ : WSt T D) : Act T D → Option (WSt T D)
  | .ask i =>
    match σ.pc i with
    | .idle => match σ.ty with
      | some _ => some (σ.goto i .reading)
      | none => some ((σ.goto i .evaluating).say (.evaluating i))
    | _ => none
  | .yield i v =>
    match σ.pc i with
    | .evaluating => if can v then some ((σ.goto i (.storing v)).say (.got i v)) else none
    | _ => none
  | .write i =>
    match σ.pc i with
    | .storing v => some ((σ.word tyFirst v).goto i (.halfway v))
    | .halfway v => some ((σ.word (!tyFirst) v).goto i .reading)
    | _ => none
  | .read i =>
    match σ.pc i with
    | .reading => some (σ.goto i (.half σ.ty))
    | .half t => some ((σ.goto i .idle).say (.returned i t σ.data))
    | _ => none

/-- `σ'` can come after `σ` when only the steps that satisfy `ok` are taken. -/
inductive Later (tyFirst : Bool) (can : Option (T × D) → Prop) [DecidablePred can] (ok : WSt T D → Act T D → Prop)
    (σ : WSt T D) : WSt T D → Prop where
  | refl : Later tyFirst can ok σ σ
  | step {σ' σ'' : WSt T D} (a : Act T D) : Later tyFirst can ok σ σ' → ok σ' a →
      step tyFirst can σ' a = some σ'' → Later tyFirst can ok σ σ''

/-- Every schedule. -/
def anyStep (_ : WSt T D) (_ : Act T D) : Prop := True

/-- One call at a time: `Reduce` is called only when no other call is in progress. -/
def alone (σ : WSt T D) : Act T D → Prop
  | .ask _ => ∀ j, σ.pc j = .idle
  | _ => True

/-- A run of given steps. -/
def runs (tyFirst : Bool) (can : Option (T × D) → Prop) [DecidablePred can] : WSt T D → List (Act T D) → Option (WSt T D)
  | σ, [] => some σ
  | σ, a :: as => (step tyFirst can σ a).bind (fun σ' => runs tyFirst can σ' as)

end
end Vfilter.LazyWord
