import Verif.Base
/-!
# Lazy values read by several goroutines (lazy.go)

The cache of one `LazyRowImpl` while any number of goroutines call `Get` and `MaterializedLazyRow`
on it (lazy.go:60-76, 95-118).

What a getter does is left open: it is called, and some time later it returns one of the values that
it can return.  Getters do not ask their own row, as in `_SelectExpression.Transform`, where the row
is not among the variables of the scope they are evaluated in (vfilter.go:1080-1148).

Simplifications: every access to the cache is one step.  This holds for `LazyRowImpl`, whose cache
is an `ordereddict.Dict` with a lock of its own; the mutex `mu` of the row itself is never used.
Looking into the cache and calling the getter is one step, because the getter may take as long as it
likes in any case.  No column is added while the row is read.  `LazyExprImpl.Reduce` follows the same
plan with one column (lazy.go:172-178), but its `Value` has no lock at all and is read again when it
is returned; see `LazyWord`.
-/

namespace Vfilter.LazyConc

section
variable (K V : Type)

/-- What can be observed, in the order in which it happens. -/
inductive Ev where
  /-- the getter of the column is called by a goroutine -/
  | evaluating (i : Nat) (k : K)
  /-- the getter returns -/
  | got (i : Nat) (k : K) (v : V)
  /-- the value is put into the cache -/
  | stored (i : Nat) (k : K) (v : V)
  /-- the caller is given the value -/
  | returned (i : Nat) (k : K) (v : V)
  /-- the row has no such column -/
  | absent (i : Nat) (k : K)

/-- What a goroutine is doing: evaluating a column (`val` is none), or about to store or return its
value.  `keep` tells `Get` from `MaterializedLazyRow`, which does not store (lazy.go:102-112). -/
structure Job where
  key : K
  keep : Bool
  val : Option V

/-- The cache, what the goroutines are doing, and what has happened. -/
structure LSt where
  cache : K → Option V
  jobs : Nat → Option (Job K V)
  log : List (Ev K V)

/-- The steps of goroutine `i`. -/
inductive Act where
  /-- `Get(k)`, or the turn of column `k` in `MaterializedLazyRow` -/
  | ask (i : Nat) (k : K) (keep : Bool)
  /-- the getter returns `v` -/
  | yield (i : Nat) (v : V)
  /-- the rest of the call: the value is stored, if it is kept, and returned -/
  | done (i : Nat)
end

section
variable {K V : Type} [DecidableEq K]

/-- Nothing was asked for yet (lazy.go:82-89). -/
def LSt.init : LSt K V := ⟨fun _ => none, fun _ => none, []⟩

/-- What goroutine `i` does from now on. -/
def LSt.put (σ : LSt K V) (i : Nat) (j : Option (Job K V)) : LSt K V :=
  { σ with jobs := fun n => if n = i then j else σ.jobs n }

/-- Something happens. -/
def LSt.say (σ : LSt K V) (l : List (Ev K V)) : LSt K V := { σ with log := σ.log ++ l }

/-- One step of a row with the columns `cols`, whose getters can return the values `can`
(lazy.go:60-76, 102-112). -/
def step (cols : K → Bool) (can : K → V → Bool) (σ : LSt K V) : Act K V → Option (LSt K V)
  | .ask i k keep =>
    match σ.jobs i with
    | some _ => none
    | none =>
      match σ.cache k with
      | some v => some (σ.say [.returned i k v])
      | none =>
        if cols k then some ((σ.put i (some ⟨k, keep, none⟩)).say [.evaluating i k])
        else some (σ.say [.absent i k])
  | .yield i v =>
    match σ.jobs i with
    | some ⟨k, keep, none⟩ =>
      if can k v then some ((σ.put i (some ⟨k, keep, some v⟩)).say [.got i k v]) else none
    | _ => none
  | .done i =>
    match σ.jobs i with
    | some ⟨k, true, some v⟩ =>
      some (({ σ with cache := fun k' => if k' = k then some v else σ.cache k' }.put i none).say
        [.stored i k v, .returned i k v])
    | some ⟨k, false, some v⟩ => some ((σ.put i none).say [.returned i k v])
    | _ => none

/-- `σ'` can come after `σ`. -/
inductive Later (cols : K → Bool) (can : K → V → Bool) (σ : LSt K V) : LSt K V → Prop where
  | refl : Later cols can σ σ
  | step {σ' σ'' : LSt K V} (a : Act K V) : Later cols can σ σ' → step cols can σ' a = some σ'' → Later cols can σ σ''

/-- Every schedule of any number of goroutines. -/
def Reach (cols : K → Bool) (can : K → V → Bool) (σ : LSt K V) : Prop := Later cols can LSt.init σ

end
end Vfilter.LazyConc
