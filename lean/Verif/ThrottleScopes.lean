import Verif.RowScopes
/-!
# The throttler of a scope (scope/scope.go:110, 154-171, 238-249, 343-357)

Which throttler `ChargeOp` of a scope charges, and when a throttler is closed.  What the throttler itself does when it
is charged or closed is modelled in `Conc`.

Throttlers are numbered; `t.Close` of throttler `t` is the destructor number `t`.  Simplifications: calls of one
goroutine at a time (`ChargeOp` does not lock the scope; see the last part); throttlers are not nil (`SetThrottler(nil)` panics when it
takes the method `Close`, scope/scope.go:242).
-/

namespace Vfilter.ThrottleScopes

section
variable {R V : Type} [Inhabited R]

/-- API calls: any call on scopes, the method `NewScope` of scope `s`, and `SetThrottler`. -/
inductive TOp (R V : Type) where
  | op (o : SOp R V)
  | newFrom (s : Nat) (null : R)
  | set (s t : Nat)

/-- The scopes, and the throttler of each (the field `throttler`, scope/scope.go:110). -/
structure TSt (R V : Type) where
  hist : Hist R V
  thr : Nat → Option Nat

/-- A field is written. -/
def put (f : Nat → Option Nat) (n : Nat) (v : Option Nat) : Nat → Option Nat := fun m => if m = n then v else f m

/-- One call.  The factory `NewScope` (scope/scope.go:572-594) sets no throttler, the method (154-171) and `Copy`
(343-357) take that of the scope they are called on; `SetThrottler` (238-243) sets it and adds the destructor. -/
def TSt.step (grow : Nat → Nat) (x : TSt R V) : TOp R V → TSt R V
  | .op (.new null) => ⟨x.hist.step grow (.new null), put x.thr x.hist.next none⟩
  | .op (.copy s) => ⟨x.hist.step grow (.copy s), put x.thr x.hist.next (x.thr s)⟩
  | .op o => ⟨x.hist.step grow o, x.thr⟩
  | .newFrom s null => ⟨x.hist.step grow (.new null), put x.thr x.hist.next (x.thr s)⟩
  | .set s t => ⟨x.hist.step grow (.addDtor s (.mk t [])), put x.thr s (some t)⟩

/-- A history of calls. -/
def run (grow : Nat → Nat) (ops : List (TOp R V)) : TSt R V :=
  ops.foldl (TSt.step grow) ⟨⟨Heap.empty, [], []⟩, fun _ => none⟩

/-- `ChargeOp` (scope/scope.go:245-249): the throttler that is charged, if any. -/
def TSt.charged (x : TSt R V) (s : Nat) : Option Nat := x.thr s

/-- `Close` of throttler `t` has been called. -/
def TSt.closed (x : TSt R V) (t : Nat) : Prop := ∃ s, (s, t) ∈ x.hist.ran

end

/-! ## Two goroutines -/

/-- A Go interface value: the word for its type and the word for its data (the throttler `n` of type `t`). -/
structure Iface where
  ty : Nat
  data : Nat
deriving DecidableEq, Repr

/-- The field `throttler` while one goroutine is in `SetThrottler` and another one in `ChargeOp`.  `wr`: the words that
are still to be written, `got`: what has been read. -/
structure Field where
  ty : Nat
  data : Nat
  wr : Nat
  gotTy : Option Nat
  gotData : Option Nat
deriving DecidableEq, Repr

/-- One step.  `true`: the next word of `new` is written, the type first (scope/scope.go:240; the scope is locked).
`false`: the next word is read, the type first, since it tells if the value is nil (246-247; the scope is not locked). -/
def Field.step (new : Iface) (f : Field) : Bool → Field
  | true => match f.wr with
    | 0 => f
    | 1 => { f with data := new.data, wr := 0 }
    | _ + 2 => { f with ty := new.ty, wr := 1 }
  | false => match f.gotTy, f.gotData with
    | none, _ => { f with gotTy := some f.ty }
    | some _, none => { f with gotData := some f.data }
    | some _, some _ => f

/-- The value whose `ChargeOp` is called, if it has been read. -/
def Field.read (f : Field) : Option Iface :=
  match f.gotTy, f.gotData with
  | some t, some d => some ⟨t, d⟩
  | _, _ => none

/-- Both at the same time, in some order. -/
def race (old new : Iface) (sched : List Bool) : Field := sched.foldl (Field.step new) ⟨old.ty, old.data, 2, none, none⟩

end Vfilter.ThrottleScopes
