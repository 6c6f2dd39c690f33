import Verif.Base
/-!
# Scopes (scope/scope.go)

One heap holds all scopes ever created, the backing arrays of their variable stacks
(Go slices share backing arrays, so `append` is modelled on them), and the aggregator
contexts.  Scope identifiers are heap positions (`NextId`, scope/scope.go:738-740,
never repeats).
-/

namespace Vfilter

/-! ## Variable lookup -/

/-- The loop of `_ResolveVars` (scope/scope.go:648-683) over the variable sets from the
most recent to the oldest.  `assoc` is `scope.Associative(subscope, field)`: the element
(`none` is Go `nil`) and whether it is present.  `nul` is `types.Null{}`. -/
def resolveLoop {R V : Type} (assoc : R → Str → Option V × Bool) (nul : V) (field : Str) :
    List R → Option V → Option V × Bool
  | [], dflt => (dflt, dflt.isSome)
  | r :: rs, dflt =>
    match assoc r field with
    | (e, true) => (some (e.getD nul), true)
    | (e, false) =>
      resolveLoop assoc nul field rs (if e.isSome && dflt.isNone then e else dflt)

/-- `_ResolveVars` (scope/scope.go:648-683); `vars` in the order they were appended. -/
def resolveVars {R V : Type} (assoc : R → Str → Option V × Bool) (nul : V) (vars : List R)
    (field : Str) : Option V × Bool :=
  resolveLoop assoc nul field vars.reverse none

/-! ## The scope heap -/

/-- A destructor: an identity and the destructors it registers on its own scope when it
runs ("destructors may schedule a new destructor to retry", scope/scope.go:555).
Simplified: a destructor always finishes within the 60 second wait, and does not
register on other scopes, copy or close scopes. -/
inductive Dtor where
  | mk (id : Nat) (adds : List Dtor)

/-- A Go slice: backing array and length; the capacity is the length of the array. -/
structure Slice where
  arr : Nat
  len : Nat
  deriving DecidableEq, Repr

/-- `Scope` (scope/scope.go:84-116).  Dispatcher, throttler and explainer are omitted. -/
structure ScopeRec where
  vars : Slice
  depth : Nat
  parent : Option Nat
  /-- `children`; cleared slots are `none` -/
  children : List (Option Nat)
  garbage : Nat
  ag : Option Nat
  dtors : List Dtor
  destroyed : Bool

/-- The heap. `R` are rows (variable sets), `V` aggregator values. -/
structure Heap (R V : Type) where
  scopes : List ScopeRec
  arrays : List (List R)
  ctxs : List (OD V)

def Heap.empty {R V : Type} : Heap R V := ⟨[], [], []⟩

section
variable {R V : Type} [Inhabited R]

/-- Contents of a slice. -/
def Heap.view (h : Heap R V) (sl : Slice) : List R := ((h.arrays[sl.arr]?).getD []).take sl.len

/-- Go's `append(sl, x)`: in place when there is capacity, else into a new array whose
extra capacity is any amount `grow len` (Go does not specify it). -/
def appendSlice (grow : Nat → Nat) (arrays : List (List R)) (sl : Slice) (x : R) :
    List (List R) × Slice :=
  let a := (arrays[sl.arr]?).getD []
  if sl.len < a.length then
    (arrays.set sl.arr (a.set sl.len x), { sl with len := sl.len + 1 })
  else
    (arrays ++ [a.take sl.len ++ x :: List.replicate (grow sl.len) default],
     { arr := arrays.length, len := sl.len + 1 })

/-- `NewScope()`, both the factory (scope/scope.go:572-594) and the method
(154-172): one variable set, a new aggregator context, no parent. -/
def Heap.newScope (h : Heap R V) (null : R) : Heap R V :=
  let r : ScopeRec := ⟨⟨h.arrays.length, 1⟩, 0, none, [], 0, some h.ctxs.length, [], false⟩
  ⟨h.scopes ++ [r], h.arrays ++ [[null]], h.ctxs ++ [[]]⟩

/-- `Copy` (scope/scope.go:343-384).  The new scope is the last one in the heap.
`make` + `copy` gives a new array with no spare capacity. -/
def Heap.copy (h : Heap R V) (s : Nat) : Heap R V :=
  match h.scopes[s]? with
  | none => h
  | some r =>
    let child : ScopeRec :=
      ⟨⟨h.arrays.length, r.vars.len⟩, r.depth + 1, some s, [], 0, none, [], false⟩
    let compact := r.garbage > 10
    let children := if compact then r.children.filter (·.isSome) else r.children
    let r' := { r with children := children ++ [some h.scopes.length]
                       garbage := if compact then 0 else r.garbage }
    { h with scopes := h.scopes.set s r' ++ [child]
             arrays := h.arrays ++ [h.view r.vars] }

/-- `AppendVars` (scope/scope.go:395-404). -/
def Heap.appendVars (grow : Nat → Nat) (h : Heap R V) (s : Nat) (x : R) : Heap R V :=
  match h.scopes[s]? with
  | none => h
  | some r =>
    let (arrays, sl) := appendSlice grow h.arrays r.vars x
    { h with scopes := h.scopes.set s { r with vars := sl }, arrays := arrays }

/-- `Resolve` (scope/scope.go:634-646) with `CheckForOverflow` (251-267). -/
def Heap.resolve (assoc : R → Str → Option V × Bool) (nul : V) (h : Heap R V) (s : Nat)
    (field : Str) : Option V × Bool :=
  match h.scopes[s]? with
  | none => (none, false)
  | some r =>
    if r.depth < 1000 then resolveVars assoc nul (h.view r.vars) field
    else (some nul, false)

/-! ## Aggregator contexts -/

/-- `SetAggregatorCtx(nil)` (scope/scope.go:119-128): a new context on this scope. -/
def Heap.setNewAg (h : Heap R V) (s : Nat) : Heap R V :=
  match h.scopes[s]? with
  | none => h
  | some r => { h with scopes := h.scopes.set s { r with ag := some h.ctxs.length }
                       ctxs := h.ctxs ++ [[]] }

/-- `SetAggregatorCtx(ctx)` with an existing context (scope/scope.go:119-128), as used
by the grouper to return to the context of a bin. -/
def Heap.setAg (h : Heap R V) (s c : Nat) : Heap R V :=
  match h.scopes[s]? with
  | none => h
  | some r => { h with scopes := h.scopes.set s { r with ag := some c } }

/-- `GetAggregatorCtx` (scope/scope.go:131-143): follows the parents.  `fuel` bounds the
walk; `getAg` supplies enough.  `none`: a root without context, for which the code
creates one (it cannot occur: both `NewScope`s set one). -/
def Heap.getAgF (h : Heap R V) : Nat → Nat → Option Nat
  | 0, _ => none
  | n + 1, s => match h.scopes[s]? with
    | none => none
    | some r => match r.ag with
      | some c => some c
      | none => match r.parent with
        | some p => h.getAgF n p
        | none => none

/-- `GetAggregatorCtx` (scope/scope.go:131-143). -/
def Heap.getAg (h : Heap R V) (s : Nat) : Option Nat := h.getAgF (s + 1) s

/-- `scope.GetAggregatorCtx().Modify(name, f)` (aggregators/aggregators.go:14-24): the
new value is stored under the name in the context found; returns the new value. -/
def Heap.modifyAg (h : Heap R V) (s : Nat) (name : Str) (f : Option V → V) :
    Heap R V × Option V :=
  match h.getAg s with
  | none => (h, none)
  | some c => match h.ctxs[c]? with
    | none => (h, none)
    | some d =>
      let v := f (OD.get d name)
      ({ h with ctxs := h.ctxs.set c (OD.set d name v) }, some v)

/-! ## Destructors and closing -/

/-- `AddDestructor` (scope/scope.go:465-482); the flag tells whether it was accepted. -/
def Heap.addDtor (h : Heap R V) (s : Nat) (d : Dtor) : Heap R V × Bool :=
  match h.scopes[s]? with
  | none => (h, false)
  | some r =>
    if r.destroyed then (h, false)
    else ({ h with scopes := h.scopes.set s { r with dtors := r.dtors ++ [d] } }, true)

/-- One pass over the removed destructors in reverse order (scope/scope.go:551-566):
what ran, and what was registered meanwhile. -/
def runPass (ds : List Dtor) : List Nat × List Dtor :=
  (ds.reverse.map (fun d => match d with | .mk i _ => i),
   ds.reverse.flatMap (fun d => match d with | .mk _ adds => adds))

/-- The `for try := 0; try < 10; try++` loop (scope/scope.go:543-567): what ran, and
the destructors left over. -/
def runRounds : Nat → List Dtor → List Nat × List Dtor
  | 0, ds => ([], ds)
  | n + 1, ds =>
    if ds.isEmpty then ([], [])
    else
      let p := runPass ds
      let q := runRounds n p.2
      (p.1 ++ q.1, q.2)

/-- Clearing the slot of `s` in its parent (scope/scope.go:516-528). -/
def clearSlot (s : Nat) (r : ScopeRec) : ScopeRec :=
  { r with children := r.children.map (fun c => if c = some s then none else c)
           garbage := r.garbage + (r.children.filter (fun c => c = some s)).length }

/-- The part of `Close` after the children (scope/scope.go:515-569): leave the parent,
run the destructors, mark as destroyed.  The log gets `(scope, destructor)`. -/
def Heap.finish (h : Heap R V) (s : Nat) : Heap R V × List (Nat × Nat) :=
  match h.scopes[s]? with
  | none => (h, [])
  | some r =>
    let scopes := match r.parent with
      | some p => h.scopes.modify p (clearSlot s)
      | none => h.scopes
    let q := runRounds 10 r.dtors
    ({ h with scopes := scopes.modify s (fun r => { r with dtors := q.2, destroyed := true }) },
     q.1.map (fun i => (s, i)))

/-- `Close` (scope/scope.go:492-569): close the children listed when it starts, then
`finish`.  `fuel` bounds the nesting depth; `close` supplies enough. -/
def Heap.closeF : Nat → Heap R V → Nat → Heap R V × List (Nat × Nat)
  | 0, h, _ => (h, [])
  | n + 1, h, s =>
    match h.scopes[s]? with
    | none => (h, [])
    | some r =>
      let kids := r.children.filterMap id
      let step := fun (acc : Heap R V × List (Nat × Nat)) (c : Nat) =>
        let x := Heap.closeF n acc.1 c
        (x.1, acc.2 ++ x.2)
      let a := kids.foldl step (h, [])
      let b := a.1.finish s
      (b.1, a.2 ++ b.2)

/-- `Close` (scope/scope.go:492-569). -/
def Heap.close (h : Heap R V) (s : Nat) : Heap R V × List (Nat × Nat) :=
  h.closeF (h.scopes.length + 1) s

/-- `IsClosed` (scope/scope.go:484-489). -/
def Heap.isClosed (h : Heap R V) (s : Nat) : Bool :=
  match h.scopes[s]? with
  | none => false
  | some r => r.destroyed

/-! ## Histories -/

/-- API calls on scopes. -/
inductive SOp (R V : Type) where
  | new (null : R)
  | copy (s : Nat)
  | append (s : Nat) (x : R)
  | newAg (s : Nat)
  | setAg (s c : Nat)
  | modAg (s : Nat) (name : Str) (f : Option V → V)
  | addDtor (s : Nat) (d : Dtor)
  | close (s : Nat)

/-- One API call. -/
def Heap.step (grow : Nat → Nat) (h : Heap R V) : SOp R V → Heap R V
  | .new null => h.newScope null
  | .copy s => h.copy s
  | .append s x => h.appendVars grow s x
  | .newAg s => h.setNewAg s
  | .setAg s c => if c < h.ctxs.length then h.setAg s c else h
  | .modAg s name f => (h.modifyAg s name f).1
  | .addDtor s d => (h.addDtor s d).1
  | .close s => (h.close s).1

/-- A history of API calls from an empty heap. -/
def Heap.run (grow : Nat → Nat) (ops : List (SOp R V)) : Heap R V :=
  ops.foldl (Heap.step grow) Heap.empty

end
end Vfilter
