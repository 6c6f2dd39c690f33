import Verif.Base
/-!
# Which function a call in a query calls (vfilter.go:1737-1990)

A call `f(..)` in a parsed query looks `f` up among the functions of the scope it is evaluated in, and
keeps a copy of the function it found the first time.

A function is a Go value: a type, which has a method `Call`, and the contents of its fields.  `Call` may
change the fields of the copy that the call site keeps.

Simplifications: names without points (the others are looked up among the variables, C28), so the name
is called and not only mentioned.  A call by one goroutine at a time (C81 is about several).  What the
arguments are is C79.
-/

namespace Vfilter.CallSite

section
variable (T D A V : Type)

/-- What the Go method `Call` returns. -/
inductive Res where
  /-- the interface is nil -/
  | nil
  /-- a nil pointer, map or slice of some type -/
  | typedNil
  | val (v : V)

/-- What a call in a query gives. -/
inductive Out where
  /-- NULL -/
  | null
  /-- a nil pointer, map or slice of some type -/
  | typedNil
  | val (v : V)
  /-- there is no function of this name -/
  | missing

/-- The Go types that are functions: `Call` with the fields before and after, the fields of a new value,
and the method `Copy` if the type has one (types/functions.go:14-16). -/
structure Types where
  call : T → D → A → Res V × D
  zero : T → D
  copy : T → Option (D → D)

/-- A function value. -/
structure Fn where
  ty : T
  data : D
end

section
variable {T D A V : Type}

/-- `CopyFunction` (vfilter.go:2036-2046): the type's own `Copy`, otherwise a new value of the type. -/
def copyFn (G : Types T D A V) (f : Fn T D) : Fn T D :=
  match G.copy f.ty with
  | some c => ⟨f.ty, c f.data⟩
  | none => ⟨f.ty, G.zero f.ty⟩

/-- The result of a call of the function kept by the call site (vfilter.go:1995-1997). -/
def again : Res V → Out V
  | .nil => .null
  | .typedNil => .typedNil
  | .val v => .val v

/-- The result of the first call: `types.IsNil` (vfilter.go:2016-2021, types/null.go:18-34). -/
def first : Res V → Out V
  | .nil => .null
  | .typedNil => .null
  | .val v => .val v

/-- The functions registered for each scope (scopes that share a registry have the same ones), and the
functions kept by the calls of the parsed queries. -/
structure CSt (T D : Type) where
  reg : Nat → Str → Option (Fn T D)
  sites : Nat → Option (Fn T D)

/-- What can happen: a function is registered in a scope under a name, a call is evaluated in a scope. -/
inductive Act (T D A : Type) where
  | register (s : Nat) (name : Str) (f : Fn T D)
  | eval (s site : Nat) (args : A)

/-- `getFunction` and `callFunction` (vfilter.go:1737-1757, 1964-2025) of the call `site`, whose name is
`nameOf site`, in scope `s`. -/
def evalSite (G : Types T D A V) (nameOf : Nat → Str) (σ : CSt T D) (s site : Nat) (args : A) : Out V × CSt T D :=
  match σ.reg s (nameOf site) with
  | none => (.missing, σ)
  | some f =>
    match σ.sites site with
    | some g =>
      let r := G.call g.ty g.data args
      (again r.1, { σ with sites := fun n => if n = site then some ⟨g.ty, r.2⟩ else σ.sites n })
    | none =>
      let g := copyFn G f
      let r := G.call g.ty g.data args
      (first r.1, { σ with sites := fun n => if n = site then some ⟨g.ty, r.2⟩ else σ.sites n })

/-- One step, with what the call gives. -/
def step (G : Types T D A V) (nameOf : Nat → Str) (σ : CSt T D) : Act T D A → Option (Nat × Out V) × CSt T D
  | .register s name f => (none, { σ with reg := fun t n => if t = s ∧ n = name then some f else σ.reg t n })
  | .eval s site args =>
    let r := evalSite G nameOf σ s site args
    (some (site, r.1), r.2)

/-- A history: what each call gives, and the end. -/
def run (G : Types T D A V) (nameOf : Nat → Str) : CSt T D → List (Act T D A) → List (Nat × Out V) × CSt T D
  | σ, [] => ([], σ)
  | σ, a :: as =>
    let r := step G nameOf σ a
    let rest := run G nameOf r.2 as
    (r.1.toList ++ rest.1, rest.2)

/-- Queries that have not been evaluated yet. -/
def CSt.start (reg : Nat → Str → Option (Fn T D)) : CSt T D := ⟨reg, fun _ => none⟩

end
end Vfilter.CallSite
