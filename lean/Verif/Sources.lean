import Verif.Conc
import Verif.Introspect
/-!
# Rows from lists, materialized queries, and results of methods that are computed once

plugins/generic.go, materializer/in_memory.go, types/stored_query.go, protocols/lazy_wrapper.go.
-/

set_option linter.all false

namespace Vfilter.Src

/-! ## Plugins that return a list (plugins/generic.go:33-52), materialized queries
(materializer/in_memory.go:21-37) -/

/-- State of the goroutine; `todo` are the rows not sent yet, `none` before the plugin's function has
returned. -/
structure LstSt (R : Type) where
  todo : Option (List R)
  out : List R
  cancelled : Bool
  closed : Bool

/-- `GenericListPlugin.Call` (plugins/generic.go:39-50) and `InMemoryMatrializer.Eval`
(materializer/in_memory.go:24-35), for which `call` only reads the list.  The function that makes the rows
(`rows`) is taken to end. -/
inductive LstStep {R : Type} (rows : List R) : By → LstSt R → LstSt R → Prop where
  | call {out c} : LstStep rows .proc ⟨none, out, c, false⟩ ⟨some rows, out, c, false⟩
  | send {r rs out c} : LstStep rows .consumer ⟨some (r :: rs), out, c, false⟩ ⟨some rs, out ++ [r], c, false⟩
  | abort {r rs out} : LstStep rows .proc ⟨some (r :: rs), out, true, false⟩ ⟨some (r :: rs), out, true, true⟩
  | finish {out c} : LstStep rows .proc ⟨some [], out, c, false⟩ ⟨some [], out, c, true⟩
  | cancel {td out cl} : LstStep rows .env ⟨td, out, false, cl⟩ ⟨td, out, true, cl⟩

/-! ## Materialize (types/stored_query.go:15-33) -/

/-- State of `Materialize`: the goroutine it reads from, the rows so far, whether it has warned, the
number of warnings in the log, whether its scope is open, and whether it has returned. -/
structure MatSt (R : Type) where
  src : LstSt R
  result : List R
  warned : Bool
  warnings : Nat
  scopeOpen : Bool
  returned : Bool

/-- `Materialize` of a list source: it reads until the channel is closed, then closes its scope. -/
inductive MatStep {R : Type} (rows : List R) : MatSt R → MatSt R → Prop where
  /-- The source moves on its own. -/
  | source {b s t res w n} : LstStep rows b s t → b ≠ .consumer →
      MatStep rows ⟨s, res, w, n, true, false⟩ ⟨t, res, w, n, true, false⟩
  /-- One row is received, appended, and the length checked (lines 24-31). -/
  | recv {r rs out c res w n} :
      MatStep rows ⟨⟨some (r :: rs), out, c, false⟩, res, w, n, true, false⟩
        ⟨⟨some rs, out ++ [r], c, false⟩, res ++ [r],
          w || decide ((res ++ [r]).length > 10000),
          if !w && decide ((res ++ [r]).length > 10000) then n + 1 else n, true, false⟩
  | ret {td out c res w n} :
      MatStep rows ⟨⟨td, out, c, true⟩, res, w, n, true, false⟩ ⟨⟨td, out, c, true⟩, res, w, n, false, true⟩

/-! ## Attributes of wrapped structs (protocols/lazy_wrapper.go:14-108) -/

/-- A field as reflect sees it: not exported, a nil pointer, or with a value. -/
inductive FieldVal (V : Type) where
  | hidden | nilPtr | val (v : V)

/-- A result of a method: a nil pointer, a nil interface, or a value. -/
inductive ResVal (V : Type) where
  | nilPtr | nilIface | val (v : V)

/-- A struct: `FieldByName`, and `MethodByName` as number of parameters and results of a call. -/
structure Obj (V : Type) where
  field : Str → Option (FieldVal V)
  method : Str → Option (Nat × List (ResVal V))

/-- What reading an attribute gives: NULL, a value, or a method to be called when needed. -/
inductive Attr (V : Type) where
  | null | val (v : V) | lazy (results : List (ResVal V))

/-- `LazyWrapper.Associative` with a string (protocols/lazy_wrapper.go:53-99): the value and whether it
is present. -/
def lazyGet {V : Type} (attributes : List Str) (a : Obj V) (name : Str) : Attr V × Bool :=
  if attributes.contains name = false then (.null, false)
  else
    let viaMethod : Attr V × Bool :=
      match a.method name with
      | some (ins, outs) => if Intro.isExported name && ins == 0 then (.lazy outs, true) else (.null, false)
      | none => (.null, false)
    match a.field name with
    | some .nilPtr => (.null, true)
    | some (.val v) => (.val v, true)
    | some .hidden => viaMethod
    | none => viaMethod

/-- The callback (protocols/lazy_wrapper.go:77-94): NULL, a value, or Go's nil, which is `none`. -/
def lazyCall {V : Type} (null : V) : List (ResVal V) → Option V
  | [r] | [r, _] => match r with
    | .nilPtr => some null
    | .nilIface => none
    | .val v => some v
  | _ => some null

/-! ## LazyFunctionWrapper (protocols/lazy_wrapper.go:110-142) -/

/-- Where a goroutine that calls `Reduce` is: before `Lock`, holding the lock, in the callback, or
returned. -/
inductive RedPc (V : Type) where
  | lock | inside | calling | returned (v : Option V)

/-- State: the holder of the mutex, the cache (`none` is nil), the number of callbacks made, and each
caller. -/
structure RedSt (V : Type) where
  holder : Option Nat
  cached : Option V
  calls : Nat
  pcs : Nat → RedPc V

/-- Goroutine `i` moves on. -/
def RedSt.go {V : Type} (s : RedSt V) (i : Nat) (pc : RedPc V) : RedSt V :=
  { s with pcs := fun j => if j = i then pc else s.pcs j }

/-- `Reduce` and `ReduceWithScope` (lines 121-142).  `cb k` is what the callback returns when it is
called for the `k`-th time. -/
inductive RedStep {V : Type} (cb : Nat → Option V) (n : Nat) : RedSt V → RedSt V → Prop where
  | acquire {s i} : i < n → s.pcs i = .lock → s.holder = none →
      RedStep cb n s { s.go i .inside with holder := some i }
  | hit {s i v} : s.pcs i = .inside → s.cached = some v →
      RedStep cb n s { s.go i (.returned (some v)) with holder := none }
  | miss {s i} : s.pcs i = .inside → s.cached = none →
      RedStep cb n s (s.go i .calling)
  | done {s i} : s.pcs i = .calling →
      RedStep cb n s { s.go i (.returned (cb s.calls)) with
        holder := none, cached := cb s.calls, calls := s.calls + 1 }

/-- All callers start together. -/
def redInit {V : Type} : RedSt V := ⟨none, none, 0, fun _ => .lock⟩

end Vfilter.Src
