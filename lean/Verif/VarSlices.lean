import Verif.Base
/-!
# The variables of scopes as Go slices

`Scope.vars` is a slice.  `Resolve` takes it under the lock and reads its elements without it (scope/scope.go:630-680),
so does `CheckForOverflow` (251-265); meanwhile other goroutines may add variables with `AppendVars` (399-408), which
writes into the same array as long as it has room, and copy the scope (`Copy`, 343-384).

Arrays are kept in a heap.  Slices begin at the first element of their array.  A section between `Lock` and `Unlock` is one
step; reading one element is one step.  Rows are a parameter.
-/

namespace Vfilter.VarSlices
variable {R : Type}

/-- A slice: its array and its length; its capacity is that of the array. -/
structure Slice where
  arr : Nat
  len : Nat
deriving DecidableEq, Repr

/-- A lookup in progress: the slice, how many elements are still to be read, and what has been read (scope/scope.go:645-680).
`none` is Go's nil. -/
structure Look (R : Type) where
  slice : Slice
  next : Nat
  reads : List (Option R)
deriving DecidableEq, Repr

/-- The arrays, the slice of each scope, and the lookups. -/
structure St (R : Type) where
  heap : List (List (Option R))
  scopes : List Slice
  looks : List (Look R)
deriving DecidableEq, Repr

def St.init : St R := ⟨[], [], []⟩

inductive Act (R : Type) where
  /-- a new scope with its first row (scope/scope.go:157-167, 567-590); `extra` is the room that is left in the array -/
  | root (r : R) (extra : Nat)
  /-- `AppendVars` (scope/scope.go:399-408); `extra` is the room that is left if `append` makes a new array -/
  | append (s : Nat) (r : R) (extra : Nat)
  /-- `Copy` (scope/scope.go:343-384) -/
  | copy (s : Nat)
  /-- `vars := self.vars[:]` (scope/scope.go:252-254, 638-640) -/
  | begin (s : Nat)
  /-- lookup `j` reads the next element, from the last to the first (scope/scope.go:650-651) -/
  | read (j : Nat)

/-- Go's `append` of one element: in place if there is room, otherwise in a new array. -/
def push (heap : List (List (Option R))) (sl : Slice) (r : R) (extra : Nat) : List (List (Option R)) × Slice :=
  let cells := heap.getD sl.arr []
  if sl.len < cells.length then (heap.set sl.arr (cells.set sl.len (some r)), ⟨sl.arr, sl.len + 1⟩)
  else (heap ++ [cells.take sl.len ++ some r :: List.replicate extra none], ⟨heap.length, sl.len + 1⟩)

/-- One step; `none` if it is not possible. -/
def step (σ : St R) : Act R → Option (St R)
  | .root r extra => some { σ with heap := σ.heap ++ [some r :: List.replicate extra none]
                                   scopes := σ.scopes ++ [⟨σ.heap.length, 1⟩] }
  | .append s r extra => match σ.scopes[s]? with
    | some sl => some { σ with heap := (push σ.heap sl r extra).1
                               scopes := σ.scopes.set s (push σ.heap sl r extra).2 }
    | none => none
  /- `make` and `copy` (scope/scope.go:350-351) -/
  | .copy s => match σ.scopes[s]? with
    | some sl => some { σ with heap := σ.heap ++ [(σ.heap.getD sl.arr []).take sl.len]
                               scopes := σ.scopes ++ [⟨σ.heap.length, sl.len⟩] }
    | none => none
  | .begin s => match σ.scopes[s]? with
    | some sl => some { σ with looks := σ.looks ++ [⟨sl, sl.len, []⟩] }
    | none => none
  | .read j => match σ.looks[j]? with
    | some ⟨sl, k + 1, rs⟩ =>
      some { σ with looks := σ.looks.set j ⟨sl, k, rs ++ [((σ.heap.getD sl.arr [])[k]?).getD none]⟩ }
    | _ => none

def run (σ : St R) : List (Act R) → Option (St R)
  | [] => some σ
  | a :: as => match step σ a with
    | some σ' => run σ' as
    | none => none

end Vfilter.VarSlices
