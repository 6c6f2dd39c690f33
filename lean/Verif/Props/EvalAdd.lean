import Verif.Props.EvalFns
/-!
# C04: adding stored queries
-/
set_option linter.all false

namespace Vfilter.Vql.Adding
open Fmt

section
variable {F S : Type} [FloatOps F]

/-- The items of an operand of `+`: the elements of an array, the rows of a stored query that is run
to its end in a copy of the scope. -/
inductive Items (H : Host F S) (s : Nat) : V F → St F S → List (V F) → St F S → Prop where
  | arr (l : List (V F)) (st : St F S) : Items H s (.arr l) st l st
  | query {v : V F} {st s1 s2 : St F S} {ns : Nat} {rows : List (V F)} (hq : isQuery v = true)
      (hc : Runs H (prim (.copy s)) st ns s1) (hr : Runs H (call (.evalQuery v ns)) s1 rows s2) :
      Items H s v st rows s2

/-- A stored query is never one of the values the evaluator reduces first. -/
theorem ready_query {v : V F} (h : isQuery v = true) : Ready v := by
  rintro c rfl
  cases h

variable (W : World F Obj) (matchF : V F → V F → Bool) (fmtV : V F → Str) (colName : Col → Str)
  (num : Str → Option (V F)) (text : Select → Str) (fuel : Nat) (X : Extra F S)

local notation "LH" => libHost W matchF fmtV colName num text fuel X

theorem Items.ready {s : Nat} {v : V F} {st st' : St F S} {l : List (V F)} (h : Items LH s v st l st') :
    Ready v := by
  cases h with
  | arr => intro c h; cases h
  | query hq => exact ready_query hq

/-- What `forceP` makes of an operand with these items. -/
theorem Items.force {s : Nat} {v : V F} {st st' : St F S} {l : List (V F)} (h : Items LH s v st l st') :
    ∃ w, Runs LH (forceP s v) st w st' ∧
      ((w = .arr l ∧ v.isArr = true ∧ isQuery v = false) ∨ (w = .query l ∧ isQuery v = true)) := by
  cases h with
  | arr => exact ⟨_, by unfold forceP; exact runs_pure.2 ⟨rfl, rfl⟩, .inl ⟨rfl, rfl, rfl⟩⟩
  | query hq hc hr =>
    refine ⟨.query l, ?_, .inr ⟨rfl, hq⟩⟩
    unfold forceP
    rw [if_pos hq]
    exact runs_bind.2 ⟨_, _, runs_bind.2 ⟨_, _, hc, hr⟩, runs_pure.2 ⟨rfl, rfl⟩⟩

/-- **C04**: `+` between two stored queries, or between a stored query and an array, runs the queries one
after the other, the left one first and each to its end, and gives the array of all the rows and
elements in this order.  No other value can come out, and nothing else happens. -/
theorem C04_stored_queries {l r : MulE} {s : Nat} {st s1 s2 s3 s4 : St F S} {a b : V F} {x y : List (V F)}
    (hl : Runs LH (call (.mul l s)) st a s1) (hr : Runs LH (call (.mul r s)) s1 b s2)
    (hx : Items LH s a s2 x s3) (hy : Items LH s b s3 y s4)
    (hW : ∀ i ∈ W.addI, ∀ a b : V F, i.applicable a b = false) (v : V F) (st' : St F S) :
    Runs LH (call (.add (.mk l [.mk (bs "+") r]) s)) st v st' ↔ v = .arr (x ++ y) ∧ st' = s4 := by
  refine runs_only ?_
  rw [runs_call]
  simp only [body]
  refine runs_bind.2 ⟨_, _, hl, ?_⟩
  simp only [foldP, addStepP, if_true]
  refine runs_bind.2 ⟨_, _, runs_bind.2 ⟨_, _, hr, ?_⟩, runs_pure.2 ⟨rfl, rfl⟩⟩
  have hno : ∀ a b : V F, NoAdd W a b := fun a b i hi => hW i hi a b
  obtain ⟨wa, ha, ca⟩ := hx.force
  obtain ⟨wb, hb, cb⟩ := hy.force
  show Runs LH (libArith W .add a b s) s2 _ _
  simp only [libArith]
  refine runs_bind.2 ⟨_, _, (runs_reduce (hx.ready W matchF fmtV colName num text fuel X)).2 ⟨rfl, rfl⟩,
    runs_bind.2 ⟨_, _, (runs_reduce (hy.ready W matchF fmtV colName num text fuel X)).2 ⟨rfl, rfl⟩, ?_⟩⟩
  rcases ca with ⟨rfl, ca, ca'⟩ | ⟨rfl, ca⟩ <;> rcases cb with ⟨rfl, cb, cb'⟩ | ⟨rfl, cb⟩
  · have e : addForces a b = false := by simp [addForces, ca', cb']
    rw [e]
    cases hx with
    | query hq => rw [hq] at ca'; cases ca'
    | arr =>
      cases hy with
      | query hq => rw [hq] at cb'; cases cb'
      | arr => exact runs_pure.2 ⟨(C04_array_concat W _ _ (hno _ _)).symm, rfl⟩
  · rw [if_pos (by simp [addForces, ca, cb])]
    exact runs_bind.2 ⟨_, _, ha, runs_bind.2 ⟨_, _, hb,
      runs_pure.2 ⟨((C04_array_query W _ _).1 (hno _ _)).symm, rfl⟩⟩⟩
  · rw [if_pos (by simp [addForces, ca, cb])]
    exact runs_bind.2 ⟨_, _, ha, runs_bind.2 ⟨_, _, hb,
      runs_pure.2 ⟨((C04_array_query W _ _).2 (hno _ _)).symm, rfl⟩⟩⟩
  · rw [if_pos (by simp [addForces, ca, cb])]
    exact runs_bind.2 ⟨_, _, ha, runs_bind.2 ⟨_, _, hb,
      runs_pure.2 ⟨(C04_query_concat W _ _ (hno _ _)).symm, rfl⟩⟩⟩

end

/-- A query with two rows, a query `SELECT 'z' AS X FROM scope()`, and an array. -/
def addVars : OD (V F64) :=
  [(bs "a", .query [.int 1#64, .int 2#64]), (bs "q", .obj (.select (.one (litE "z") "X" (.src "scope")))),
   (bs "l", .arr [.int 3#64])]

/-- What an expression over the variables above evaluates to. -/
def addGives (e : AndE) (v : V F64) : Bool :=
  match exec libDemo 60 (call (.and e 0)) (St.init addVars) with
  | some (r, _) => sameV r v
  | none => false

example : addGives (.plus (.name 1 "a") (.name 2 "l")) (.arr [.int 1#64, .int 2#64, .int 3#64]) = true := by decide +kernel
example : addGives (.plus (.name 1 "l") (.name 2 "a")) (.arr [.int 3#64, .int 1#64, .int 2#64]) = true := by decide +kernel
example : addGives (.plus (.name 1 "a") (.name 2 "a")) (.arr [.int 1#64, .int 2#64, .int 1#64, .int 2#64]) = true := by
  decide +kernel
example : (match exec libDemo 60 (call (.and (.plus (.name 1 "q") (.name 2 "q")) 0)) (St.init addVars) with
  | some (.arr [_, _], _) => true
  | _ => false) = true := by decide +kernel
example : Items libDemo 0 (.arr [.int 3#64]) (St.init addVars) [.int 3#64] (St.init addVars) := .arr _ _

end Vfilter.Vql.Adding
