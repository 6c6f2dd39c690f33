import Verif.Eval
/-!
# Running programs of the evaluator: basic facts

`Runs H p st a st'` says that running `p` in state `st` finishes with result `a` in state
`st'`, with whatever recursion depth it needs.
-/
set_option linter.all false

namespace Vfilter.Vql

section
variable {F S : Type}

theorem bind_eq {α β : Type} (p : Prog F S α) (f : α → Prog F S β) : (p >>= f) = p.bind f := rfl
theorem pure_eq {α : Type} (a : α) : (pure a : Prog F S α) = .ret a := rfl

theorem interp_bind {α β : Type} (rec : (c : Call F) → St F S → Option (c.Ret × St F S))
    (p : Prog F S α) (f : α → Prog F S β) (st : St F S) :
    interp rec (p.bind f) st = (interp rec p st).bind (fun r => interp rec (f r.1) r.2) := by
  induction p generalizing st with
  | ret a => rfl
  | call c k ih =>
    simp only [Prog.bind, interp]
    cases h : rec c st with
    | none => rfl
    | some r => exact ih r.1 r.2
  | prim p k ih =>
    simp only [Prog.bind, interp]
    exact ih _ _

theorem interp_mono {α : Type} {rec rec' : (c : Call F) → St F S → Option (c.Ret × St F S)}
    (h : ∀ c st r, rec c st = some r → rec' c st = some r)
    (p : Prog F S α) (st : St F S) (r : α × St F S) (hr : interp rec p st = some r) :
    interp rec' p st = some r := by
  induction p generalizing st with
  | ret a => exact hr
  | call c k ih =>
    simp only [interp] at hr ⊢
    cases hc : rec c st with
    | none => simp [hc] at hr
    | some x =>
      obtain ⟨v, st'⟩ := x
      rw [h c st _ hc]
      simp only [hc] at hr
      exact ih _ _ hr
  | prim p k ih =>
    simp only [interp] at hr ⊢
    exact ih _ _ hr

variable [FloatOps F] (H : Host F S)

theorem run_succ_mono (n : Nat) : ∀ (c : Call F) (st : St F S) (r : c.Ret × St F S),
    run H n c st = some r → run H (n + 1) c st = some r := by
  induction n with
  | zero => intro c st r h; simp [run] at h
  | succ n ih =>
    intro c st r h
    simp only [run] at h ⊢
    exact interp_mono ih _ _ _ h

theorem run_mono {n m : Nat} (hnm : n ≤ m) (c : Call F) (st : St F S) (r : c.Ret × St F S)
    (h : run H n c st = some r) : run H m c st = some r := by
  induction hnm with
  | refl => exact h
  | step _ ih => exact run_succ_mono H _ _ _ _ ih

theorem exec_mono {α : Type} {n m : Nat} (hnm : n ≤ m) (p : Prog F S α) (st : St F S)
    (r : α × St F S) (h : exec H n p st = some r) : exec H m p st = some r :=
  interp_mono (run_mono H hnm) p st r h

/-- Running `p` from `st` finishes with result `a` in state `st'`. -/
def Runs {α : Type} (p : Prog F S α) (st : St F S) (a : α) (st' : St F S) : Prop :=
  ∃ n, exec H n p st = some (a, st')

/-- Running `p` from `st` finishes. -/
def Halts {α : Type} (p : Prog F S α) (st : St F S) : Prop := ∃ a st', Runs H p st a st'

variable {H}

theorem Runs.det {α : Type} {p : Prog F S α} {st : St F S} {a b : α} {s1 s2 : St F S}
    (h1 : Runs H p st a s1) (h2 : Runs H p st b s2) : a = b ∧ s1 = s2 := by
  obtain ⟨n, h1⟩ := h1
  obtain ⟨m, h2⟩ := h2
  have e1 := exec_mono H (Nat.le_max_left n m) _ _ _ h1
  have e2 := exec_mono H (Nat.le_max_right n m) _ _ _ h2
  rw [e1] at e2
  simp only [Option.some.injEq, Prod.mk.injEq] at e2
  exact e2

@[simp] theorem runs_ret {α : Type} {a b : α} {st st' : St F S} :
    Runs H (.ret a) st b st' ↔ b = a ∧ st' = st := by
  constructor
  · rintro ⟨n, h⟩
    simp only [exec, interp, Option.some.injEq, Prod.mk.injEq] at h
    exact ⟨h.1.symm, h.2.symm⟩
  · rintro ⟨rfl, rfl⟩
    exact ⟨0, rfl⟩

@[simp] theorem runs_pure {α : Type} {a b : α} {st st' : St F S} :
    Runs H (pure a : Prog F S α) st b st' ↔ b = a ∧ st' = st := runs_ret

theorem runs_pbind {α β : Type} {p : Prog F S α} {f : α → Prog F S β} {st st' : St F S} {b : β} :
    Runs H (p.bind f) st b st' ↔ ∃ a s1, Runs H p st a s1 ∧ Runs H (f a) s1 b st' := by
  constructor
  · rintro ⟨n, h⟩
    rw [exec, interp_bind] at h
    cases hp : interp (run H n) p st with
    | none => simp [hp] at h
    | some r =>
      rw [hp] at h
      exact ⟨r.1, r.2, ⟨n, hp⟩, ⟨n, h⟩⟩
  · rintro ⟨a, s1, ⟨n, h1⟩, ⟨m, h2⟩⟩
    refine ⟨max n m, ?_⟩
    rw [exec, interp_bind]
    have e1 := exec_mono H (Nat.le_max_left n m) _ _ _ h1
    have e2 := exec_mono H (Nat.le_max_right n m) _ _ _ h2
    rw [exec] at e1 e2
    rw [e1]
    exact e2

@[simp] theorem runs_bind {α β : Type} {p : Prog F S α} {f : α → Prog F S β} {st st' : St F S}
    {b : β} : Runs H (p >>= f) st b st' ↔ ∃ a s1, Runs H p st a s1 ∧ Runs H (f a) s1 b st' :=
  runs_pbind

@[simp] theorem runs_prim {p : Prim F S} {st st' : St F S} {b : p.Ret} :
    Runs H (prim p) st b st' ↔ b = (p.step st).1 ∧ st' = (p.step st).2 := by
  constructor
  · rintro ⟨n, h⟩
    simp only [exec, prim, interp, Option.some.injEq, Prod.mk.injEq] at h
    exact ⟨h.1.symm, h.2.symm⟩
  · rintro ⟨rfl, rfl⟩
    exact ⟨0, rfl⟩

/-- A heap access followed by a continuation. -/
theorem runs_pb {β : Type} {p : Prim F S} {f : p.Ret → Prog F S β} {st st' : St F S} {b : β} :
    Runs H (prim p >>= f) st b st' ↔ Runs H (f (p.step st).1) (p.step st).2 b st' := Iff.rfl

/-- The heap with more messages in the log. -/
def St.logs (st : St F S) (l : List Str) : St F S := { st with log := st.log ++ l }

/-- Messages followed by a continuation. -/
theorem runs_logs {β : Type} {l : List Str} {f : Unit → Prog F S β} {st st' : St F S} {b : β} :
    Runs H (logsP l >>= f) st b st' ↔ Runs H (f ()) (st.logs l) b st' := by
  induction l generalizing st with
  | nil => rw [St.logs, List.append_nil]; exact Iff.rfl
  | cons m r ih =>
    refine (ih (st := { st with log := st.log ++ [m] })).trans ?_
    rw [St.logs, St.logs, List.append_assoc]; rfl

/-- A pure result followed by a continuation. -/
theorem runs_rb {α β : Type} {a : α} {f : α → Prog F S β} {st st' : St F S} {b : β} :
    Runs H (pure a >>= f) st b st' ↔ Runs H (f a) st b st' := Iff.rfl

theorem runs_call {c : Call F} {st st' : St F S} {b : c.Ret} :
    Runs H (call c) st b st' ↔ Runs H (body H c) st b st' := by
  constructor
  · rintro ⟨n, h⟩
    simp only [exec, call, interp] at h
    cases n with
    | zero => simp [run] at h
    | succ n =>
      refine ⟨n, ?_⟩
      simp only [run] at h
      cases hr : interp (run H n) (body H c) st with
      | none => simp [hr] at h
      | some r =>
        simp only [hr] at h
        rw [exec, hr, ← h]
  · rintro ⟨n, h⟩
    refine ⟨n + 1, ?_⟩
    simp only [exec, call, interp, run]
    rw [exec] at h
    rw [h]

/-- A sequence of runs over a list, threading an accumulator. -/
inductive Chain {α β : Type} (R : β → α → St F S → β → St F S → Prop) :
    β → List α → St F S → β → St F S → Prop where
  | nil (b : β) (st : St F S) : Chain R b [] st b st
  | cons {b : β} {a : α} {l : List α} {st s1 s2 : St F S} {b1 b2 : β} :
      R b a st b1 s1 → Chain R b1 l s1 b2 s2 → Chain R b (a :: l) st b2 s2

theorem runs_foldP {α β : Type} {f : β → α → Prog F S β} {l : List α} {b b' : β} {st st' : St F S} :
    Runs H (foldP f b l) st b' st' ↔
      Chain (fun b a s b1 s1 => Runs H (f b a) s b1 s1) b l st b' st' := by
  induction l generalizing b st with
  | nil =>
    simp only [foldP, runs_pure]
    constructor
    · rintro ⟨rfl, rfl⟩; exact .nil _ _
    · intro h; cases h; exact ⟨rfl, rfl⟩
  | cons a r ih =>
    simp only [foldP, runs_bind]
    constructor
    · rintro ⟨b1, s1, h1, h2⟩
      exact .cons h1 (ih.1 h2)
    · intro h
      cases h with
      | cons h1 h2 => exact ⟨_, _, h1, ih.2 h2⟩

end
end Vfilter.Vql
