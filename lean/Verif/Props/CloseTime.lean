import Verif.CloseTime
/-!
# C98: closing a scope ends, and how long it takes
-/

namespace Vfilter.CloseTime

/-- Those taken out of the list and not started yet. -/
def PC.batch : PC → List Nat
  | .next b => b
  | .wait _ _ b => b
  | _ => []

/-- The destructors added by some actions. -/
def added : List Act → List Nat
  | [] => []
  | .add d :: as => d :: added as
  | .close :: as => added as
  | .finish _ :: as => added as
  | .tick :: as => added as

/-- What holds at all times. -/
structure Inv (σ : St) : Prop where
  rounds : σ.rounds ≤ 10
  time : match σ.pc with
    | .wait n t _ => n + 1 = σ.started.length ∧ t ≤ 60 * n ∧ t ≤ σ.clock ∧ σ.clock ≤ t + 60
    | _ => σ.clock ≤ 60 * σ.started.length
  numbers : ∀ x ∈ σ.running, x.1 < σ.started.length
  distinct : (σ.running.map (·.1)).Nodup
  old : ∀ x ∈ σ.running, (∃ b, σ.pc = .wait x.1 x.2 b) ∨ x.2 + 60 ≤ σ.clock

theorem inv_init (ds : List Nat) : Inv (St.init ds) := by
  refine ⟨by simp [St.init], by simp [St.init], ?_, by simp [St.init], ?_⟩ <;> (intro x hx; simp [St.init] at hx)

theorem inv_step {σ σ' : St} (h : Inv σ) {a : Act} (hs : step σ a = some σ') : Inv σ' := by
  obtain ⟨clock, pending, rounds, pc, running, started⟩ := σ
  obtain ⟨hr, ht, hn, hd, ho⟩ := h
  cases a with
  | close =>
    cases pc with
    | take =>
      simp only [step] at hs
      split at hs
      · cases hs
        exact ⟨hr, ht, hn, hd, fun x hx => Or.inr ((ho x hx).resolve_left (by simp))⟩
      · rename_i hc
        cases hs
        refine ⟨?_, ht, hn, hd, fun x hx => Or.inr ((ho x hx).resolve_left (by simp))⟩
        simp only at hc ⊢
        omega
    | next b =>
      cases b with
      | nil =>
        cases hs
        exact ⟨hr, ht, hn, hd, fun x hx => Or.inr ((ho x hx).resolve_left (by simp))⟩
      | cons d r =>
        cases hs
        refine ⟨hr, ?_, ?_, ?_, ?_⟩
        · simp only [List.length_append, List.length_cons, List.length_nil] at ht ⊢
          exact ⟨trivial, ht, Nat.le_refl _, by omega⟩
        · intro x hx
          simp only [List.mem_append, List.mem_singleton] at hx
          simp only [List.length_append, List.length_cons, List.length_nil]
          rcases hx with hx | hx
          · have := hn x hx; simp only at this; omega
          · subst hx; simp
        · simp only [List.map_append, List.map_cons, List.map_nil]
          rw [List.nodup_append]
          refine ⟨hd, by simp, ?_⟩
          intro a ha b hb hab
          simp only [List.mem_singleton] at hb
          obtain ⟨x, hx, rfl⟩ := List.mem_map.mp ha
          have := hn x hx
          simp only at this
          omega
        · intro x hx
          simp only [List.mem_append, List.mem_singleton] at hx
          rcases hx with hx | hx
          · exact Or.inr ((ho x hx).resolve_left (by simp))
          · subst hx
            exact Or.inl ⟨r, rfl⟩
    | wait n t b =>
      simp only [step] at hs
      split at hs
      · rename_i hc
        cases hs
        simp only at ht
        refine ⟨hr, by simp only; omega, hn, hd, ?_⟩
        intro x hx
        rcases ho x hx with ⟨b', e⟩ | hx'
        · simp only [PC.wait.injEq] at e
          obtain ⟨e1, e2, _⟩ := e
          rcases hc with hc | hc
          · exfalso
            simp only [runs, List.any_eq_false, beq_iff_eq] at hc
            exact hc x hx e1.symm
          · exact Or.inr (by simp only at hc ⊢; omega)
        · exact Or.inr hx'
      · cases hs
    | done => cases hs
  | finish k =>
    simp only [step] at hs
    split at hs
    · cases hs
      refine ⟨hr, ht, fun x hx => hn x (List.mem_of_mem_eraseIdx hx), ?_, fun x hx => ho x (List.mem_of_mem_eraseIdx hx)⟩
      have : ((running.eraseIdx k).map (·.1)).Sublist (running.map (·.1)) :=
        (List.eraseIdx_sublist running k).map _
      exact this.nodup hd
    · cases hs
  | add d =>
    simp only [step] at hs
    split at hs
    · cases hs
    · cases hs
      exact ⟨hr, ht, hn, hd, ho⟩
  | tick =>
    cases pc with
    | wait n t b =>
      simp only [step] at hs
      split at hs
      · rename_i hc
        cases hs
        simp only at ht hc
        refine ⟨hr, ⟨ht.1, ht.2.1, by simp only; omega, by simp only; omega⟩, hn, hd, ?_⟩
        intro x hx
        rcases ho x hx with hx' | hx'
        · exact Or.inl hx'
        · exact Or.inr (by simp only at hx' ⊢; omega)
      · cases hs
    | take => cases hs
    | next b => cases hs
    | done => cases hs

theorem inv_run : ∀ (as : List Act) {σ σ' : St}, Inv σ → run σ as = some σ' → Inv σ' := by
  intro as
  induction as with
  | nil => intro σ σ' h hr; cases hr; exact h
  | cons a as ih =>
    intro σ σ' h hr
    rw [run] at hr
    cases hs : step σ a with
    | none => rw [hs] at hr; cases hr
    | some σ1 => rw [hs] at hr; exact ih (inv_step h hs) hr

/-- C98: `Close` waits no longer than 60 seconds for each destructor it has started. -/
theorem C98_time (ds : List Nat) (as : List Act) (σ : St) (h : run (.init ds) as = some σ) :
    σ.clock ≤ 60 * σ.started.length := by
  have := (inv_run as (inv_init ds) h).time
  split at this <;> omega

/-- All destructors there were, and how many steps of its own `Close` has made. -/
theorem account_step {σ σ' : St} {a : Act} (hs : step σ a = some σ') :
    (σ'.started ++ σ'.pc.batch ++ σ'.pending).Perm (σ.started ++ σ.pc.batch ++ σ.pending ++ added [a]) := by
  obtain ⟨clock, pending, rounds, pc, running, started⟩ := σ
  cases a with
  | close =>
    cases pc with
    | take =>
      simp only [step] at hs
      split at hs
      · cases hs; simp [PC.batch, added]
      · cases hs
        simpa [PC.batch, added] using List.Perm.append_left started (List.reverse_perm pending)
    | next b =>
      cases b with
      | nil => cases hs; simp [PC.batch, added]
      | cons d r => cases hs; simp [PC.batch, added]
    | wait n t b =>
      simp only [step] at hs
      split at hs
      · cases hs; simp [PC.batch, added]
      · cases hs
    | done => cases hs
  | finish k =>
    simp only [step] at hs
    split at hs
    · cases hs; simp [added]
    · cases hs
  | add d =>
    simp only [step] at hs
    split at hs
    · cases hs
    · cases hs; simp [added]
  | tick =>
    cases pc with
    | wait n t b =>
      simp only [step] at hs
      split at hs
      · cases hs; simp [PC.batch, added]
      · cases hs
    | take => cases hs
    | next b => cases hs
    | done => cases hs

theorem added_cons (a : Act) (as : List Act) : added (a :: as) = added [a] ++ added as := by
  cases a <;> rfl

theorem account_run : ∀ (as : List Act) {σ σ' : St}, run σ as = some σ' →
    (σ'.started ++ σ'.pc.batch ++ σ'.pending).Perm (σ.started ++ σ.pc.batch ++ σ.pending ++ added as) := by
  intro as
  induction as with
  | nil => intro σ σ' hr; cases hr; simp [added]
  | cons a as ih =>
    intro σ σ' hr
    rw [run] at hr
    cases hs : step σ a with
    | none => rw [hs] at hr; cases hr
    | some σ1 =>
      rw [hs] at hr
      refine (ih hr).trans ?_
      rw [added_cons a as, ← List.append_assoc]
      exact List.Perm.append_right _ (account_step hs)

/-- C98: every destructor that was there or has been added is started once, or still in the list. -/
theorem C98_once (ds : List Nat) (as : List Act) (σ : St) (h : run (.init ds) as = some σ) :
    (σ.started ++ σ.pc.batch ++ σ.pending).Perm (ds ++ added as) := by
  simpa [St.init, PC.batch] using account_run as h

theorem left_step {σ σ' : St} {a : Act} (h : σ.pc = .done → 10 ≤ σ.rounds ∨ σ.pending = [])
    (hs : step σ a = some σ') : σ'.pc = .done → 10 ≤ σ'.rounds ∨ σ'.pending = [] := by
  obtain ⟨clock, pending, rounds, pc, running, started⟩ := σ
  intro hd
  cases a with
  | close =>
    cases pc with
    | take =>
      simp only [step] at hs
      split at hs
      · rename_i hc; cases hs; exact hc
      · cases hs; cases hd
    | next b => cases b <;> cases hs <;> cases hd
    | wait n t b =>
      simp only [step] at hs
      split at hs
      · cases hs; cases hd
      · cases hs
    | done => cases hs
  | finish k =>
    simp only [step] at hs
    split at hs
    · cases hs; exact h hd
    · cases hs
  | add d =>
    simp only [step] at hs
    split at hs
    · cases hs
    · rename_i hc; cases hs; exact absurd hd hc
  | tick =>
    cases pc with
    | wait n t b =>
      simp only [step] at hs
      split at hs
      · cases hs; exact h hd
      · cases hs
    | take => cases hs
    | next b => cases hs
    | done => cases hs

theorem left_run : ∀ (as : List Act) {σ σ' : St}, (σ.pc = .done → 10 ≤ σ.rounds ∨ σ.pending = []) →
    run σ as = some σ' → σ'.pc = .done → 10 ≤ σ'.rounds ∨ σ'.pending = [] := by
  intro as
  induction as with
  | nil => intro σ σ' h hr; cases hr; exact h
  | cons a as ih =>
    intro σ σ' h hr
    rw [run] at hr
    cases hs : step σ a with
    | none => rw [hs] at hr; cases hr
    | some σ1 => rw [hs] at hr; exact ih (left_step h hs) hr

/-- C98: when `Close` has returned, all destructors have been started, including those added meanwhile, unless there were
ten rounds. -/
theorem C98_all (ds : List Nat) (as : List Act) (σ : St) (h : run (.init ds) as = some σ) (hd : σ.pc = .done) :
    σ.started.Perm (ds ++ added as) ∨ σ.rounds = 10 := by
  rcases left_run as (by intro e; cases e) h hd with hl | hl
  · exact Or.inr (Nat.le_antisymm (inv_run as (inv_init ds) h).rounds hl)
  · have := C98_once ds as σ h
    rw [hd, hl] at this
    exact Or.inl (by simpa [PC.batch] using this)

def PC.ahead : PC → Nat
  | .next _ => 1
  | .wait _ _ _ => 2
  | _ => 0

/-- The steps of `Close` up to here, and `PC.ahead` more. -/
def made (σ : St) : Nat := 2 * σ.started.length + 2 * σ.rounds + if σ.pc = .done then 1 else 0

theorem made_step {σ σ' : St} {a : Act} (hs : step σ a = some σ') :
    made σ' + σ.pc.ahead = made σ + σ'.pc.ahead + [a].count .close := by
  obtain ⟨clock, pending, rounds, pc, running, started⟩ := σ
  cases a with
  | close =>
    cases pc with
    | take =>
      simp only [step] at hs
      split at hs
      · cases hs; simp [made, PC.ahead]
      · cases hs; simp [made, PC.ahead]; omega
    | next b =>
      cases b with
      | nil => cases hs; simp [made, PC.ahead]
      | cons d r => cases hs; simp [made, PC.ahead]; omega
    | wait n t b =>
      simp only [step] at hs
      split at hs
      · cases hs; simp [made, PC.ahead]
      · cases hs
    | done => cases hs
  | finish k =>
    simp only [step] at hs
    split at hs
    · cases hs; simp [made, List.count_cons]
    · cases hs
  | add d =>
    simp only [step] at hs
    split at hs
    · cases hs
    · cases hs; simp [made, List.count_cons]
  | tick =>
    cases pc with
    | wait n t b =>
      simp only [step] at hs
      split at hs
      · cases hs; simp [made, List.count_cons]
      · cases hs
    | take => cases hs
    | next b => cases hs
    | done => cases hs

theorem made_run : ∀ (as : List Act) {σ σ' : St}, run σ as = some σ' →
    made σ' + σ.pc.ahead = made σ + σ'.pc.ahead + as.count .close := by
  intro as
  induction as with
  | nil => intro σ σ' hr; cases hr; simp
  | cons a as ih =>
    intro σ σ' hr
    rw [run] at hr
    cases hs : step σ a with
    | none => rw [hs] at hr; cases hr
    | some σ1 =>
      rw [hs] at hr
      have h1 := made_step hs
      have h2 := ih hr
      have : (a :: as).count .close = [a].count .close + as.count .close := by
        simp [List.count_cons]; omega
      omega

/-- C98: closing ends: with `n` destructors, including those added meanwhile, `Close` makes no more than `2 n + 21` steps
of its own and waits no more than `60 n` seconds; while it has not returned it goes on, or waits for a destructor, for
less than 60 seconds. -/
theorem C98_ends (ds : List Nat) (as : List Act) (σ : St) (h : run (.init ds) as = some σ) :
    as.count .close ≤ 2 * (ds.length + (added as).length) + 21 ∧
      σ.clock ≤ 60 * (ds.length + (added as).length) ∧
      (σ.pc ≠ .done → (step σ .close).isSome ∨ (step σ .tick).isSome) := by
  have hm := made_run as h
  have hr := (inv_run as (inv_init ds) h).rounds
  have hp := (C98_once ds as σ h).length_eq
  have ht := C98_time ds as σ h
  simp only [List.length_append] at hp
  have h0 : made (St.init ds) = 0 ∧ (St.init ds).pc.ahead = 0 := by simp [made, St.init, PC.ahead]
  refine ⟨?_, by omega, ?_⟩
  · have : made σ ≤ 2 * σ.started.length + 21 := by
      unfold made; split <;> omega
    omega
  · intro hd
    obtain ⟨clock, pending, rounds, pc, running, started⟩ := σ
    cases pc with
    | take => left; simp only [step]; split <;> rfl
    | next b => left; cases b <;> rfl
    | wait n t b =>
      simp only [step]
      by_cases hc : runs ⟨clock, pending, rounds, .wait n t b, running, started⟩ n = false ∨ t + 60 ≤ clock
      · left; rw [if_pos hc]; rfl
      · right
        rw [if_pos ⟨by cases hx : runs ⟨clock, pending, rounds, .wait n t b, running, started⟩ n <;> simp_all, by omega⟩]
        rfl
    | done => exact absurd rfl hd

/-- C98: without destructors that run for 60 seconds or more, at most one runs at a time, and none when `Close` has
returned. -/
theorem C98_alone_partial (ds : List Nat) (as : List Act) (σ : St) (h : run (.init ds) as = some σ)
    (hfast : ∀ x ∈ σ.running, σ.clock < x.2 + 60) :
    σ.running.length ≤ 1 ∧ (σ.pc = .done → σ.running = []) := by
  have hi := inv_run as (inv_init ds) h
  have hold : ∀ x ∈ σ.running, ∃ b, σ.pc = .wait x.1 x.2 b := by
    intro x hx
    rcases hi.old x hx with h1 | h1
    · exact h1
    · have := hfast x hx; omega
  constructor
  · match hrun : σ.running with
    | [] => simp
    | [x] => simp
    | x :: y :: r =>
      exfalso
      obtain ⟨b, e1⟩ := hold x (by simp [hrun])
      obtain ⟨b', e2⟩ := hold y (by simp [hrun])
      rw [e1] at e2
      simp only [PC.wait.injEq] at e2
      have hd := hi.distinct
      rw [hrun] at hd
      simp [e2.1] at hd
  · intro hd
    match hrun : σ.running with
    | [] => rfl
    | x :: r =>
      obtain ⟨b, e⟩ := hold x (by simp [hrun])
      rw [hd] at e
      cases e

/-- C98: destructors that add none are started in the reverse of the order in which they were registered. -/
theorem C98_reverse (ds : List Nat) (as : List Act) (σ : St) (h : run (.init ds) as = some σ)
    (hno : added as = []) :
    σ.started <+: ds.reverse ∧ (σ.pc = .done → σ.started = ds.reverse) := by
  have key : ∀ (as : List Act) (σ σ' : St), added as = [] → run σ as = some σ' →
      ((σ.rounds = 0 ∧ σ.pc = .take ∧ σ.started = [] ∧ σ.pending = ds) ∨
        (σ.pending = [] ∧ σ.started ++ σ.pc.batch = ds.reverse)) →
      ((σ'.rounds = 0 ∧ σ'.pc = .take ∧ σ'.started = [] ∧ σ'.pending = ds) ∨
        (σ'.pending = [] ∧ σ'.started ++ σ'.pc.batch = ds.reverse)) := by
    intro as
    induction as with
    | nil => intro σ σ' _ hr hi; cases hr; exact hi
    | cons a as ih =>
      intro σ σ' ha hr hi
      rw [run] at hr
      cases hs : step σ a with
      | none => rw [hs] at hr; cases hr
      | some σ1 =>
        rw [hs] at hr
        rw [added_cons] at ha
        refine ih σ1 σ' (List.append_eq_nil_iff.mp ha).2 hr ?_
        obtain ⟨clock, pending, rounds, pc, running, started⟩ := σ
        cases a with
        | close =>
          cases pc with
          | take =>
            simp only [step] at hs
            split at hs
            · rename_i hc
              cases hs
              right
              rcases hi with ⟨h1, _, h3, h4⟩ | ⟨h1, h2⟩
              · simp only at h1 h3 h4 hc
                have : pending = [] := by rcases hc with hc | hc; · omega
                                          · exact hc
                refine ⟨this, ?_⟩
                simp [PC.batch, h3, ← h4, this]
              · exact ⟨h1, h2⟩
            · rename_i hc
              cases hs
              right
              rcases hi with ⟨h1, _, h3, h4⟩ | ⟨h1, h2⟩
              · simp only at h3 h4
                exact ⟨rfl, by simp [PC.batch, h3, h4]⟩
              · exact absurd (Or.inr h1) hc
          | next b =>
            rcases hi with ⟨_, h2, _⟩ | ⟨h1, h2⟩
            · cases h2
            · cases b with
              | nil => cases hs; exact Or.inr ⟨h1, h2⟩
              | cons d r => cases hs; exact Or.inr ⟨h1, by simpa [PC.batch] using h2⟩
          | wait n t b =>
            rcases hi with ⟨_, h2, _⟩ | ⟨h1, h2⟩
            · cases h2
            · simp only [step] at hs
              split at hs
              · cases hs; exact Or.inr ⟨h1, h2⟩
              · cases hs
          | done => cases hs
        | finish k =>
          simp only [step] at hs
          split at hs
          · cases hs; exact hi
          · cases hs
        | add d => simp [added] at ha
        | tick =>
          cases pc with
          | wait n t b =>
            simp only [step] at hs
            split at hs
            · cases hs; exact hi
            · cases hs
          | take => cases hs
          | next b => cases hs
          | done => cases hs
  rcases key as _ σ hno h (Or.inl ⟨rfl, rfl, rfl, rfl⟩) with ⟨_, h2, h3, _⟩ | ⟨h1, h2⟩
  · exact ⟨by simp [h3], fun e => by rw [h2] at e; cases e⟩
  · refine ⟨⟨_, h2⟩, ?_⟩
    intro e
    rw [e] at h2
    simpa [PC.batch] using h2

/-- Two destructors that are started and not waited for. -/
def slow : List Act :=
  [.close, .close] ++ List.replicate 60 .tick ++ [.close, .close] ++ List.replicate 60 .tick ++ [.close, .close, .close]

/-- C98: `Close` returns while destructors run that need more than a minute, and then they run at the same time. -/
theorem C98_late_refuted : ∃ σ, run (.init [1, 2]) slow = some σ ∧ σ.pc = .done ∧ σ.running.length = 2 := by
  refine ⟨(run (.init [1, 2]) slow).get (by decide +kernel), by simp, ?_⟩
  decide +kernel

/-- Two destructors, one of which adds a third. -/
example : run (.init [1, 2]) [.close, .close, .tick, .add 3, .finish 0, .close, .close, .finish 0, .close, .close,
    .close, .close, .tick, .finish 0, .close, .close, .close] = some ⟨2, [], 2, .done, [], [2, 1, 3]⟩ := by decide

end Vfilter.CloseTime
