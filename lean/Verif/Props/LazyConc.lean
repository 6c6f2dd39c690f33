import Verif.LazyConc
/-!
# C85: columns and arguments asked for by several goroutines
-/
set_option linter.all false

namespace Vfilter.LazyConc

section
variable {K V : Type} [DecidableEq K] {cols : K → Bool} {can : K → V → Bool}

/-- What a step does. -/
inductive Eff (cols : K → Bool) (can : K → V → Bool) (σ : LSt K V) : LSt K V → Prop where
  | hit {i k v} (hj : σ.jobs i = none) (h : σ.cache k = some v) : Eff cols can σ (σ.say [.returned i k v])
  | start {i k keep} (hj : σ.jobs i = none) (h : σ.cache k = none) (hc : cols k = true) :
      Eff cols can σ ((σ.put i (some ⟨k, keep, none⟩)).say [.evaluating i k])
  | absent {i k} (hj : σ.jobs i = none) (h : σ.cache k = none) (hc : cols k = false) : Eff cols can σ (σ.say [.absent i k])
  | yield {i k keep v} (hj : σ.jobs i = some ⟨k, keep, none⟩) (hv : can k v = true) :
      Eff cols can σ ((σ.put i (some ⟨k, keep, some v⟩)).say [.got i k v])
  | store {i k v} (hj : σ.jobs i = some ⟨k, true, some v⟩) :
      Eff cols can σ (({ σ with cache := fun k' => if k' = k then some v else σ.cache k' }.put i none).say
        [.stored i k v, .returned i k v])
  | give {i k v} (hj : σ.jobs i = some ⟨k, false, some v⟩) : Eff cols can σ ((σ.put i none).say [.returned i k v])

theorem eff_of_step {σ σ' : LSt K V} {a : Act K V} (h : step cols can σ a = some σ') : Eff cols can σ σ' := by
  cases a with
  | ask i k keep =>
    simp only [step] at h
    split at h
    · cases h
    next hj =>
    split at h
    · next v hv => cases h; exact .hit hj hv
    next hv =>
    split at h
    · next hc => cases h; exact .start hj hv hc
    · next hc => cases h; exact .absent hj hv (by simpa using hc)
  | yield i v =>
    simp only [step] at h
    split at h
    · next k keep hj =>
      split at h
      · next hv => cases h; exact .yield hj hv
      · cases h
    · cases h
  | done i =>
    simp only [step] at h
    split at h
    · next k v hj => cases h; exact .store hj
    · next k v hj => cases h; exact .give hj
    · cases h

theorem Later.ind {σ : LSt K V} {P : LSt K V → Prop} (h0 : P σ) (hs : ∀ a b, P a → Eff cols can a b → P b)
    {σ' : LSt K V} (h : Later cols can σ σ') : P σ' := by
  induction h with
  | refl => exact h0
  | step a _ hstep ih => exact hs _ _ ih (eff_of_step hstep)

/-! ## Every value comes from the getter -/

/-- The values in the heap were returned by getters. -/
structure Honest (can : K → V → Bool) (σ : LSt K V) : Prop where
  cache : ∀ k v, σ.cache k = some v → ∃ i, .stored i k v ∈ σ.log
  jobs : ∀ i k keep v, σ.jobs i = some ⟨k, keep, some v⟩ → .got i k v ∈ σ.log
  stored : ∀ i k v, .stored i k v ∈ σ.log → .got i k v ∈ σ.log
  returned : ∀ i k v, .returned i k v ∈ σ.log → ∃ j, .got j k v ∈ σ.log
  got : ∀ i k v, .got i k v ∈ σ.log → can k v = true ∧ .evaluating i k ∈ σ.log
  busy : ∀ i k keep, σ.jobs i = some ⟨k, keep, none⟩ → .evaluating i k ∈ σ.log

theorem honest_step {σ σ' : LSt K V} (h : Honest can σ) (e : Eff cols can σ σ') : Honest can σ' := by
  obtain ⟨h1, h2, h3, h4, h5, h6⟩ := h
  cases e with
  | @hit i k v hj hv =>
    constructor <;> simp only [LSt.say, List.mem_append, List.mem_singleton, reduceCtorEq, or_false]
    · exact h1
    · exact h2
    · exact h3
    · rintro i' k' v' (h | h)
      · exact h4 _ _ _ h
      · cases h
        obtain ⟨j, hj'⟩ := h1 _ _ hv
        exact ⟨j, h3 _ _ _ hj'⟩
    · exact h5
    · exact h6
  | @start i k keep hj hn hc =>
    constructor <;> simp only [LSt.say, LSt.put, List.mem_append, List.mem_singleton, reduceCtorEq, or_false]
    · exact h1
    · intro i' k' keep' v' h
      split at h
      · cases h
      · exact h2 _ _ _ _ h
    · exact h3
    · exact h4
    · exact fun i' k' v' h => ⟨(h5 _ _ _ h).1, .inl (h5 _ _ _ h).2⟩
    · intro i' k' keep' h
      split at h
      · next e => cases h; subst e; exact .inr rfl
      · exact .inl (h6 _ _ _ h)
  | @absent i k hj hn hc =>
    constructor <;> simp only [LSt.say, List.mem_append, List.mem_singleton, reduceCtorEq, or_false]
    · exact h1
    · exact h2
    · exact h3
    · exact h4
    · exact h5
    · exact h6
  | @yield i k keep v hj hv =>
    constructor <;> simp only [LSt.say, LSt.put, List.mem_append, List.mem_singleton, reduceCtorEq, or_false]
    · exact h1
    · intro i' k' keep' v' h
      split at h
      · next e => cases h; subst e; exact .inr rfl
      · exact .inl (h2 _ _ _ _ h)
    · exact fun i' k' v' h => .inl (h3 _ _ _ h)
    · rintro i' k' v' h
      obtain ⟨j, hj'⟩ := h4 _ _ _ h
      exact ⟨j, .inl hj'⟩
    · rintro i' k' v' (h | h)
      · exact h5 _ _ _ h
      · cases h; exact ⟨hv, h6 _ _ _ hj⟩
    · intro i' k' keep' h
      split at h
      · cases h
      · exact h6 _ _ _ h
  | @store i k v hj =>
    constructor <;> simp only [LSt.say, LSt.put, List.mem_append, List.mem_cons, List.not_mem_nil, reduceCtorEq, or_false,
      false_or]
    · intro k' v' h
      split at h
      · next e => cases h; subst e; exact ⟨i, .inr rfl⟩
      · obtain ⟨j, hj'⟩ := h1 _ _ h
        exact ⟨j, .inl hj'⟩
    · intro i' k' keep' v' h
      split at h
      · cases h
      · exact h2 _ _ _ _ h
    · rintro i' k' v' (h | h)
      · exact h3 _ _ _ h
      · cases h; exact h2 _ _ _ _ hj
    · rintro i' k' v' (h | h)
      · exact h4 _ _ _ h
      · cases h; exact ⟨i, h2 _ _ _ _ hj⟩
    · exact h5
    · intro i' k' keep' h
      split at h
      · cases h
      · exact h6 _ _ _ h
  | @give i k v hj =>
    constructor <;> simp only [LSt.say, LSt.put, List.mem_append, List.mem_singleton, reduceCtorEq, or_false]
    · exact h1
    · intro i' k' keep' v' h
      split at h
      · cases h
      · exact h2 _ _ _ _ h
    · exact h3
    · rintro i' k' v' (h | h)
      · exact h4 _ _ _ h
      · cases h; exact ⟨i, h2 _ _ _ _ hj⟩
    · exact h5
    · intro i' k' keep' h
      split at h
      · cases h
      · exact h6 _ _ _ h

theorem honest_init : Honest can (LSt.init : LSt K V) := by
  constructor <;> simp [LSt.init]

theorem Reach.honest {σ : LSt K V} (h : Reach cols can σ) : Honest can σ :=
  Later.ind honest_init (fun _ _ h e => honest_step h e) h

/-- **C85** Whatever the schedule, every value a goroutine is given for a column was returned by the
getter of that column. -/
theorem C85_value {σ : LSt K V} (h : Reach cols can σ) {i : Nat} {k : K} {v : V} (hr : .returned i k v ∈ σ.log) :
    ∃ j, .evaluating j k ∈ σ.log ∧ .got j k v ∈ σ.log ∧ can k v = true := by
  obtain ⟨j, hj⟩ := h.honest.returned _ _ _ hr
  exact ⟨j, (h.honest.got _ _ _ hj).2, hj, (h.honest.got _ _ _ hj).1⟩

/-- **C85** If a column has one possible value only, all goroutines are given the same value. -/
theorem C85_same_value {σ : LSt K V} (h : Reach cols can σ) {k : K} {w : V} (hw : ∀ v, can k v = true → v = w) {i : Nat}
    {v : V} (hr : .returned i k v ∈ σ.log) : v = w := by
  obtain ⟨_, _, _, hc⟩ := C85_value h hr
  exact hw v hc

/-! ## Nothing is evaluated once a value is stored -/

/-- No evaluation of a column is behind a store of that column. -/
def Quiet (l : List (Ev K V)) : Prop :=
  ∀ l1 l2 j k v, l = l1 ++ .stored j k v :: l2 → ∀ i, .evaluating i k ∉ l2

omit [DecidableEq K] in
theorem Quiet.snoc {l : List (Ev K V)} (h : Quiet l) {e : Ev K V}
    (he : ∀ i k, e = .evaluating i k → ∀ j v, .stored j k v ∉ l) : Quiet (l ++ [e]) := by
  intro l1 l2 j k v hl i hi
  rcases List.eq_nil_or_concat l2 with rfl | ⟨l2', x, rfl⟩
  · cases hi
  rw [List.concat_eq_append, ← List.cons_append, ← List.append_assoc] at hl
  obtain ⟨e1, e2⟩ := List.append_inj' hl rfl
  cases e2
  rw [List.concat_eq_append, List.mem_append, List.mem_singleton] at hi
  rcases hi with hi | hi
  · exact h l1 l2' j k v e1 i hi
  · exact he i k hi.symm j v (by rw [e1]; simp)

theorem quiet_step {σ σ' : LSt K V} (h : Quiet σ.log ∧ ∀ i k v, .stored i k v ∈ σ.log → (σ.cache k).isSome)
    (e : Eff cols can σ σ') : Quiet σ'.log ∧ ∀ i k v, .stored i k v ∈ σ'.log → (σ'.cache k).isSome := by
  obtain ⟨hq, hs⟩ := h
  cases e with
  | @hit i k v hj hv =>
    refine ⟨hq.snoc (by simp), fun i' k' v' h => hs i' k' v' ?_⟩
    simpa [LSt.say] using h
  | @start i k keep hj hn hc =>
    refine ⟨hq.snoc ?_, fun i' k' v' h => hs i' k' v' (by simpa [LSt.say, LSt.put] using h)⟩
    intro i' k' he j v h
    cases he
    have := hs _ _ _ h
    rw [hn] at this
    cases this
  | @absent i k hj hn hc =>
    exact ⟨hq.snoc (by simp), fun i' k' v' h => hs i' k' v' (by simpa [LSt.say] using h)⟩
  | @yield i k keep v hj hv =>
    exact ⟨hq.snoc (by simp), fun i' k' v' h => hs i' k' v' (by simpa [LSt.say, LSt.put] using h)⟩
  | @store i k v hj =>
    refine ⟨?_, ?_⟩
    · have := (hq.snoc (e := .stored i k v) (by simp)).snoc (e := .returned i k v) (by simp)
      simpa [LSt.say, LSt.put] using this
    · intro i' k' v' h
      simp only [LSt.say, LSt.put]
      split
      · rfl
      · next hne =>
        refine hs i' k' v' ?_
        simp only [LSt.say, LSt.put, List.mem_append, List.mem_cons, List.not_mem_nil, or_false, reduceCtorEq] at h
        rcases h with h | h
        · exact h
        · cases h; exact absurd rfl hne
  | @give i k v hj =>
    exact ⟨hq.snoc (by simp), fun i' k' v' h => hs i' k' v' (by simpa [LSt.say, LSt.put] using h)⟩

/-- **C85** After a value of a column was stored no goroutine begins to evaluate that column again. -/
theorem C85_no_more {σ : LSt K V} (h : Reach cols can σ) {l1 l2 : List (Ev K V)} {j : Nat} {k : K} {v : V}
    (hl : σ.log = l1 ++ .stored j k v :: l2) (i : Nat) : .evaluating i k ∉ l2 := by
  have : Quiet σ.log ∧ ∀ i k v, .stored i k v ∈ σ.log → (σ.cache k).isSome :=
    Later.ind (P := fun σ => Quiet σ.log ∧ ∀ i k v, .stored i k v ∈ σ.log → (σ.cache k).isSome)
      ⟨by intro l1 l2 j k v h; simp [LSt.init] at h, by simp [LSt.init]⟩ (fun _ _ h e => quiet_step h e) h
  exact this.1 l1 l2 j k v hl i

/-- **C85** So if a column is evaluated twice, both evaluations began before either goroutine stored a
value: they were at work at the same time. -/
theorem C85_overlap {σ : LSt K V} (h : Reach cols can σ) {l1 l2 l3 : List (Ev K V)} {i j : Nat} {k : K}
    (hl : σ.log = l1 ++ .evaluating i k :: l2 ++ .evaluating j k :: l3) (n : Nat) (v : V) :
    .stored n k v ∉ l1 ++ l2 := by
  intro hm
  rcases List.mem_append.1 hm with hm | hm
  · obtain ⟨a, b, rfl⟩ := List.append_of_mem hm
    refine C85_no_more h (l1 := a) (l2 := b ++ .evaluating i k :: l2 ++ .evaluating j k :: l3) (j := n) (v := v)
      (by simpa using hl) j ?_
    simp
  · obtain ⟨a, b, rfl⟩ := List.append_of_mem hm
    refine C85_no_more h (l1 := l1 ++ .evaluating i k :: a) (l2 := b ++ .evaluating j k :: l3) (j := n) (v := v)
      (by simpa using hl) j ?_
    simp

/-! ## Settled columns -/

/-- The column has this value, and no goroutine is about to store another one. -/
def Settled (σ : LSt K V) (k : K) (v : V) : Prop :=
  σ.cache k = some v ∧ ∀ i j, σ.jobs i = some j → j.key = k → j.keep = false

theorem settled_step {σ σ' : LSt K V} {k : K} {v : V} (h : Settled σ k v) (e : Eff cols can σ σ') : Settled σ' k v := by
  obtain ⟨h1, h2⟩ := h
  cases e with
  | hit hj hv => exact ⟨h1, h2⟩
  | absent hj hn hc => exact ⟨h1, h2⟩
  | @start i k' keep hj hn hc =>
    refine ⟨h1, fun i' j hj' hk => ?_⟩
    simp only [LSt.say, LSt.put] at hj'
    split at hj'
    · cases hj'
      rw [show k' = k from hk, h1] at hn
      cases hn
    · exact h2 _ _ hj' hk
  | @yield i k' keep w hj hv =>
    refine ⟨h1, fun i' j hj' hk => ?_⟩
    simp only [LSt.say, LSt.put] at hj'
    split at hj'
    · cases hj'; exact h2 _ ⟨k', keep, none⟩ hj hk
    · exact h2 _ _ hj' hk
  | @store i k' w hj =>
    refine ⟨?_, fun i' j hj' hk => ?_⟩
    · simp only [LSt.say, LSt.put]
      split
      · next e => exact absurd (h2 _ _ hj e.symm) (by simp)
      · exact h1
    · simp only [LSt.say, LSt.put] at hj'
      split at hj'
      · cases hj'
      · exact h2 _ _ hj' hk
  | @give i k' w hj =>
    refine ⟨h1, fun i' j hj' hk => ?_⟩
    simp only [LSt.say, LSt.put] at hj'
    split at hj'
    · cases hj'
    · exact h2 _ _ hj' hk

/-- **C85** When a value is stored and no `Get` of the column is in progress, the column keeps this value
for ever: every goroutine that asks from then on is given it at once, without evaluation. -/
theorem C85_settled {σ σ' : LSt K V} {k : K} {v : V} (hc : σ.cache k = some v)
    (hb : ∀ i j, σ.jobs i = some j → j.key = k → j.keep = false) (h : Later cols can σ σ') :
    σ'.cache k = some v ∧ ∀ i keep, σ'.jobs i = none →
      step cols can σ' (.ask i k keep) = some (σ'.say [.returned i k v]) := by
  have hs : Settled σ' k v := Later.ind (P := fun σ => Settled σ k v) ⟨hc, hb⟩ (fun _ _ h e => settled_step h e) h
  refine ⟨hs.1, fun i keep hj => ?_⟩
  simp only [step, hj, hs.1]

/-- **C85** If every evaluation of a column is over before another goroutine asks for it, the column is
evaluated at most once by `Get`, and all goroutines are given the same value.  `Alone` is a schedule in
which no `Get` of the column begins while another is at work. -/
inductive Alone (cols : K → Bool) (can : K → V → Bool) (k : K) : LSt K V → Prop where
  | init : Alone cols can k LSt.init
  | step {σ σ' : LSt K V} (a : Act K V) : Alone cols can k σ → step cols can σ a = some σ' →
      (∀ i keep, a = .ask i k keep → keep = true ∧ ∀ n j, σ.jobs n = some j → j.key ≠ k) → Alone cols can k σ'

/-- How often a column was evaluated. -/
def evals (k : K) (l : List (Ev K V)) : Nat := l.countP fun e => match e with
  | .evaluating _ k' => decide (k' = k)
  | _ => false

theorem C85_once_partial {k : K} {σ : LSt K V} (h : Alone cols can k σ) :
    evals k σ.log ≤ 1 ∧ ∀ i j v w, .returned i k v ∈ σ.log → .returned j k w ∈ σ.log → v = w := by
  -- either nothing was evaluated, or one goroutine is at work, or the column is settled
  have key : ((∀ i j, σ.jobs i = some j → j.key = k → j.keep = true) ∧
      (∀ i i' j j', σ.jobs i = some j → j.key = k → σ.jobs i' = some j' → j'.key = k → i = i')) ∧
      ((σ.cache k = none ∧ (∀ i v, .returned i k v ∉ σ.log) ∧
          evals k σ.log ≤ 1 ∧ (evals k σ.log = 1 → ∃ i j, σ.jobs i = some j ∧ j.key = k)) ∨
        (∃ v, σ.cache k = some v ∧ (∀ i w, .returned i k w ∈ σ.log → w = v) ∧ evals k σ.log ≤ 1 ∧
          ∀ i j, σ.jobs i = some j → j.key ≠ k)) := by
    induction h with
    | init => exact ⟨⟨by simp [LSt.init], by simp [LSt.init]⟩, .inl ⟨rfl, by simp [LSt.init], by simp [LSt.init, evals], by simp [LSt.init, evals]⟩⟩
    | @step σ σ' a _ hstep hal ih =>
      obtain ⟨⟨hkp, hun⟩, ih⟩ := ih
      cases a with
      | ask i k' keep =>
        simp only [step] at hstep
        split at hstep
        · cases hstep
        next hj =>
        split at hstep
        · next v hv =>
          cases hstep
          refine ⟨⟨hkp, hun⟩, ?_⟩
          rcases ih with ⟨h1, h2, h3, h4⟩ | ⟨w, h1, h2, h3, h4⟩
          · refine .inl ⟨h1, ?_, ?_, ?_⟩
            · intro i' v' hm
              simp only [LSt.say, List.mem_append, List.mem_singleton] at hm
              rcases hm with hm | hm
              · exact h2 _ _ hm
              · cases hm; rw [h1] at hv; cases hv
            · simpa [LSt.say, evals, List.countP_append] using h3
            · intro he
              exact h4 (by simpa [LSt.say, evals, List.countP_append] using he)
          · refine .inr ⟨w, h1, ?_, ?_, h4⟩
            · intro i' v' hm
              simp only [LSt.say, List.mem_append, List.mem_singleton] at hm
              rcases hm with hm | hm
              · exact h2 _ _ hm
              · cases hm; rw [h1] at hv; cases hv; rfl
            · simpa [LSt.say, evals, List.countP_append] using h3
        next hv =>
        split at hstep
        · next hc =>
          cases hstep
          by_cases hk : k' = k
          · subst hk
            obtain ⟨hkeep, hno⟩ := hal i keep rfl
            subst hkeep
            rcases ih with ⟨h1, h2, h3, h4⟩ | ⟨w, h1, h2, h3, h4⟩
            · have h0 : evals k' σ.log = 0 := by
                rcases Nat.lt_or_ge (evals k' σ.log) 1 with h | h
                · omega
                · obtain ⟨n, j, hn, hjk⟩ := h4 (by omega)
                  exact absurd hjk (hno n j hn)
              refine ⟨⟨?_, ?_⟩, .inl ⟨h1, ?_, ?_, ?_⟩⟩
              · intro n j hn hjk
                simp only [LSt.say, LSt.put] at hn
                split at hn
                · cases hn; rfl
                · exact hkp n j hn hjk
              · intro n n' j j' hn hjk hn' hjk'
                simp only [LSt.say, LSt.put] at hn hn'
                split at hn
                · next e =>
                  split at hn'
                  · next e' => rw [e, e']
                  · exact absurd hjk' (hno _ _ hn')
                · exact absurd hjk (hno _ _ hn)
              · intro i' v' hm
                simp only [LSt.say, LSt.put, List.mem_append, List.mem_singleton, reduceCtorEq, or_false] at hm
                exact h2 _ _ hm
              · simp only [LSt.say, LSt.put, evals, List.countP_append] at h0 ⊢
                rw [h0]; simp
              · intro _
                exact ⟨i, ⟨k', true, none⟩, by simp [LSt.say, LSt.put], rfl⟩
            · rw [h1] at hv; cases hv
          · have hjobs : ∀ n j, ((σ.put i (some ⟨k', keep, none⟩)).say [.evaluating i k']).jobs n = some j → j.key = k →
                σ.jobs n = some j := by
              intro n j hn hjk
              simp only [LSt.say, LSt.put] at hn
              split at hn
              · cases hn; exact absurd hjk hk
              · exact hn
            have hev : evals k ((σ.put i (some ⟨k', keep, none⟩)).say [.evaluating i k']).log = evals k σ.log := by
              simp [LSt.say, LSt.put, evals, List.countP_append, hk]
            have hret : ∀ i' w, .returned i' k w ∈ ((σ.put i (some ⟨k', keep, none⟩)).say [.evaluating i k']).log →
                .returned i' k w ∈ σ.log := by
              intro i' w hm
              simpa [LSt.say, LSt.put] using hm
            refine ⟨⟨fun n j hn hjk => hkp n j (hjobs n j hn hjk) hjk, fun n n' j j' hn hjk hn' hjk' =>
              hun n n' j j' (hjobs n j hn hjk) hjk (hjobs n' j' hn' hjk') hjk'⟩, ?_⟩
            rcases ih with ⟨h1, h2, h3, h4⟩ | ⟨w, h1, h2, h3, h4⟩
            · refine .inl ⟨h1, fun i' v' hm => h2 _ _ (hret _ _ hm), by rw [hev]; exact h3, fun he => ?_⟩
              rw [hev] at he
              obtain ⟨n, j, hn, hjk⟩ := h4 he
              refine ⟨n, j, ?_, hjk⟩
              simp only [LSt.say, LSt.put]
              rw [if_neg (by rintro rfl; rw [hj] at hn; cases hn)]
              exact hn
            · refine .inr ⟨w, h1, fun i' v' hm => h2 _ _ (hret _ _ hm), by rw [hev]; exact h3, fun n j hn hjk => ?_⟩
              exact h4 n j (hjobs n j hn hjk) hjk
        · cases hstep
          refine ⟨⟨hkp, hun⟩, ?_⟩
          have hev : evals k (σ.say [.absent i k']).log = evals k σ.log := by
            simp [LSt.say, evals, List.countP_append]
          have hret : ∀ i' w, .returned i' k w ∈ (σ.say [.absent i k']).log → .returned i' k w ∈ σ.log := by
            intro i' w hm; simpa [LSt.say] using hm
          rcases ih with ⟨h1, h2, h3, h4⟩ | ⟨w, h1, h2, h3, h4⟩
          · exact .inl ⟨h1, fun i' v' hm => h2 _ _ (hret _ _ hm), by rw [hev]; exact h3, fun he => h4 (by rw [hev] at he; exact he)⟩
          · exact .inr ⟨w, h1, fun i' v' hm => h2 _ _ (hret _ _ hm), by rw [hev]; exact h3, h4⟩
      | yield i v =>
        simp only [step] at hstep
        split at hstep
        · next k' keep hj =>
          split at hstep
          · cases hstep
            have hev : evals k ((σ.put i (some ⟨k', keep, some v⟩)).say [.got i k' v]).log = evals k σ.log := by
              simp [LSt.say, LSt.put, evals, List.countP_append]
            have hret : ∀ i' w, .returned i' k w ∈ ((σ.put i (some ⟨k', keep, some v⟩)).say [.got i k' v]).log →
                .returned i' k w ∈ σ.log := by
              intro i' w hm; simpa [LSt.say, LSt.put] using hm
            -- every goroutine works on what it worked on before
            have hjobs : ∀ n j, ((σ.put i (some ⟨k', keep, some v⟩)).say [.got i k' v]).jobs n = some j →
                ∃ j0, σ.jobs n = some j0 ∧ j0.key = j.key ∧ j0.keep = j.keep := by
              intro n j hn
              simp only [LSt.say, LSt.put] at hn
              split at hn
              · next e => cases hn; subst e; exact ⟨_, hj, rfl, rfl⟩
              · exact ⟨j, hn, rfl, rfl⟩
            have hjobs' : ∀ n j, σ.jobs n = some j →
                ∃ j0, ((σ.put i (some ⟨k', keep, some v⟩)).say [.got i k' v]).jobs n = some j0 ∧ j0.key = j.key := by
              intro n j hn
              simp only [LSt.say, LSt.put]
              by_cases e : n = i
              · subst e; rw [hj] at hn; cases hn; exact ⟨⟨k', keep, some v⟩, by rw [if_pos rfl], rfl⟩
              · exact ⟨j, by rw [if_neg e]; exact hn, rfl⟩
            refine ⟨⟨?_, ?_⟩, ?_⟩
            · intro n j hn hjk
              obtain ⟨j0, a1, a2, a3⟩ := hjobs n j hn
              rw [← a3]; exact hkp n j0 a1 (a2.trans hjk)
            · intro n n' j j' hn hjk hn' hjk'
              obtain ⟨j0, a1, a2, a3⟩ := hjobs n j hn
              obtain ⟨j0', b1, b2, b3⟩ := hjobs n' j' hn'
              exact hun n n' j0 j0' a1 (a2.trans hjk) b1 (b2.trans hjk')
            rcases ih with ⟨h1, h2, h3, h4⟩ | ⟨w, h1, h2, h3, h4⟩
            · refine .inl ⟨h1, fun i' v' hm => h2 _ _ (hret _ _ hm), by rw [hev]; exact h3, fun he => ?_⟩
              rw [hev] at he
              obtain ⟨n, j, hn, hjk⟩ := h4 he
              obtain ⟨j0, a1, a2⟩ := hjobs' n j hn
              exact ⟨n, j0, a1, a2.trans hjk⟩
            · refine .inr ⟨w, h1, fun i' v' hm => h2 _ _ (hret _ _ hm), by rw [hev]; exact h3, fun n j hn hjk => ?_⟩
              obtain ⟨j0, a1, a2, _⟩ := hjobs n j hn
              exact h4 n j0 a1 (a2.trans hjk)
          · cases hstep
        · cases hstep
      | done i =>
        simp only [step] at hstep
        -- the goroutine is free afterwards
        have hfree : ∀ (c : K → Option V) (l : List (Ev K V)) n j,
            ((LSt.put { σ with cache := c } i none).say l).jobs n = some j → n ≠ i ∧ σ.jobs n = some j := by
          intro c l n j hn
          simp only [LSt.say, LSt.put] at hn
          split at hn
          · cases hn
          · next e => exact ⟨e, hn⟩
        split at hstep
        · next k' v hj =>
          cases hstep
          have hev : ∀ c, evals k ((LSt.put { σ with cache := c } i none).say [.stored i k' v, .returned i k' v]).log =
              evals k σ.log := by
            intro c; simp [LSt.say, LSt.put, evals, List.countP_append]
          refine ⟨⟨fun n j hn hjk => hkp n j (hfree _ _ n j hn).2 hjk, fun n n' j j' hn hjk hn' hjk' =>
            hun n n' j j' (hfree _ _ n j hn).2 hjk (hfree _ _ n' j' hn').2 hjk'⟩, ?_⟩
          by_cases hk : k' = k
          · subst hk
            rcases ih with ⟨h1, h2, h3, h4⟩ | ⟨w, h1, h2, h3, h4⟩
            · refine .inr ⟨v, by simp [LSt.say, LSt.put], fun i' w hm => ?_, by rw [hev]; exact h3, fun n j hn hjk => ?_⟩
              · simp only [LSt.say, LSt.put, List.mem_append, List.mem_cons, List.not_mem_nil, reduceCtorEq, or_false,
                  false_or] at hm
                rcases hm with hm | hm
                · exact absurd hm (h2 _ _)
                · cases hm; rfl
              · obtain ⟨hne, hn'⟩ := hfree _ _ n j hn
                exact hne (hun n i j _ hn' hjk hj rfl)
            · exact absurd rfl (h4 i _ hj)
          · have hret : ∀ c i' w, .returned i' k w ∈ ((LSt.put { σ with cache := c } i none).say
                [.stored i k' v, .returned i k' v]).log → .returned i' k w ∈ σ.log := by
              intro c i' w hm
              simp only [LSt.say, LSt.put, List.mem_append, List.mem_cons, List.not_mem_nil, reduceCtorEq, or_false,
                false_or] at hm
              rcases hm with hm | hm
              · exact hm
              · cases hm; exact absurd rfl hk
            have hcache : (if k = k' then some v else σ.cache k) = σ.cache k := if_neg fun e => hk e.symm
            rcases ih with ⟨h1, h2, h3, h4⟩ | ⟨w, h1, h2, h3, h4⟩
            · refine .inl ⟨hcache.trans h1, fun i' v' hm => h2 _ _ (hret _ _ _ hm), by rw [hev]; exact h3, fun he => ?_⟩
              rw [hev] at he
              obtain ⟨n, j, hn, hjk⟩ := h4 he
              refine ⟨n, j, ?_, hjk⟩
              simp only [LSt.say, LSt.put]
              rw [if_neg (by rintro rfl; rw [hj] at hn; cases hn; exact hk hjk)]
              exact hn
            · exact .inr ⟨w, hcache.trans h1, fun i' v' hm => h2 _ _ (hret _ _ _ hm), by rw [hev]; exact h3,
                fun n j hn hjk => h4 n j (hfree _ _ n j hn).2 hjk⟩
        · next k' v hj =>
          cases hstep
          have hk : k' ≠ k := fun e => absurd (hkp i _ hj e) (by simp)
          have hev : evals k ((σ.put i none).say [.returned i k' v]).log = evals k σ.log := by
            simp [LSt.say, LSt.put, evals, List.countP_append]
          have hret : ∀ i' w, .returned i' k w ∈ ((σ.put i none).say [.returned i k' v]).log → .returned i' k w ∈ σ.log := by
            intro i' w hm
            simp only [LSt.say, LSt.put, List.mem_append, List.mem_singleton] at hm
            rcases hm with hm | hm
            · exact hm
            · cases hm; exact absurd rfl hk
          have hfree' := hfree σ.cache [.returned i k' v]
          refine ⟨⟨fun n j hn hjk => hkp n j (hfree' n j hn).2 hjk, fun n n' j j' hn hjk hn' hjk' =>
            hun n n' j j' (hfree' n j hn).2 hjk (hfree' n' j' hn').2 hjk'⟩, ?_⟩
          rcases ih with ⟨h1, h2, h3, h4⟩ | ⟨w, h1, h2, h3, h4⟩
          · refine .inl ⟨h1, fun i' v' hm => h2 _ _ (hret _ _ hm), by rw [hev]; exact h3, fun he => ?_⟩
            rw [hev] at he
            obtain ⟨n, j, hn, hjk⟩ := h4 he
            refine ⟨n, j, ?_, hjk⟩
            simp only [LSt.say, LSt.put]
            rw [if_neg (by rintro rfl; rw [hj] at hn; cases hn; exact hk hjk)]
            exact hn
          · exact .inr ⟨w, h1, fun i' v' hm => h2 _ _ (hret _ _ hm), by rw [hev]; exact h3,
              fun n j hn hjk => h4 n j (hfree' n j hn).2 hjk⟩
        · cases hstep
  rcases key.2 with ⟨h1, h2, h3, h4⟩ | ⟨v, h1, h2, h3, h4⟩
  · exact ⟨h3, fun i j v w hv => absurd hv (h2 i v)⟩
  · exact ⟨h3, fun i j a b ha hb => (h2 i a ha).trans (h2 j b hb).symm⟩

/-! ## Nobody waits for another goroutine -/

/-- **C85** A goroutine never waits for another one: when its getter has returned it can finish, whatever
the others do. -/
theorem C85_no_waiting {σ : LSt K V} {i : Nat} {j : Job K V} (h : σ.jobs i = some j) :
    match j.val with
    | none => ∀ v, can j.key v = true → ∃ σ', step cols can σ (.yield i v) = some σ'
    | some v => ∃ σ', step cols can σ (.done i) = some σ' ∧ σ'.jobs i = none ∧ .returned i j.key v ∈ σ'.log := by
  obtain ⟨k, keep, val⟩ := j
  cases val with
  | none =>
    intro v hv
    simp only [step, h]
    rw [if_pos hv]
    exact ⟨_, rfl⟩
  | some v =>
    cases keep
    · exact ⟨_, by simp only [step, h]; rfl, by simp [LSt.say, LSt.put], by simp [LSt.say, LSt.put]⟩
    · exact ⟨_, by simp only [step, h]; rfl, by simp [LSt.say, LSt.put], by simp [LSt.say, LSt.put]⟩

end

/-! ## Examples and limits -/

/-- A schedule. -/
def runActs (cols : Nat → Bool) (can : Nat → Nat → Bool) : List (Act Nat Nat) → LSt Nat Nat → Option (LSt Nat Nat)
  | [], σ => some σ
  | a :: l, σ => (step cols can σ a).bind (runActs cols can l)

theorem later_run {cols : Nat → Bool} {can : Nat → Nat → Bool} {l : List (Act Nat Nat)} {σ0 σ σ' : LSt Nat Nat}
    (h0 : Later cols can σ0 σ) (h : runActs cols can l σ = some σ') : Later cols can σ0 σ' := by
  induction l generalizing σ with
  | nil => cases h; exact h0
  | cons a l ih =>
    simp only [runActs] at h
    cases hs : step cols can σ a with
    | none => rw [hs] at h; cases h
    | some x => rw [hs] at h; exact ih (.step a h0 hs) h

deriving instance DecidableEq for Ev

/-- Two goroutines ask for column 0 one after the other, then a third for a column there is not. -/
example : ((runActs (fun k => k == 0) (fun _ _ => true) [.ask 1 0 true, .yield 1 7, .done 1, .ask 2 0 true, .ask 3 5 true]
    .init).map (·.log)) = some [.evaluating 1 0, .got 1 0 7, .stored 1 0 7, .returned 1 0 7, .returned 2 0 7, .absent 3 5] := by
  decide +kernel

/-- A goroutine asks, gets its value and stores it; another one asks afterwards. -/
example : ∃ σ : LSt Nat Nat, Alone (fun _ => true) (fun _ _ => true) 0 σ ∧ evals 0 σ.log = 1 ∧
    .returned 1 0 7 ∈ σ.log ∧ .returned 2 0 7 ∈ σ.log := by
  refine ⟨_, .step (.ask 2 0 true) (.step (.done 1) (.step (.yield 1 7) (.step (.ask 1 0 true) .init rfl ?_) rfl ?_) rfl ?_)
    rfl ?_, ?_⟩
  · rintro i keep h; cases h; exact ⟨rfl, by simp [LSt.init]⟩
  · rintro i keep h; cases h
  · rintro i keep h; cases h
  · rintro i keep h
    cases h
    refine ⟨rfl, fun n j hn => ?_⟩
    simp only [LSt.say, LSt.put, LSt.init] at hn
    split at hn
    · cases hn
    · next e => simp [e] at hn
  · decide +kernel

/-- The column is settled after the first goroutine is done. -/
example : ∃ σ : LSt Nat Nat, Reach (fun _ => true) (fun _ _ => true) σ ∧ σ.cache 0 = some 7 ∧ σ.jobs 1 = none ∧ σ.jobs 2 = none := by
  have h : ∃ σ, runActs (fun _ => true) (fun _ _ => true) [.ask 1 0 true, .yield 1 7, .done 1] .init = some σ := ⟨_, rfl⟩
  obtain ⟨σ, hσ⟩ := h
  refine ⟨σ, later_run .refl hσ, ?_⟩
  cases hσ
  exact ⟨rfl, rfl, rfl⟩

/-- **C85 (refuted in general)** Two goroutines that ask for a column at the same time both evaluate it,
and are given different values if the getter does not always give the same; the value stored last is the
one the others see. -/
theorem C85_twice_refuted : ∃ σ : LSt Nat Nat, Reach (fun _ => true) (fun _ _ => true) σ ∧ evals 0 σ.log = 2 ∧
    .returned 1 0 7 ∈ σ.log ∧ .returned 2 0 8 ∈ σ.log ∧ .returned 3 0 7 ∈ σ.log ∧ .returned 4 0 8 ∈ σ.log := by
  have h : ∃ σ, runActs (fun _ => true) (fun _ _ => true) [.ask 1 0 true, .ask 2 0 true, .yield 1 7, .yield 2 8, .done 1,
      .ask 3 0 true, .done 2, .ask 4 0 true] .init = some σ := ⟨_, rfl⟩
  obtain ⟨σ, hσ⟩ := h
  refine ⟨σ, later_run .refl hσ, ?_⟩
  cases hσ
  decide +kernel

/-- **C85 (refuted for rows that are materialized)** `MaterializedLazyRow` does not store what it evaluates,
so a column it has evaluated is evaluated again by the next `Get`, also without any overlap. -/
theorem C85_materialized_refuted : ∃ σ : LSt Nat Nat, Reach (fun _ => true) (fun _ _ => true) σ ∧ evals 0 σ.log = 2 ∧
    σ.log.take 3 = [.evaluating 1 0, .got 1 0 7, .returned 1 0 7] ∧ .returned 1 0 8 ∈ σ.log := by
  have h : ∃ σ, runActs (fun _ => true) (fun _ _ => true) [.ask 1 0 false, .yield 1 7, .done 1, .ask 1 0 true, .yield 1 8, .done 1]
      .init = some σ := ⟨_, rfl⟩
  obtain ⟨σ, hσ⟩ := h
  refine ⟨σ, later_run .refl hσ, ?_⟩
  cases hσ
  decide +kernel

end Vfilter.LazyConc
