import Verif.OutputJson
/-!
# C101: OutputJSON encodes all rows
-/
set_option linter.all false

namespace Vfilter.OutputJson

variable {R D B : Type} {dict : R → D} {enc : List D → B}

/-- Executions. -/
inductive Runs (dict : R → D) (enc : List D → B) (s : St R D B) : St R D B → Prop
  | refl : Runs dict enc s s
  | step {t u} : Runs dict enc s t → Step dict enc t u → Runs dict enc s u

/-- A row has been received and not been charged. -/
def owed : At B → Nat
  | .charging => 1
  | _ => 0

/-- The loop is over. -/
def over : At B → Bool
  | .encoding => true
  | .done _ => true
  | _ => false

/-- What holds at any time. -/
structure Inv (dict : R → D) (enc : List D → B) (rows : List R) (thr : Thr) (s : St R D B) : Prop where
  rows : s.sent ++ s.todo = rows
  acc : s.acc = s.sent.map dict
  charges : s.sent.length = s.charges + owed s.pos
  ended : over s.pos = true → s.todo = [] ∨ s.cancelled = true
  out : ∀ b, s.pos = .done b → b = enc s.acc
  rate : thr = .ticking → s.thr = .ticking → s.charges + (if s.tick then 1 else 0) ≤ s.ticks
  thr : s.thr = thr ∨ (thr = .ticking ∧ s.thr = .closed)

theorem inv_step {rows : List R} {thr : Thr} {s t : St R D B} (i : Inv dict enc rows thr s) (h : Step dict enc s t) :
    Inv dict enc rows thr t := by
  obtain ⟨i1, i2, i3, i4, i5, i6, i7⟩ := i
  cases h with
  | row hp h =>
    refine ⟨?_, ?_, ?_, ?_, ?_, i6, i7⟩
    · rw [← i1, h]; simp
    · simp [i2]
    · rw [hp] at i3; simp [owed] at i3; simp [owed, i3]
    · intro h; cases h
    · intro b hb; cases hb
  | free hp h =>
    refine ⟨i1, i2, ?_, (fun h => by cases h), (fun b hb => by cases hb), ?_, i7⟩
    · rw [hp] at i3; simp [owed] at i3; simp [owed, i3]
    · intro _ e; exact absurd e h
  | take hp h ht =>
    refine ⟨i1, i2, ?_, (fun h => by cases h), (fun b hb => by cases hb), ?_, i7⟩
    · rw [hp] at i3; simp [owed] at i3; simp [owed, i3]
    · intro e1 e2
      have := i6 e1 e2
      rw [ht] at this; simp at this; simpa using this
  | tick h =>
    refine ⟨i1, i2, i3, i4, i5, ?_, i7⟩
    intro e1 e2
    have := i6 e1 e2
    simp only [if_true]
    split at this <;> omega
  | closeThr h =>
    refine ⟨i1, i2, i3, i4, i5, (fun _ e => by cases e), .inr ⟨?_, rfl⟩⟩
    rcases i7 with e | ⟨e, _⟩
    · rw [← e, h]
    · exact e
  | eof hp h =>
    refine ⟨i1, i2, ?_, fun _ => h, (fun b hb => by cases hb), i6, i7⟩
    rw [hp] at i3; simpa [owed] using i3
  | encode hp =>
    refine ⟨i1, i2, ?_, fun _ => i4 (by rw [hp]; rfl), (fun b hb => by cases hb; rfl), i6, i7⟩
    rw [hp] at i3; simpa [owed] using i3
  | cancel => exact ⟨i1, i2, i3, fun _ => .inr rfl, i5, i6, i7⟩

theorem inv_runs {rows : List R} {thr : Thr} {t : St R D B} (h : Runs dict enc (.init rows thr) t) :
    Inv dict enc rows thr t := by
  induction h with
  | refl => exact ⟨rfl, rfl, rfl, (fun h => by cases h), (fun b hb => by cases hb), (fun _ _ => by simp [St.init]), .inl rfl⟩
  | step _ h2 ih => exact inv_step ih h2

/-- **C101** On every schedule, if the query is not cancelled, the result is the encoding of all its rows in order, each
converted to a dictionary, and the throttler has been charged once for each. -/
theorem C101_result {rows : List R} {thr : Thr} {t : St R D B} (h : Runs dict enc (.init rows thr) t) {b : B}
    (hb : t.pos = .done b) (hc : t.cancelled = false) : b = enc (rows.map dict) ∧ t.charges = rows.length := by
  have i := inv_runs h
  have hd : t.todo = [] := by
    rcases i.ended (by rw [hb]; rfl) with e | e
    · exact e
    · rw [hc] at e; cases e
  have hs : t.sent = rows := by have := i.rows; rw [hd] at this; simpa using this
  refine ⟨by rw [i.out b hb, i.acc, hs], ?_⟩
  have := i.charges
  rw [hb, hs] at this; simpa [owed] using this.symm

/-- **C101** If it is cancelled, it is the encoding of the first rows. -/
theorem C101_cancelled {rows : List R} {thr : Thr} {t : St R D B} (h : Runs dict enc (.init rows thr) t) {b : B}
    (hb : t.pos = .done b) : ∃ n, n ≤ rows.length ∧ b = enc ((rows.take n).map dict) ∧ t.charges = n := by
  have i := inv_runs h
  have hr := i.rows
  refine ⟨t.sent.length, by rw [← hr]; simp, ?_, ?_⟩
  · rw [i.out b hb, i.acc, ← hr]; simp
  · have := i.charges
    rw [hb] at this; simpa [owed] using this.symm

/-- **C101** While the throttler is open, rows are not received faster than it ticks: at any time there is at most one
row more than ticks. -/
theorem C101_rate {rows : List R} {t : St R D B} (h : Runs dict enc (.init rows .ticking) t) (ht : t.thr = .ticking) :
    t.acc.length ≤ t.ticks + 1 := by
  have i := inv_runs h
  have h1 := i.rate rfl ht
  have h2 := i.charges
  rw [i.acc, List.length_map, h2]
  have : owed t.pos ≤ 1 := by cases t.pos <;> simp [owed]
  split at h1 <;> omega

/-- The steps of the loop that are left. -/
def left (s : St R D B) : Nat := 2 * s.todo.length + (match s.pos with
  | .receiving => 2
  | .charging => 3
  | .encoding => 1
  | .done _ => 0)

/-- **C101** The call ends: no step makes more work for the loop, at the beginning it has at most 2 steps for each row and 2
more to make, and as long as it has not returned it can make one, if need be after a tick. -/
theorem C101_ends {s : St R D B} :
    (∀ t, Step dict enc s t → left t ≤ left s) ∧
    ((∀ b, s.pos ≠ .done b) → (∃ t, Step dict enc s t ∧ left t < left s) ∨
      (s.thr = .ticking ∧ Step dict enc s { s with tick := true, ticks := s.ticks + 1 } ∧
        ∃ t, Step dict enc { s with tick := true, ticks := s.ticks + 1 } t ∧ left t < left s)) ∧
    (∀ rows thr, left (St.init rows thr : St R D B) = 2 * rows.length + 2) ∧
    (left s = 0 → ∃ b, s.pos = .done b) := by
  refine ⟨?_, ?_, fun rows thr => by simp [left, St.init], ?_⟩
  · intro t h
    cases h with
    | row hp h => simp [left, hp, h]; omega
    | free hp h => simp [left, hp]
    | take hp h ht => simp [left, hp]
    | tick h => exact Nat.le_refl _
    | closeThr h => exact Nat.le_refl _
    | eof hp h => simp [left, hp]
    | encode hp => simp [left, hp]
    | cancel => exact Nat.le_refl _
  · intro hn
    have hpos : s.pos = .receiving ∨ s.pos = .charging ∨ s.pos = .encoding ∨ ∃ b, s.pos = .done b := by
      cases s.pos <;> simp
    rcases hpos with hp | hp | hp | ⟨b, hp⟩
    · cases ht : s.todo with
      | nil => exact .inl ⟨_, .eof hp (.inl ht), by simp [left, hp]⟩
      | cons r rest => exact .inl ⟨_, .row hp ht, by simp [left, hp, ht]; omega⟩
    · by_cases h : s.thr = .ticking
      · exact .inr ⟨h, .tick h, _, .take hp h rfl, by simp [left, hp]⟩
      · exact .inl ⟨_, .free hp h, by simp [left, hp]⟩
    · exact .inl ⟨_, .encode hp, by simp [left, hp]⟩
    · exact absurd hp (hn b)
  · intro h
    unfold left at h
    cases hp : s.pos with
    | done b => exact ⟨b, rfl⟩
    | _ => simp [hp] at h

/-- **C101, refuted for cancelled queries**: the result of a query that was cancelled cannot be told from that of a query
with fewer rows: the same value is returned, whatever the encoder is. -/
theorem C101_cancel_refuted (dict : Nat → D) (enc : List D → B) : ∃ t u : St Nat D B,
    Runs dict enc (.init [1, 2] .none) t ∧ Runs dict enc (.init [1] .none) u ∧ t.pos = u.pos ∧
    t.pos = .done (enc [dict 1]) ∧ t.cancelled = true ∧ u.cancelled = false := by
  have ht : ∃ t : St Nat D B, Runs dict enc (.init [1, 2] .none) t ∧ t.pos = .done (enc [dict 1]) ∧ t.cancelled = true :=
    ⟨_, ((((Runs.refl.step (.row rfl rfl)).step (.free rfl (by simp [St.init]))).step .cancel).step
      (.eof rfl (.inr rfl))).step (.encode rfl), rfl, rfl⟩
  have hu : ∃ u : St Nat D B, Runs dict enc (.init [1] .none) u ∧ u.pos = .done (enc [dict 1]) ∧ u.cancelled = false :=
    ⟨_, (((Runs.refl.step (.row rfl rfl)).step (.free rfl (by simp [St.init]))).step (.eof rfl (.inl rfl))).step
      (.encode rfl), rfl, rfl⟩
  obtain ⟨t, t1, t2, t3⟩ := ht
  obtain ⟨u, u1, u2, u3⟩ := hu
  exact ⟨t, u, t1, u1, t2.trans u2.symm, t2, t3, u3⟩

/-- A call with a throttler that ticks returns. -/
example : ∃ t : St Nat Nat (List Nat), Runs (fun n => n + 1) id (.init [1] .ticking) t ∧ t.pos = .done [2] ∧
    t.cancelled = false ∧ t.thr = .ticking ∧ t.ticks = 1 :=
  ⟨_, ((((Runs.refl.step (.row rfl rfl)).step (.tick rfl)).step (.take rfl rfl rfl)).step (.eof rfl (.inl rfl))).step
    (.encode rfl), rfl, rfl, rfl, rfl⟩

end Vfilter.OutputJson
