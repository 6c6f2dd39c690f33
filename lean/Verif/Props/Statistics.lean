import Verif.Statistics
/-!
# C102: statistics count everything once
-/
set_option linter.all false

namespace Vfilter.Statistics

/-- Is it an increment of this counter? -/
def Act.isInc (d : Nat) (c : Ctr) : Act → Bool
  | .inc d' c' => d' == d && c' == c
  | .load _ _ => false

/-- The increments of a counter that are still to be made. -/
def pending (d : Nat) (c : Ctr) (gs : List Gor) : Nat := (gs.map (fun g => g.todo.countP (Act.isInc d c))).sum

/-- The calls that a counter counts. -/
def Call.counts (d : Nat) : Ctr → Call → Bool
  | .rows, .row d' => d' == d
  | .plugins, .plugin d' => d' == d
  | .functions, .function d' => d' == d
  | .copies, .copy d' => d' == d
  | _, _ => false

/-- The number of calls that a counter counts. -/
def total (d : Nat) (c : Ctr) (calls : List (List Call)) : Nat := (calls.map (fun cs => cs.countP (Call.counts d c))).sum

theorem pending_set (d : Nat) (c : Ctr) : ∀ (gs : List Gor) (i : Nat) (g g' : Gor), gs[i]? = some g →
    pending d c (gs.set i g') + g.todo.countP (Act.isInc d c) = pending d c gs + g'.todo.countP (Act.isInc d c)
  | [], i, g, g', h => by simp at h
  | a :: gs, 0, g, g', h => by simp at h; subst h; simp [pending]; omega
  | a :: gs, i + 1, g, g', h => by
    have := pending_set d c gs i g g' (by simpa using h)
    simp only [pending, List.set_cons_succ, List.map_cons, List.sum_cons] at this ⊢
    omega

theorem step_count (d : Nat) (c : Ctr) (s : St) (i : Nat) :
    (s.step i).mem d c + BitVec.ofNat 64 (pending d c (s.step i).gors) = s.mem d c + BitVec.ofNat 64 (pending d c s.gors) := by
  unfold St.step
  cases hg : s.gors[i]? with
  | none => rfl
  | some g =>
    dsimp only
    cases ht : g.todo with
    | nil => rfl
    | cons a rest =>
      cases a with
      | load d' c' =>
        have := pending_set d c s.gors i g ⟨rest, g.got ++ [(d', c', s.mem d' c')]⟩ hg
        rw [ht] at this
        simp [List.countP_cons, Act.isInc] at this
        simp only
        rw [this]
      | inc d' c' =>
        have := pending_set d c s.gors i g ⟨rest, g.got⟩ hg
        rw [ht] at this
        rw [List.countP_cons] at this
        simp only [bump]
        by_cases h : d = d' ∧ c = c'
        · obtain ⟨rfl, rfl⟩ := h
          simp [Act.isInc] at this
          have e : pending d c s.gors = pending d c (s.gors.set i ⟨rest, g.got⟩) + 1 := by omega
          rw [e, BitVec.ofNat_add]
          simp only [and_self, if_true]
          rw [BitVec.add_assoc, BitVec.add_comm (1#64)]
        · have h' : (d' == d && c' == c) = false := by
            cases e1 : (d' == d && c' == c) with
            | false => rfl
            | true => simp at e1; exact absurd ⟨e1.1.symm, e1.2.symm⟩ h
          simp [Act.isInc, h'] at this
          rw [if_neg h, this]

theorem run_count (d : Nat) (c : Ctr) (sched : List Nat) (s : St) :
    (s.run sched).mem d c + BitVec.ofNat 64 (pending d c (s.run sched).gors) =
      s.mem d c + BitVec.ofNat 64 (pending d c s.gors) := by
  induction sched generalizing s with
  | nil => rfl
  | cons i sched ih => exact (ih (s.step i)).trans (step_count d c s i)

theorem start_pending (d : Nat) (c : Ctr) (calls : List (List Call)) :
    pending d c (St.start calls).gors = total d c calls := by
  unfold pending total St.start
  rw [List.map_map]
  congr 1
  refine List.map_congr_left (fun cs hcs => ?_)
  clear hcs
  show (cs.flatMap Call.acts).countP (Act.isInc d c) = _
  induction cs with
  | nil => rfl
  | cons x cs ih =>
    rw [List.flatMap_cons, List.countP_append, ih, List.countP_cons]
    have : x.acts.countP (Act.isInc d c) = if Call.counts d c x then 1 else 0 := by
      cases x <;> cases c <;> simp [Call.acts, Act.isInc, Call.counts, List.countP_cons]
    rw [this]; omega

/-- **C102** On every schedule, when all goroutines have made their calls, each counter is the number of calls it counts
(modulo 2^64): none is lost and none is counted twice. -/
theorem C102_exact (calls : List (List Call)) (sched : List Nat) (d : Nat) (c : Ctr)
    (hend : ∀ g ∈ ((St.start calls).run sched).gors, g.todo = []) :
    ((St.start calls).run sched).mem d c = BitVec.ofNat 64 (total d c calls) := by
  have h := run_count d c sched (St.start calls)
  have h0 : pending d c ((St.start calls).run sched).gors = 0 := by
    unfold pending
    generalize ((St.start calls).run sched).gors = gs at hend
    induction gs with
    | nil => rfl
    | cons g gs ih =>
      rw [List.map_cons, List.sum_cons, ih (fun x hx => hend x (List.mem_cons_of_mem _ hx)), hend g List.mem_cons_self]
      rfl
  rw [h0, start_pending] at h
  simpa [St.start] using h

/-- **C102** At any time, a counter is the number of calls it counts without those that are still to be made. -/
theorem C102_meanwhile (calls : List (List Call)) (sched : List Nat) (d : Nat) (c : Ctr) :
    ((St.start calls).run sched).mem d c + BitVec.ofNat 64 (pending d c ((St.start calls).run sched).gors) =
      BitVec.ofNat 64 (total d c calls) := by
  rw [run_count, start_pending]; simp [St.start]

theorem run_snoc (s : St) (l : List Nat) (i : Nat) : s.run (l ++ [i]) = (s.run l).step i := by
  unfold St.run; rw [List.foldl_append]; rfl

/-- **C102** What a goroutine has read are values that the counters had at some moments of the execution, in this order. -/
theorem C102_read (calls : List (List Call)) (sched : List Nat) (i : Nat) (g : Gor)
    (hg : ((St.start calls).run sched).gors[i]? = some g) (e : Nat × Ctr × BitVec 64) (he : e ∈ g.got) :
    ∃ l r, sched = l ++ r ∧ e.2.2 = ((St.start calls).run l).mem e.1 e.2.1 := by
  have : ∀ (rev : List Nat) (i : Nat) (g : Gor), ((St.start calls).run rev.reverse).gors[i]? = some g →
      ∀ e ∈ g.got, ∃ l r, rev.reverse = l ++ r ∧ e.2.2 = ((St.start calls).run l).mem e.1 e.2.1 := by
    intro rev
    induction rev with
    | nil =>
      intro i g hg e he
      simp [St.run, St.start] at hg
      obtain ⟨a, _, rfl⟩ := hg
      cases he
    | cons j rev ih =>
      intro i g hg e he
      rw [List.reverse_cons] at hg ⊢
      have old : ∀ g', ((St.start calls).run rev.reverse).gors[i]? = some g' → e ∈ g'.got →
          ∃ l r, rev.reverse ++ [j] = l ++ r ∧ e.2.2 = ((St.start calls).run l).mem e.1 e.2.1 := by
        intro g' h1 h2
        obtain ⟨l, r, h3, h4⟩ := ih i g' h1 e h2
        exact ⟨l, r ++ [j], by rw [h3, List.append_assoc], h4⟩
      rw [run_snoc] at hg
      generalize hs : (St.start calls).run rev.reverse = s at hg old
      unfold St.step at hg
      cases hj : s.gors[j]? with
      | none => rw [hj] at hg; exact old g hg he
      | some gj =>
        rw [hj] at hg
        dsimp only at hg
        cases ht : gj.todo with
        | nil => rw [ht] at hg; exact old g hg he
        | cons a rest =>
          rw [ht] at hg
          cases a with
          | inc d c =>
            dsimp only at hg
            rw [List.getElem?_set] at hg
            split at hg
            · rename_i hji; subst hji
              split at hg
              · cases hg; exact old gj hj he
              · cases hg
            · exact old g hg he
          | load d c =>
            dsimp only at hg
            rw [List.getElem?_set] at hg
            split at hg
            · rename_i hji; subst hji
              split at hg
              · cases hg
                rcases List.mem_append.1 he with h | h
                · exact old gj hj h
                · rw [List.mem_singleton] at h; subst h
                  exact ⟨rev.reverse, [j], rfl, by rw [hs]⟩
              · cases hg
            · exact old g hg he
  have h := this sched.reverse i g
  rw [List.reverse_reverse] at h
  exact h hg e he

/-- The counters that steps read. -/
def loads : List Act → List (Nat × Ctr)
  | [] => []
  | .load d c :: l => (d, c) :: loads l
  | .inc _ _ :: l => loads l

/-- **C102** A goroutine reads the counters it has to read, each once and in order. -/
theorem C102_complete (calls : List (List Call)) (sched : List Nat) (i : Nat) (cs : List Call) (g : Gor)
    (hc : calls[i]? = some cs) (hg : ((St.start calls).run sched).gors[i]? = some g) :
    g.got.map (fun e => (e.1, e.2.1)) ++ loads g.todo = loads (cs.flatMap Call.acts) := by
  have : ∀ (sched : List Nat) (s : St) (g0 g : Gor), s.gors[i]? = some g0 → (s.run sched).gors[i]? = some g →
      g.got.map (fun e => (e.1, e.2.1)) ++ loads g.todo = g0.got.map (fun e => (e.1, e.2.1)) ++ loads g0.todo := by
    intro sched
    induction sched with
    | nil => intro s g0 g h1 h2; rw [show s.run [] = s from rfl, h1] at h2; cases h2; rfl
    | cons j sched ih =>
      intro s g0 g h1 h2
      have key : ∃ g1, (s.step j).gors[i]? = some g1 ∧
          g1.got.map (fun e => (e.1, e.2.1)) ++ loads g1.todo = g0.got.map (fun e => (e.1, e.2.1)) ++ loads g0.todo := by
        unfold St.step
        cases hj : s.gors[j]? with
        | none => exact ⟨g0, h1, rfl⟩
        | some gj =>
          dsimp only
          cases ht : gj.todo with
          | nil => exact ⟨g0, h1, rfl⟩
          | cons a rest =>
            by_cases hji : j = i
            · subst hji
              rw [hj] at h1; cases h1
              have hlt := (List.getElem?_eq_some_iff.1 hj).1
              cases a with
              | inc d c => exact ⟨⟨rest, g0.got⟩, by simp [hlt], by simp [ht, loads]⟩
              | load d c => exact ⟨⟨rest, g0.got ++ [(d, c, s.mem d c)]⟩, by simp [hlt], by simp [ht, loads]⟩
            · cases a <;> exact ⟨g0, by simp [List.getElem?_set, hji, h1], rfl⟩
      obtain ⟨g1, k1, k2⟩ := key
      exact (ih (s.step j) g1 g k1 h2).trans k2
  have h := this sched (St.start calls) ⟨cs.flatMap Call.acts, []⟩ g (by simp [St.start, hc]) hg
  simpa using h

/-- **C102** A goroutine that has taken a snapshot has one number for each counter. -/
theorem C102_snapshot (calls : List (List Call)) (sched : List Nat) (i d : Nat) (g : Gor)
    (hc : calls[i]? = some [.snapshot d]) (hg : ((St.start calls).run sched).gors[i]? = some g) (hend : g.todo = []) :
    g.got.map (fun e => (e.1, e.2.1)) =
      [(d, .rows), (d, .plugins), (d, .functions), (d, .protocol), (d, .copies)] := by
  have h := C102_complete calls sched i _ g hc hg
  rw [hend] at h
  simpa [loads, Call.acts] using h

/-- **C102, refuted for the five numbers of one snapshot**: there need not be a moment at which the counters had these values.
A row is counted and then a plugin; the snapshot has the plugin and not the row. -/
theorem C102_snapshot_refuted : ∃ (calls : List (List Call)) (sched : List Nat) (g : Gor),
    ((St.start calls).run sched).gors[1]? = some g ∧ g.todo = [] ∧
    (0, Ctr.rows, 0#64) ∈ g.got ∧ (0, Ctr.plugins, 1#64) ∈ g.got ∧
    ∀ l r, sched = l ++ r → ¬ (((St.start calls).run l).mem 0 .rows = 0#64 ∧ ((St.start calls).run l).mem 0 .plugins = 1#64) := by
  refine ⟨[[.row 0, .plugin 0], [.snapshot 0]], [1, 0, 0, 1, 1, 1, 1], _, rfl, rfl, by decide, by decide, ?_⟩
  intro l r h
  have hl : l = [1, 0, 0, 1, 1, 1, 1].take l.length := by rw [h]; simp
  have hn : l.length ≤ 7 := by have := congrArg List.length h; simp at this; omega
  rw [hl]
  generalize l.length = n at hn
  have : n = 0 ∨ n = 1 ∨ n = 2 ∨ n = 3 ∨ n = 4 ∨ n = 5 ∨ n = 6 ∨ n = 7 := by omega
  rcases this with rfl | rfl | rfl | rfl | rfl | rfl | rfl | rfl <;> decide

/-- **C102, refuted for the searches of protocols**: nothing counts them; the number is always zero. -/
theorem C102_protocol_refuted (calls : List (List Call)) (sched : List Nat) (d : Nat) :
    ((St.start calls).run sched).mem d .protocol = 0#64 := by
  have h := C102_meanwhile calls sched d .protocol
  have ht : total d .protocol calls = 0 := by
    unfold total
    induction calls with
    | nil => rfl
    | cons cs calls ih =>
      rw [List.map_cons, List.sum_cons]
      have : cs.countP (Call.counts d .protocol) = 0 := by
        rw [List.countP_eq_zero]; intro x _; cases x <;> simp [Call.counts]
      rw [this]
      have ih' : (calls.map (fun cs => cs.countP (Call.counts d .protocol))).sum = 0 := by
        clear h ih this
        induction calls with
        | nil => rfl
        | cons a l ih =>
          rw [List.map_cons, List.sum_cons, ih]
          have : a.countP (Call.counts d .protocol) = 0 := by
            rw [List.countP_eq_zero]; intro x _; cases x <;> simp [Call.counts]
          rw [this]
      rw [ih']
  have hp : pending d .protocol ((St.start calls).run sched).gors ≤ pending d .protocol (St.start calls).gors := by
    clear h ht
    generalize St.start calls = s
    induction sched generalizing s with
    | nil => exact Nat.le_refl _
    | cons i sched ih =>
      refine Nat.le_trans (ih (s.step i)) ?_
      unfold St.step
      cases hg : s.gors[i]? with
      | none => exact Nat.le_refl _
      | some g =>
        dsimp only
        cases hto : g.todo with
        | nil => exact Nat.le_refl _
        | cons a rest =>
          cases a with
          | inc d' c' =>
            have := pending_set d .protocol s.gors i g ⟨rest, g.got⟩ hg
            rw [hto] at this; simp only [List.countP_cons] at this; dsimp only; omega
          | load d' c' =>
            have := pending_set d .protocol s.gors i g ⟨rest, g.got ++ [(d', c', s.mem d' c')]⟩ hg
            rw [hto] at this; simp only [List.countP_cons] at this; dsimp only; omega
  rw [start_pending, ht] at hp
  have h0 : pending d .protocol ((St.start calls).run sched).gors = 0 := by omega
  rw [h0, ht] at h
  simpa using h

/-- Two goroutines and a snapshot after them. -/
example : let s := (St.start [[.row 0, .row 0], [.row 0, .row 1, .snapshot 0]]).run [0, 1, 0, 1, 1, 1, 1, 1, 1]
    (∀ g ∈ s.gors, g.todo = []) ∧ s.mem 0 .rows = 3#64 ∧ s.mem 1 .rows = 1#64 ∧
    (s.gors[1]?).map (fun g => g.got.map (·.2.2)) = some [3#64, 0#64, 0#64, 0#64, 0#64] := by decide

end Vfilter.Statistics
