import Verif.Props.Conc

/-!
# C38, C39: foreach over all schedules of its workers
-/

set_option linter.all false

namespace Vfilter

/-- `out` is an interleaving of the lists `ls`: each list's elements appear exactly once and in their own order. -/
inductive Interleaving {R : Type} : List (List R) → List R → Prop where
  | nil {ls : List (List R)} : (∀ l ∈ ls, l = []) → Interleaving ls []
  | cons {ls : List (List R)} {i : Nat} {x : R} {xs out : List R} :
      ls[i]? = some (x :: xs) → Interleaving (ls.set i xs) out → Interleaving ls (x :: out)

/-- The entries with a given tag. -/
def proj {R : Type} (i : Nat) (t : List (Nat × R)) : List R :=
  t.filterMap (fun p => if p.1 = i then some p.2 else none)

theorem proj_append {R : Type} (i : Nat) (a b : List (Nat × R)) : proj i (a ++ b) = proj i a ++ proj i b := by
  simp [proj]

theorem proj_single {R : Type} (i j : Nat) (x : R) : proj i [(j, x)] = if j = i then [x] else [] := by
  simp only [proj, List.filterMap_cons, List.filterMap_nil]
  split <;> rename_i h <;> split at h <;> simp_all

theorem interleaving_of_proj {R : Type} (t : List (Nat × R)) : ∀ (ls : List (List R)),
    (∀ i, proj i t = ls[i]?.getD []) → Interleaving ls (t.map Prod.snd) := by
  induction t with
  | nil =>
    intro ls h
    refine .nil ?_
    intro l hl
    obtain ⟨i, hi, rfl⟩ := List.getElem_of_mem hl
    have := h i
    simpa [proj, hi] using this.symm
  | cons p t ih =>
    intro ls h
    obtain ⟨i, x⟩ := p
    have hi := h i
    have e : proj i ((i, x) :: t) = x :: proj i t := by simp [proj]
    rw [e] at hi
    have hls : ls[i]? = some (x :: proj i t) := by
      cases hh : ls[i]? with
      | none => rw [hh] at hi; simp at hi
      | some l => rw [hh] at hi; simp at hi; rw [hi]
    refine .cons hls (ih _ ?_)
    intro j
    by_cases hj : i = j
    · subst hj
      have : i < ls.length := (List.getElem?_eq_some_iff.1 hls).1
      simp [List.getElem?_set, this]
    · have := h j
      rw [List.getElem?_set_ne hj, ← this]
      simp [proj, hj]

variable {R : Type}

/-- The tagged input. -/
def tagged (rows : List R) : List (Nat × R) := rows.zipIdx.map (fun p => (p.2, p.1))

theorem tagged_get (rows : List R) (i : Nat) : (tagged rows)[i]? = (rows[i]?).map (fun r => (i, r)) := by
  simp only [tagged, List.getElem?_map, List.getElem?_zipIdx]
  cases rows[i]? <;> simp

theorem tagged_drop_cons {rows : List R} {h i : Nat} {r : R} {rs : List (Nat × R)}
    (e : (i, r) :: rs = (tagged rows).drop h) : i = h ∧ rows[h]? = some r ∧ rs = (tagged rows).drop (h + 1) := by
  have h1 : ((tagged rows).drop h)[0]? = some (i, r) := by rw [← e]; rfl
  rw [List.getElem?_drop] at h1
  simp only [Nat.add_zero, tagged_get] at h1
  cases hr : rows[h]? with
  | none => rw [hr] at h1; simp at h1
  | some r' =>
    rw [hr] at h1
    simp at h1
    refine ⟨h1.1.symm, by rw [h1.2], ?_⟩
    have : rs = ((i, r) :: rs).drop 1 := rfl
    rw [this, e, List.drop_drop]

theorem drop_nil_length {rows : List R} {h : Nat} (e : (tagged rows).drop h = []) : rows.length ≤ h := by
  rw [List.drop_eq_nil_iff] at e
  simpa [tagged] using e

/-- The main goroutine and the rows not yet taken: `h` rows were handed to workers. -/
def FeMainInv (rows : List R) (col : R → R) (h : Nat) (s : FeSt R) : Prop :=
  match s.main with
  | .handing i r => i = h ∧ (∃ r0, rows[h]? = some r0 ∧ r = col r0) ∧ s.rows = (tagged rows).drop (h + 1)
  | _ => s.rows = (tagged rows).drop h

/-- The invariant of foreach for a query `f`, with rows selected by `col`.  `P` relates what a finished query
delivered to its result. -/
structure FeInv (rows : List R) (col : R → R) (f : R → List R) (P : List R → List R → Prop) (h : Nat)
    (s : FeSt R) : Prop where
  main : FeMainInv rows col h s
  run : ∀ (w i : Nat) (a : List R), s.workers[w]? = some (FeWorker.running i a) →
    i < h ∧ ∃ r0, rows[i]? = some r0 ∧ proj i s.out ++ a = f (col r0)
  uniq : ∀ (w w' i : Nat) (a b : List R), s.workers[w]? = some (FeWorker.running i a) → s.workers[w']? = some (FeWorker.running i b) → w = w'
  done : ∀ i, i < h → (∃ (w : Nat) (a : List R), s.workers[w]? = some (FeWorker.running i a)) ∨
    ∃ r0, rows[i]? = some r0 ∧ P (proj i s.out) (f (col r0))
  fresh : ∀ i, h ≤ i → proj i s.out = []

theorem set_get {α : Type} (l : List α) (w w' : Nat) (x y : α) (h : (l.set w x)[w']? = some y) :
    (w = w' ∧ y = x) ∨ (w ≠ w' ∧ l[w']? = some y) := by
  by_cases e : w = w'
  · subst e
    left
    rw [List.getElem?_set_self'] at h
    cases hh : l[w]? with
    | none => rw [hh] at h; simp at h
    | some z => rw [hh] at h; simp at h; exact ⟨rfl, h.symm⟩
  · right
    rw [List.getElem?_set_ne e] at h
    exact ⟨e, h⟩

theorem get_set_self' {α : Type} (l : List α) (w : Nat) (x y : α) (h : l[w]? = some y) : (l.set w x)[w]? = some x := by
  have := (List.getElem?_eq_some_iff.1 h).1
  simp [List.getElem?_set, this]

/-- Replacing a worker that is not running by another such worker. -/
theorem FeInv.set_quiet {rows : List R} {col : R → R} {f : R → List R} {P : List R → List R → Prop} {h : Nat}
    {s : FeSt R} (hi : FeInv rows col f P h s) {w : Nat} {x y : FeWorker R} (hx : s.workers[w]? = some x)
    (hxr : ∀ i a, x ≠ .running i a) (hyr : ∀ i a, y ≠ .running i a) {s' : FeSt R}
    (hm : FeMainInv rows col h s') (hw : s'.workers = s.workers.set w y) (ho : s'.out = s.out) :
    FeInv rows col f P h s' := by
  refine ⟨hm, ?_, ?_, ?_, by rw [ho]; exact hi.fresh⟩
  · intro w' i a h1
    rw [hw] at h1
    rcases set_get _ _ _ _ _ h1 with ⟨-, e⟩ | ⟨-, e⟩
    · exact absurd e.symm (hyr i a)
    · rw [ho]; exact hi.run _ _ _ e
  · intro w1 w2 i a b h1 h2
    rw [hw] at h1 h2
    rcases set_get _ _ _ _ _ h1 with ⟨-, e⟩ | ⟨-, e1⟩
    · exact absurd e.symm (hyr i a)
    rcases set_get _ _ _ _ _ h2 with ⟨-, e⟩ | ⟨-, e2⟩
    · exact absurd e.symm (hyr i b)
    exact hi.uniq _ _ _ _ _ e1 e2
  · intro i hlt
    rw [ho, hw]
    rcases hi.done i hlt with ⟨w', a, hr⟩ | hd
    · left
      refine ⟨w', a, ?_⟩
      have : w ≠ w' := by rintro rfl; rw [hx] at hr; exact hxr i a (by simpa using hr)
      rw [List.getElem?_set_ne this]; exact hr
    · exact .inr hd

/-- A worker leaves its query. -/
theorem FeInv.set_done {rows : List R} {col : R → R} {f : R → List R} {P : List R → List R → Prop} {h : Nat}
    {s : FeSt R} (hi : FeInv rows col f P h s) {w j : Nat} {xs : List R} (hx : s.workers[w]? = some (.running j xs))
    (hP : ∀ p full, p ++ xs = full → P p full) {s' : FeSt R}
    (hm : FeMainInv rows col h s') (hw : s'.workers = s.workers.set w .idle) (ho : s'.out = s.out) :
    FeInv rows col f P h s' := by
  refine ⟨hm, ?_, ?_, ?_, by rw [ho]; exact hi.fresh⟩
  · intro w' i a h1
    rw [hw] at h1
    rcases set_get _ _ _ _ _ h1 with ⟨-, e⟩ | ⟨-, e⟩
    · simp at e
    · rw [ho]; exact hi.run _ _ _ e
  · intro w1 w2 i a b h1 h2
    rw [hw] at h1 h2
    rcases set_get _ _ _ _ _ h1 with ⟨-, e⟩ | ⟨-, e1⟩
    · simp at e
    rcases set_get _ _ _ _ _ h2 with ⟨-, e⟩ | ⟨-, e2⟩
    · simp at e
    exact hi.uniq _ _ _ _ _ e1 e2
  · intro i hlt
    rw [ho, hw]
    rcases hi.done i hlt with ⟨w', a, hr⟩ | hd
    · by_cases e : w = w'
      · subst e
        rw [hx] at hr
        simp at hr
        obtain ⟨rfl, rfl⟩ := hr
        obtain ⟨_, r0, hr0, hp⟩ := hi.run _ _ _ hx
        exact .inr ⟨r0, hr0, hP _ _ hp⟩
      · left
        exact ⟨w', a, by rw [List.getElem?_set_ne e]; exact hr⟩
    · exact .inr hd

theorem feMainInv_of {rows : List R} {col : R → R} {h : Nat} {s s' : FeSt R} (hm : FeMainInv rows col h s)
    (e1 : s'.main = s.main) (e2 : s'.rows = s.rows) : FeMainInv rows col h s' := by
  unfold FeMainInv at *
  rw [e1, e2]; exact hm

theorem FeInv.step {rows : List R} {col : R → R} {f : R → List R} {P : List R → List R → Prop}
    {h : Nat} {b : By} {s t : FeSt R} (hP : ∀ l, P l l)
    (hc : s.cancelled = true → ∀ p q full, p ++ q = full → P p full)
    (hi : FeInv rows col f P h s) (hst : FeStep true col f b s t) :
    ∃ h', FeInv rows col f P h' t := by
  cases hst with
  | take =>
    rename_i i r rs ws out c _
    have hm := hi.main
    simp only [FeMainInv] at hm
    obtain ⟨e1, e2, e3⟩ := tagged_drop_cons hm
    exact ⟨h, ⟨⟨e1, ⟨r, e2, rfl⟩, e3⟩, hi.run, hi.uniq, hi.done, hi.fresh⟩⟩
  | direct hq => simp at hq
  | rowsEnd => exact ⟨h, ⟨hi.main, hi.run, hi.uniq, hi.done, hi.fresh⟩⟩
  | mainCancel => exact ⟨h, ⟨hi.main, hi.run, hi.uniq, hi.done, hi.fresh⟩⟩
  | handoff hw =>
    rename_i rs i r ws out c w
    have hm := hi.main
    simp only [FeMainInv] at hm
    obtain ⟨rfl, ⟨r0, hr0, rfl⟩, e3⟩ := hm
    refine ⟨i + 1, ⟨e3, ?_, ?_, ?_, ?_⟩⟩
    · intro w' j a h1
      rcases set_get _ _ _ _ _ h1 with ⟨-, e⟩ | ⟨-, e⟩
      · simp at e
        obtain ⟨rfl, rfl⟩ := e
        refine ⟨Nat.lt_succ_self _, r0, hr0, ?_⟩
        rw [hi.fresh j (Nat.le_refl _)]; rfl
      · obtain ⟨a1, a2⟩ := hi.run _ _ _ e
        exact ⟨by omega, a2⟩
    · intro w1 w2 j a b h1 h2
      rcases set_get _ _ _ _ _ h1 with ⟨e0, e1⟩ | ⟨e0, e1⟩ <;> rcases set_get _ _ _ _ _ h2 with ⟨f0, f1⟩ | ⟨f0, f1⟩
      · rw [← e0, ← f0]
      · simp at e1
        have := (hi.run _ _ _ f1).1
        omega
      · simp at f1
        have := (hi.run _ _ _ e1).1
        omega
      · exact hi.uniq _ _ _ _ _ e1 f1
    · intro j hj
      by_cases e : j = i
      · subst e
        exact .inl ⟨w, _, get_set_self' _ _ _ _ hw⟩
      · rcases hi.done j (by omega) with ⟨w', a, hr⟩ | hd
        · left
          refine ⟨w', a, ?_⟩
          have : w ≠ w' := by
            rintro rfl
            have hr : ws[w]? = _ := hr
            rw [hw] at hr
            simp at hr
          show (ws.set w _)[w']? = _
          rw [List.getElem?_set_ne this]; exact hr
        · exact .inr hd
    · intro j hj
      exact hi.fresh j (by omega)
  | emit hw =>
    rename_i rs m ws out c w i x xs
    obtain ⟨hlt, r0, hr0, hp⟩ := hi.run _ _ _ hw
    have hother : ∀ j, j ≠ i → proj j (out ++ [(i, x)]) = proj j out := by
      intro j hj
      rw [proj_append, proj_single, if_neg (fun e => hj e.symm)]; simp
    refine ⟨h, ⟨feMainInv_of hi.main rfl rfl, ?_, ?_, ?_, ?_⟩⟩
    · intro w' j a h1
      rcases set_get _ _ _ _ _ h1 with ⟨-, e⟩ | ⟨ne, e⟩
      · simp at e
        obtain ⟨rfl, rfl⟩ := e
        refine ⟨hlt, r0, hr0, ?_⟩
        rw [← hp]
        show proj j (out ++ [(j, x)]) ++ a = _
        rw [proj_append, proj_single, if_pos rfl]; simp
      · have hj : j ≠ i := by
          rintro rfl
          exact ne (hi.uniq _ _ _ _ _ hw e)
        obtain ⟨a1, r1, a2, a3⟩ := hi.run _ _ _ e
        exact ⟨a1, r1, a2, by rw [← a3]; show proj j (out ++ [(i, x)]) ++ a = _; rw [hother j hj]⟩
    · intro w1 w2 j a b h1 h2
      rcases set_get _ _ _ _ _ h1 with ⟨e0, e1⟩ | ⟨e0, e1⟩ <;> rcases set_get _ _ _ _ _ h2 with ⟨f0, f1⟩ | ⟨f0, f1⟩
      · rw [← e0, ← f0]
      · simp at e1
        obtain ⟨rfl, rfl⟩ := e1
        exact absurd (hi.uniq _ _ _ _ _ hw f1) f0
      · simp at f1
        obtain ⟨rfl, rfl⟩ := f1
        exact absurd (hi.uniq _ _ _ _ _ hw e1) e0
      · exact hi.uniq _ _ _ _ _ e1 f1
    · intro j hj
      by_cases e : j = i
      · subst e
        exact .inl ⟨w, _, get_set_self' _ _ _ _ hw⟩
      · rcases hi.done j hj with ⟨w', a, hr⟩ | hd
        · left
          refine ⟨w', a, ?_⟩
          have : w ≠ w' := by
            rintro rfl
            have hr : ws[w]? = _ := hr
            rw [hw] at hr
            simp at hr
            exact e hr.1.symm
          show (ws.set w _)[w']? = _
          rw [List.getElem?_set_ne this]; exact hr
        · right
          show ∃ r0, rows[j]? = some r0 ∧ P (proj j (out ++ [(i, x)])) (f (col r0))
          rw [hother j e]; exact hd
    · intro j hj
      show proj j (out ++ [(i, x)]) = []
      rw [hother j (by omega)]; exact hi.fresh j hj
  | queryEnd hw => exact ⟨h, hi.set_done hw (fun p full e => by simp at e; subst e; exact hP _) (feMainInv_of hi.main rfl rfl) rfl rfl⟩
  | queryCancel hw => exact ⟨h, hi.set_done hw (fun p full e => hc rfl _ _ _ e) (feMainInv_of hi.main rfl rfl) rfl rfl⟩
  | workerEnd hw => exact ⟨h, hi.set_quiet hw (by simp) (by simp) (feMainInv_of hi.main rfl rfl) rfl rfl⟩
  | workerCancel hw => exact ⟨h, hi.set_quiet hw (by simp) (by simp) (feMainInv_of hi.main rfl rfl) rfl rfl⟩
  | finish => exact ⟨h, ⟨hi.main, hi.run, hi.uniq, hi.done, hi.fresh⟩⟩
  | cancel => exact ⟨h, ⟨feMainInv_of hi.main rfl rfl, hi.run, hi.uniq, hi.done, hi.fresh⟩⟩

theorem feInit_inv (rows : List R) (n : Nat) (col : R → R) (f : R → List R) (P : List R → List R → Prop) :
    FeInv rows col f P 0 (feInit rows n) := by
  refine ⟨?_, ?_, ?_, ?_, ?_⟩
  · simp [FeMainInv, feInit, tagged]
  · intro w i a h1
    have := List.mem_of_getElem? h1
    simp [feInit] at this
  · intro w w' i a b h1
    have := List.mem_of_getElem? h1
    simp [feInit] at this
  · intro i hi; omega
  · intro i _; rfl

/-- While not cancelled: closing only after the last row, closed only when all workers have returned. -/
theorem fe_closing {hq : Bool} {col : R → R} {f : R → List R} {s0 s : FeSt R} (h : Steps (FeStep hq col f) s0 s)
    (h0 : s0.main = .wait) (hc : s.cancelled = false) :
    (s.main = .closing ∨ s.main = .closed → s.rows = []) ∧ (s.main = .closed → ∀ w ∈ s.workers, w = .exited) := by
  have key : (s.cancelled = false → (s.main = .closing ∨ s.main = .closed → s.rows = [])) ∧
      (s.main = .closed → ∀ w ∈ s.workers, w = .exited) := by
    refine Steps.inv (I := fun s : FeSt R => (s.cancelled = false → (s.main = .closing ∨ s.main = .closed → s.rows = [])) ∧
      (s.main = .closed → ∀ w ∈ s.workers, w = .exited)) ?_ h ?_
    · intro b s t hi hst
      cases hst with
      | take => simp
      | direct => simp
      | rowsEnd => simp
      | mainCancel => simp
      | handoff => simp
      | emit hw =>
        exact ⟨hi.1, fun e => by have := hi.2 e _ (List.mem_of_getElem? hw); simp at this⟩
      | queryEnd hw => exact ⟨hi.1, fun e => by have := hi.2 e _ (List.mem_of_getElem? hw); simp at this⟩
      | queryCancel hw => exact ⟨hi.1, fun e => by have := hi.2 e _ (List.mem_of_getElem? hw); simp at this⟩
      | workerEnd hw => exact ⟨hi.1, by simp⟩
      | workerCancel hw => exact ⟨hi.1, fun e => by have := hi.2 e _ (List.mem_of_getElem? hw); simp at this⟩
      | finish ha => exact ⟨fun h _ => hi.1 h (.inl rfl), fun _ => ha⟩
      | cancel => exact ⟨by simp, hi.2⟩
    · simp [h0]
  exact ⟨key.1 hc, key.2⟩

/-- C38: if foreach completes without cancellation its output is an interleaving of the results of the query for
each row, for every number of workers and every schedule. -/
theorem C38_union (rows : List R) (n : Nat) (col : R → R) (f : R → List R) (s : FeSt R)
    (h : Steps (FeStep true col f) (feInit rows n) s) (hc : s.cancelled = false) (hd : s.main = .closed) :
    Interleaving (rows.map (fun r => f (col r))) (s.out.map Prod.snd) := by
  have key : s.cancelled = false → ∃ k, FeInv rows col f Eq k s := by
    refine Steps.inv (I := fun s : FeSt R => s.cancelled = false → ∃ k, FeInv rows col f Eq k s) ?_ h ?_
    · intro b s t hi hst hct
      have hcs : s.cancelled = false := by cases hst <;> simp_all
      obtain ⟨k, hk⟩ := hi hcs
      exact hk.step (fun _ => rfl) (by simp [hcs]) hst
    · intro _; exact ⟨0, feInit_inv _ _ _ _ _⟩
  obtain ⟨k, hk⟩ := key hc
  obtain ⟨hr, hw⟩ := fe_closing h rfl hc
  have hk' : rows.length ≤ k := by
    have := hk.main
    simp only [FeMainInv, hd] at this
    rw [hr (.inr hd)] at this
    exact drop_nil_length this.symm
  apply interleaving_of_proj
  intro i
  by_cases hi : i < k
  · rcases hk.done i hi with ⟨w, a, hrun⟩ | ⟨r0, hr0, e⟩
    · have := hw hd _ (List.mem_of_getElem? hrun)
      simp at this
    · rw [e]; simp [hr0]
  · rw [hk.fresh i (by omega), List.getElem?_eq_none (by simp; omega)]; rfl

/-- C39 for foreach: at every point, cancelled or not, the output is an interleaving of prefixes of the
rows' results. -/
theorem C39_foreach_rows (rows : List R) (n : Nat) (col : R → R) (f : R → List R) (s : FeSt R)
    (h : Steps (FeStep true col f) (feInit rows n) s) :
    ∃ ls : List (List R), List.Forall₂ (fun l r => l <+: f (col r)) ls rows ∧
      Interleaving ls (s.out.map Prod.snd) := by
  have key : ∃ k, FeInv rows col f (fun p l => p <+: l) k s := by
    refine Steps.inv (I := fun s : FeSt R => ∃ k, FeInv rows col f (fun p l => p <+: l) k s) ?_ h ?_
    · rintro b s t ⟨k, hk⟩ hst
      exact hk.step (fun _ => List.prefix_refl _) (fun _ p q full e => ⟨q, e⟩) hst
    · exact ⟨0, feInit_inv _ _ _ _ _⟩
  obtain ⟨k, hk⟩ := key
  have hpre : ∀ i r, rows[i]? = some r → proj i s.out <+: f (col r) := by
    intro i r hr
    by_cases hi : i < k
    · rcases hk.done i hi with ⟨w, a, hrun⟩ | ⟨r0, hr0, e⟩
      · obtain ⟨_, r0, hr0, e⟩ := hk.run _ _ _ hrun
        rw [hr] at hr0; cases hr0
        exact ⟨a, e⟩
      · rw [hr] at hr0; cases hr0; exact e
    · rw [hk.fresh i (by omega)]; exact List.nil_prefix
  have hout : ∀ i, rows.length ≤ i → proj i s.out = [] := by
    intro i hi
    by_cases hk' : i < k
    · rcases hk.done i hk' with ⟨w, a, hrun⟩ | ⟨r0, hr0, e⟩
      · obtain ⟨_, r0, hr0, e⟩ := hk.run _ _ _ hrun
        rw [List.getElem?_eq_none hi] at hr0; simp at hr0
      · rw [List.getElem?_eq_none hi] at hr0; simp at hr0
    · exact hk.fresh i (by omega)
  refine ⟨(List.range rows.length).map (fun i => proj i s.out), ?_, ?_⟩
  · rw [List.forall₂_iff_get]
    refine ⟨by simp, ?_⟩
    intro i h1 h2
    simp only [List.get_eq_getElem, List.getElem_map, List.getElem_range]
    exact hpre i _ (List.getElem?_eq_getElem h2)
  · apply interleaving_of_proj
    intro i
    by_cases hi : i < rows.length
    · simp [hi]
    · rw [hout i (by omega), List.getElem?_eq_none (by simp; omega)]; rfl

/-- Rows a worker has still to send. -/
def FeWorker.rest : FeWorker R → List R
  | .running _ a => a
  | _ => []

/-- C38: with one worker the output is the concatenation in row order. -/
theorem C38_one_worker (rows : List R) (col : R → R) (f : R → List R) (s : FeSt R)
    (h : Steps (FeStep true col f) (feInit rows 1) s) (hc : s.cancelled = false) :
    s.out.map Prod.snd <+: rows.flatMap (fun r => f (col r)) ∧
    (s.main = .closed → s.out.map Prod.snd = rows.flatMap (fun r => f (col r))) := by
  have key : s.cancelled = false → ∃ k w, FeMainInv rows col k s ∧ k ≤ rows.length ∧ s.workers = [w] ∧
        s.out.map Prod.snd ++ w.rest = (rows.take k).flatMap (fun r => f (col r)) := by
    refine Steps.inv (I := fun s : FeSt R => s.cancelled = false → ∃ k w, FeMainInv rows col k s ∧ k ≤ rows.length ∧
        s.workers = [w] ∧ s.out.map Prod.snd ++ w.rest = (rows.take k).flatMap (fun r => f (col r))) ?_ h ?_
    · intro b s t hi hst hct
      have hidx : ∀ (w0 : FeWorker R) (i : Nat) (x : FeWorker R), [w0][i]? = some x → i = 0 ∧ w0 = x := by
        intro w0 i x hx
        cases i with
        | zero => simpa using hx
        | succ i => simp at hx
      cases hst with
      | take =>
        obtain ⟨k, w, hm, hk, hw, ho⟩ := hi hct
        simp only [FeMainInv] at hm
        obtain ⟨e1, e2, e3⟩ := tagged_drop_cons hm
        exact ⟨k, w, ⟨e1, ⟨_, e2, rfl⟩, e3⟩, hk, hw, ho⟩
      | direct hq => simp at hq
      | rowsEnd => exact hi hct
      | mainCancel => simp at hct
      | handoff hw =>
        obtain ⟨k, w, hm, hk, hws, ho⟩ := hi hct
        simp only [FeMainInv] at hm
        obtain ⟨rfl, ⟨r0, hr0, rfl⟩, e3⟩ := hm
        simp only at hws
        subst hws
        obtain ⟨rfl, rfl⟩ := hidx _ _ _ hw
        have hlt := (List.getElem?_eq_some_iff.1 hr0).1
        refine ⟨_ + 1, _, e3, hlt, rfl, ?_⟩
        simp only [FeWorker.rest, List.append_nil] at ho ⊢
        rw [ho, List.take_add_one, hr0]; simp
      | emit hw =>
        obtain ⟨k, w, hm, hk, hws, ho⟩ := hi hct
        simp only at hws
        subst hws
        obtain ⟨rfl, rfl⟩ := hidx _ _ _ hw
        refine ⟨k, _, feMainInv_of hm rfl rfl, hk, rfl, ?_⟩
        simp only [FeWorker.rest] at ho ⊢
        rw [← ho]; simp
      | queryEnd hw =>
        obtain ⟨k, w, hm, hk, hws, ho⟩ := hi hct
        simp only at hws
        subst hws
        obtain ⟨rfl, rfl⟩ := hidx _ _ _ hw
        exact ⟨k, _, feMainInv_of hm rfl rfl, hk, rfl, ho⟩
      | queryCancel => simp at hct
      | workerEnd hw =>
        obtain ⟨k, w, hm, hk, hws, ho⟩ := hi hct
        simp only at hws
        subst hws
        obtain ⟨rfl, rfl⟩ := hidx _ _ _ hw
        exact ⟨k, _, feMainInv_of hm rfl rfl, hk, rfl, ho⟩
      | workerCancel => simp at hct
      | finish => exact hi hct
      | cancel => simp at hct
    · refine fun _ => ⟨0, .idle, ?_, by omega, rfl, ?_⟩
      · simp [FeMainInv, feInit, tagged]
      · simp [feInit, FeWorker.rest]
  obtain ⟨k, w, hm, hk, hws, ho⟩ := key hc
  constructor
  · refine List.IsPrefix.trans ⟨w.rest, ho⟩ ?_
    conv_rhs => rw [← List.take_append_drop k rows]
    rw [List.flatMap_append]
    exact List.prefix_append _ _
  · intro hd
    obtain ⟨hr, hw⟩ := fe_closing h rfl hc
    have hk' : rows.length ≤ k := by
      simp only [FeMainInv, hd] at hm
      rw [hr (.inr hd)] at hm
      exact drop_nil_length hm.symm
    have : w = .exited := hw hd w (by rw [hws]; simp)
    subst this
    rw [List.take_of_length_le hk'] at ho
    simpa [FeWorker.rest] using ho

/-- Without a query foreach passes on its rows. -/
theorem C38_no_query (rows : List R) (n : Nat) (col : R → R) (f : R → List R) (s : FeSt R)
    (h : Steps (FeStep false col f) (feInit rows n) s) (hc : s.cancelled = false) (hd : s.main = .closed) :
    s.out.map Prod.snd = rows.map col := by
  have key : s.cancelled = false → (∀ i r, s.main ≠ .handing i r) ∧ (∀ w ∈ s.workers, ∀ i a, w ≠ .running i a) ∧
      s.out.map Prod.snd ++ s.rows.map (fun p => col p.2) = rows.map col := by
    refine Steps.inv (I := fun s : FeSt R => s.cancelled = false → (∀ i r, s.main ≠ .handing i r) ∧
      (∀ w ∈ s.workers, ∀ i a, w ≠ .running i a) ∧
      s.out.map Prod.snd ++ s.rows.map (fun p => col p.2) = rows.map col) ?_ h ?_
    · intro b s t hi hst hct
      cases hst with
      | take hq => simp at hq
      | direct => obtain ⟨a1, a2, a3⟩ := hi hct; exact ⟨a1, a2, by simpa using a3⟩
      | rowsEnd => obtain ⟨a1, a2, a3⟩ := hi hct; exact ⟨by simp, a2, a3⟩
      | mainCancel => simp at hct
      | handoff => obtain ⟨a1, a2, a3⟩ := hi hct; exact absurd rfl (a1 _ _)
      | emit hw => obtain ⟨a1, a2, a3⟩ := hi hct; exact absurd rfl (a2 _ (List.mem_of_getElem? hw) _ _)
      | queryEnd hw => obtain ⟨a1, a2, a3⟩ := hi hct; exact absurd rfl (a2 _ (List.mem_of_getElem? hw) _ _)
      | queryCancel => simp at hct
      | workerEnd hw =>
        obtain ⟨a1, a2, a3⟩ := hi hct
        refine ⟨a1, ?_, a3⟩
        intro w hw' i a
        rcases List.mem_or_eq_of_mem_set hw' with h | h
        · exact a2 _ h i a
        · rw [h]; simp
      | workerCancel => simp at hct
      | finish => obtain ⟨a1, a2, a3⟩ := hi hct; exact ⟨by simp, a2, a3⟩
      | cancel => simp at hct
    · intro _
      refine ⟨by simp [feInit], ?_, ?_⟩
      · intro w hw i a
        simp [feInit] at hw
        rw [hw.2]; simp
      · simp only [feInit, List.map_nil, List.nil_append, List.map_map]
        have : (fun p : Nat × R => col p.2) ∘ (fun p : R × Nat => (p.2, p.1)) = col ∘ Prod.fst := rfl
        rw [this, ← List.map_map]; simp
  obtain ⟨a1, a2, a3⟩ := key hc
  have := (fe_closing h rfl hc).1 (.inr hd)
  simpa [this] using a3

/-! ### Completion -/

/-- Weight of a worker. -/
def FeWorker.mu : FeWorker R → Nat
  | .running _ a => a.length + 2
  | .idle => 1
  | .exited => 0

def feMu (col : R → R) (f : R → List R) (s : FeSt R) : Nat :=
  (s.rows.map (fun p => (f (col p.2)).length + 4)).sum +
  (match s.main with | .handing _ r => (f r).length + 6 | .wait => 3 | .closing => 2 | .closed => 1) +
  (s.workers.map FeWorker.mu).sum

theorem sum_set {α : Type} (g : α → Nat) : ∀ (l : List α) (i : Nat) (x y : α), l[i]? = some x →
    ((l.set i y).map g).sum + g x = (l.map g).sum + g y := by
  intro l
  induction l with
  | nil => intro i x y h; simp at h
  | cons a l ih =>
    intro i x y h
    cases i with
    | zero => simp at h; subst h; simp; omega
    | succ i => simp at h; have := ih i x y h; simp only [List.set_cons_succ, List.map_cons, List.sum_cons]; omega

theorem feMu_lt {hq : Bool} {col : R → R} {f : R → List R} {b : By} {s t : FeSt R} (h : FeStep hq col f b s t)
    (hb : b ≠ .env) : feMu col f t < feMu col f s := by
  cases h with
  | take => simp [feMu]; omega
  | direct => simp [feMu]
  | rowsEnd => simp [feMu]
  | mainCancel => simp [feMu]
  | @handoff rs i r ws out c w hw =>
    have := sum_set FeWorker.mu _ _ _ (.running i (f r)) hw
    simp only [FeWorker.mu] at this
    simp only [feMu]
    omega
  | @emit rs m ws out c w i x xs hw =>
    have := sum_set FeWorker.mu _ _ _ (.running i xs) hw
    simp only [FeWorker.mu, List.length_cons] at this
    simp only [feMu]
    omega
  | @queryEnd rs m ws out c w i hw =>
    have := sum_set FeWorker.mu _ _ _ .idle hw
    simp only [FeWorker.mu] at this
    simp only [feMu]
    omega
  | @queryCancel rs m ws out w i xs hw =>
    have := sum_set FeWorker.mu _ _ _ .idle hw
    simp only [FeWorker.mu] at this
    simp only [feMu]
    omega
  | @workerEnd rs ws out c w hw =>
    have := sum_set FeWorker.mu _ _ _ .exited hw
    simp only [FeWorker.mu] at this
    simp only [feMu]
    omega
  | @workerCancel rs m ws out w hw =>
    have := sum_set FeWorker.mu _ _ _ .exited hw
    simp only [FeWorker.mu] at this
    simp only [feMu]
    omega
  | finish => simp [feMu]
  | cancel => simp at hb

/-- A worker that is running can go on if the output is read. -/
theorem fe_running_moves {hq : Bool} {col : R → R} {f : R → List R} {s : FeSt R} (hc : s.cancelled = false) {w i : Nat} {a : List R}
    (hw : s.workers[w]? = some (.running i a)) : ∃ b t, Read b ∧ FeStep hq col f b s t ∧ t.cancelled = false := by
  obtain ⟨rs, m, ws, out, c⟩ := s
  cases a with
  | nil => exact ⟨_, _, .inl rfl, .queryEnd hw, hc⟩
  | cons x xs => exact ⟨_, _, .inr (.inr rfl), .emit hw, hc⟩

/-- C38: with at least one worker (or without a query) foreach completes on every schedule without cancellation if
its output is read: no deadlock. -/
theorem C38_completes (rows : List R) (n : Nat) (hq : Bool) (hn : 1 ≤ n ∨ hq = false) (col : R → R) (f : R → List R) (s : FeSt R)
    (h : Steps (FeStep hq col f) (feInit rows n) s) (hc : s.cancelled = false) :
    Inevitable Read (fun b s t => FeStep hq col f b s t ∧ t.cancelled = false) (fun s => s.main = .closed) s := by
  let I : FeSt R → Prop := fun s => s.cancelled = false → (s.workers.length = n ∧
      ((∃ i r, s.main = .handing i r) → hq = true ∧ ∀ w ∈ s.workers, w ≠ .exited) ∧
      (s.main = .wait → ∀ w ∈ s.workers, w ≠ .exited))
  have hI : ∀ b s t, I s → FeStep hq col f b s t → I t := by
    intro b s t hi hst hct
    have hset : ∀ (ws : List (FeWorker R)) w y, (∀ x ∈ ws, x ≠ .exited) → y ≠ .exited → ∀ x ∈ ws.set w y, x ≠ .exited := by
      intro ws w y h1 h2 x hx
      rcases List.mem_or_eq_of_mem_set hx with h | h
      · exact h1 x h
      · rw [h]; exact h2
    cases hst with
    | take hq' => obtain ⟨a1, a2, a3⟩ := hi hct; exact ⟨a1, fun _ => ⟨hq', a3 rfl⟩, by simp⟩
    | direct => obtain ⟨a1, a2, a3⟩ := hi hct; exact ⟨a1, a2, a3⟩
    | rowsEnd => obtain ⟨a1, a2, a3⟩ := hi hct; exact ⟨a1, by simp, by simp⟩
    | mainCancel => simp at hct
    | handoff hw =>
      obtain ⟨a1, a2, a3⟩ := hi hct
      exact ⟨by simpa using a1, by simp, fun _ => hset _ _ _ (a2 ⟨_, _, rfl⟩).2 (by simp)⟩
    | emit hw =>
      obtain ⟨a1, a2, a3⟩ := hi hct
      exact ⟨by simpa using a1, fun e => ⟨(a2 e).1, hset _ _ _ (a2 e).2 (by simp)⟩, fun e => hset _ _ _ (a3 e) (by simp)⟩
    | queryEnd hw =>
      obtain ⟨a1, a2, a3⟩ := hi hct
      exact ⟨by simpa using a1, fun e => ⟨(a2 e).1, hset _ _ _ (a2 e).2 (by simp)⟩, fun e => hset _ _ _ (a3 e) (by simp)⟩
    | queryCancel => simp at hct
    | workerEnd => obtain ⟨a1, a2, a3⟩ := hi hct; exact ⟨by simpa using a1, by simp, by simp⟩
    | workerCancel => simp at hct
    | finish => obtain ⟨a1, a2, a3⟩ := hi hct; exact ⟨a1, by simp, by simp⟩
    | cancel => simp at hct
  have h0 : I (feInit rows n) := by
    intro _
    refine ⟨by simp [feInit], by simp [feInit], ?_⟩
    intro _ w hw
    simp [feInit] at hw
    rw [hw.2]; simp
  refine Inevitable.measure (I := fun s => s.cancelled = false ∧ I s) (feMu col f) ?_ ?_ ?_
    ⟨hc, Steps.inv hI h h0⟩
  · intro b s t hs h; exact ⟨h.2, hI b s t hs.2 h.1⟩
  · rintro b s t hs ⟨h, hct⟩
    apply feMu_lt h
    rintro rfl
    cases h; simp at hct
  · rintro s ⟨hcs, hs⟩ hP
    obtain ⟨a1, a2, a3⟩ := hs hcs
    obtain ⟨rs, m, ws, out, c⟩ := s
    simp only at hcs a1 a2 a3 hP
    subst hcs
    cases m with
    | wait =>
      cases rs with
      | nil => exact ⟨_, _, .inl rfl, .rowsEnd, rfl⟩
      | cons p rs =>
        obtain ⟨i, r⟩ := p
        cases hq with
        | true => exact ⟨_, _, .inr (.inl rfl), .take rfl, rfl⟩
        | false => exact ⟨_, _, .inr (.inr rfl), .direct rfl, rfl⟩
    | handing i r =>
      obtain ⟨b1, b2⟩ := a2 ⟨i, r, rfl⟩
      have : 0 < ws.length := by
        rcases hn with h | h
        · omega
        · rw [b1] at h; simp at h
      have hw : ws[0]? = some ws[0] := List.getElem?_eq_getElem this
      cases hx : ws[0] with
      | idle => rw [hx] at hw; exact ⟨_, _, .inl rfl, .handoff hw, rfl⟩
      | running j a => rw [hx] at hw; exact fe_running_moves rfl hw
      | exited => exact absurd hx (b2 _ (List.getElem_mem this))
    | closing =>
      by_cases hall : ∀ w ∈ ws, w = .exited
      · exact ⟨_, _, .inl rfl, .finish hall, rfl⟩
      · simp only [not_forall] at hall
        obtain ⟨x, hx, hne⟩ := hall
        obtain ⟨w, hw, rfl⟩ := List.getElem_of_mem hx
        have hw' : ws[w]? = some ws[w] := List.getElem?_eq_getElem hw
        cases hx : ws[w] with
        | idle => rw [hx] at hw'; exact ⟨_, _, .inl rfl, .workerEnd hw', rfl⟩
        | running j a => rw [hx] at hw'; exact fe_running_moves rfl hw'
        | exited => exact absurd hx hne
    | closed => exact absurd rfl hP

/-- Two workers can deliver out of row order. -/
example : ∃ s, Steps (FeStep true id (fun r : Nat => [r, r])) (feInit [1, 2] 2) s ∧ s.main = .closed ∧ s.cancelled = false ∧
    s.out.map Prod.snd = [1, 2, 2, 1] := by
  refine ⟨⟨[], .closed, [.exited, .exited], [(0, 1), (1, 2), (1, 2), (0, 1)], false⟩, ?_, rfl, rfl, rfl⟩
  exact .tail (.tail (.tail (.tail (.tail (.tail (.tail (.tail (.tail (.tail (.tail (.tail (.tail (.tail .refl
    (.take rfl)) (.handoff (w := 0) rfl)) (.take rfl)) (.handoff (w := 1) rfl))
    (.emit (w := 0) rfl)) (.emit (w := 1) rfl)) (.emit (w := 1) rfl)) (.emit (w := 0) rfl))
    (.queryEnd (w := 0) rfl)) (.queryEnd (w := 1) rfl)) .rowsEnd) (.workerEnd (w := 0) rfl)) (.workerEnd (w := 1) rfl))
    (.finish (by simp))

/-- The number of workers is positive for every non negative `workers` argument. -/
theorem C38_workers (async : Bool) (w : I64) (h : 0 ≤ w.toInt) : 1 ≤ feWorkers async w := by
  unfold feWorkers
  by_cases hw : w = 0#64
  · subst hw; cases async <;> decide
  · have : w.toInt ≠ 0 := fun e => hw (BitVec.eq_of_toInt_eq (by simpa using e))
    simp [hw]
    omega

/-- With a negative `workers` argument no worker is started, and foreach with a query blocks for ever at its first
row. -/
theorem C38_negative_workers_refuted :
    feWorkers false (-1#64) = 0 ∧ ∃ s : FeSt Nat, Steps (FeStep true id (fun r => [r])) (feInit [1] (feWorkers false (-1#64))) s ∧
      s.main = .handing 0 1 ∧ ∀ b t, FeStep true id (fun r => [r]) b s t → b = .env := by
  have e : feWorkers false (-1#64) = 0 := by decide
  refine ⟨e, ⟨[], .handing 0 1, [], [], false⟩, by rw [e]; exact .tail .refl (.take rfl), rfl, ?_⟩
  intro b t h
  cases h with
  | cancel => rfl
  | handoff hw => simp at hw
  | emit hw => simp at hw
  | queryEnd hw => simp at hw

/-- C39 refuted for foreach: workers leave on cancellation, `RunScope` does not look at the context.  The main
goroutine then blocks for ever and the output channel is never closed. -/
theorem C39_foreach_deadlock_refuted :
    ∃ s : FeSt Nat, Steps (FeStep true id (fun r => [r])) (feInit [1] 1) s ∧ s.cancelled = true ∧ s.main ≠ .closed ∧
      Stuck (FeStep true id (fun r => [r])) s := by
  refine ⟨⟨[], .handing 0 1, [.exited], [], true⟩,
    .tail (.tail (.tail .refl (.take rfl)) .cancel) (.workerCancel (w := 0) rfl), rfl, by simp, ?_⟩
  intro b t h
  have hn : ∀ (i : Nat) (x : FeWorker Nat), [FeWorker.exited][i]? = some x → x = .exited := by
    intro i x hx
    simpa using List.mem_of_getElem? hx
  cases h with
  | handoff hw => simpa using hn _ _ hw
  | emit hw => simpa using hn _ _ hw
  | queryEnd hw => simpa using hn _ _ hw
  | queryCancel hw => simpa using hn _ _ hw
  | workerCancel hw => simpa using hn _ _ hw

/-- C39 for foreach, partial: if the main goroutine is not handing over a row, or there is no query, the output closes
after cancellation unless a later row is handed over. -/
theorem C39_foreach_ends_partial (hq : Bool) (col : R → R) (f : R → List R) (s : FeSt R) (hc : s.cancelled = true) :
    Inevitable Unread (FeStep hq col f)
      (fun s => s.main = .closed ∨ ∃ i r, s.main = .handing i r) s := by
  refine Inevitable.measure (I := fun s => s.cancelled = true) (feMu col f) ?_ ?_ ?_ hc
  · intro b s t hI h; cases h <;> simp_all
  · intro b s t hI h
    apply feMu_lt h
    rintro rfl
    cases h; simp at hI
  · intro s hI hP
    obtain ⟨rs, m, ws, out, c⟩ := s
    simp only at hI hP
    subst hI
    cases m with
    | wait => exact ⟨_, _, .inl rfl, .mainCancel⟩
    | handing i r => exact absurd (.inr ⟨i, r, rfl⟩) hP
    | closing =>
      by_cases hall : ∀ w ∈ ws, w = .exited
      · exact ⟨_, _, .inl rfl, .finish hall⟩
      · simp only [not_forall] at hall
        obtain ⟨x, hx, hne⟩ := hall
        obtain ⟨w, hw, rfl⟩ := List.getElem_of_mem hx
        have hw' : ws[w]? = some ws[w] := List.getElem?_eq_getElem hw
        cases hx : ws[w] with
        | idle => rw [hx] at hw'; exact ⟨_, _, .inl rfl, .workerCancel hw'⟩
        | running j a => rw [hx] at hw'; exact ⟨_, _, .inl rfl, .queryCancel hw'⟩
        | exited => exact absurd hx hne
    | closed => exact absurd (.inl rfl) hP

end Vfilter
