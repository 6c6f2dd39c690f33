import Verif.Props.ScopeClose
/-!
# C68: how long the scope of a running query stays open

A plugin may attach a destructor to the scope it is called with, to release what it uses
once the query is over.
-/

set_option linter.all false

namespace Vfilter
section
variable {R V : Type} [Inhabited R]

theorem reach_anc {h : Heap R V} {s t : Nat} (hr : Reach h s t) : t = s ∨ Anc h s t := by
  induction hr with
  | self => exact .inl rfl
  | kid u t hr hp _ ih =>
    rcases ih with rfl | ih
    · exact .inr (.parent t hp)
    · exact .inr (.up t u hp ih)

/-- What a call does to a scope `t` that it does not close. -/
theorem heap_stays (grow : Nat → Nat) (h : Heap R V) (hi : CInv h) (op : SOp R V) (t : Nat)
    (ho : h.opn t = true) (hop : ∀ u, op = .close u → u ≠ t ∧ ¬ Anc h u t) :
    (h.step grow op).opn t = true ∧
    (∀ u, u < h.scopes.length → (h.step grow op).par u = h.par u) := by
  have hlt := opn_lt ho
  have same : ∀ h' : Heap R V, (∀ (t : Nat), (h'.scopes[t]?).map (fun (r : ScopeRec) => (r.parent, r.children, r.destroyed)) =
      (h.scopes[t]?).map (fun (r : ScopeRec) => (r.parent, r.children, r.destroyed))) →
      h'.opn t = true ∧ (∀ u, u < h.scopes.length → h'.par u = h.par u) := by
    intro h' hs
    exact ⟨by rw [(par_opn_of_same hs t).2]; exact ho, fun u _ => (par_opn_of_same hs u).1⟩
  cases op with
  | new null =>
    refine ⟨?_, fun u hu => ?_⟩
    · unfold Heap.step Heap.newScope Heap.opn
      dsimp only
      rw [List.getElem?_append_left hlt]; exact ho
    · unfold Heap.step Heap.newScope Heap.par
      dsimp only
      rw [List.getElem?_append_left hu]
  | copy s =>
    show (h.copy s).opn t = true ∧ (∀ u, u < h.scopes.length → (h.copy s).par u = h.par u)
    cases hr : h.scopes[s]? with
    | none =>
      have e : h.copy s = h := by unfold Heap.copy; rw [hr]
      rw [e]; exact same _ (fun _ => rfl)
    | some r =>
      have hs := getElem?_lt hr
      have hold : ∀ t, t < h.scopes.length → (h.copy s).par t = h.par t ∧ (h.copy s).opn t = h.opn t := by
        intro t ht
        simp only [Heap.copy, hr, Heap.par, Heap.opn]
        rw [List.getElem?_append_left (by simpa using ht), List.getElem?_set]
        by_cases hst : s = t
        · subst hst; rw [if_pos rfl, if_pos hs, hr]; exact ⟨rfl, rfl⟩
        · simp [hst]
      exact ⟨by rw [(hold t hlt).2]; exact ho, fun u hu => (hold u hu).1⟩
  | append s v =>
    refine same _ (fun t => ?_)
    unfold Heap.step Heap.appendVars
    dsimp only
    cases hr : h.scopes[s]? with
    | none => rfl
    | some r => (refine same_set hr ?_ t; rfl)
  | newAg s =>
    refine same _ (fun t => ?_)
    unfold Heap.step Heap.setNewAg
    dsimp only
    cases hr : h.scopes[s]? with
    | none => rfl
    | some r => (refine same_set hr ?_ t; rfl)
  | setAg s c =>
    refine same _ (fun t => ?_)
    unfold Heap.step
    dsimp only
    split
    · unfold Heap.setAg
      cases hr : h.scopes[s]? with
      | none => rfl
      | some r => (refine same_set hr ?_ t; rfl)
    · rfl
  | modAg s name f =>
    refine same _ (fun t => ?_)
    unfold Heap.step Heap.modifyAg
    dsimp only
    cases h.getAg s with
    | none => rfl
    | some c =>
      dsimp only
      cases h.ctxs[c]? with
      | none => rfl
      | some d => rfl
  | addDtor s d =>
    refine same _ (fun t => ?_)
    unfold Heap.step Heap.addDtor
    dsimp only
    cases hr : h.scopes[s]? with
    | none => rfl
    | some r =>
      dsimp only
      split
      · rfl
      · (refine same_set hr ?_ t; rfl)
  | close s =>
    obtain ⟨h1, h2⟩ := hop s rfl
    show (h.close s).1.opn t = true ∧ (∀ u, u < h.scopes.length → (h.close s).1.par u = h.par u)
    cases hs : h.scopes[s]? with
    | none => rw [close_out_of_range _ s hs]; exact same _ (fun _ => rfl)
    | some r =>
      have p := close_post h s hi (getElem?_lt hs)
      have hn : ¬ Reach h s t := fun hr => (reach_anc hr).elim (fun e => h1 e.symm) h2
      exact ⟨p.opn_keep t ho hn, fun u _ => p.par u⟩

theorem ran_stays (grow : Nat → Nat) (x : Hist R V) (hi : CInv x.heap) (op : SOp R V) (t : Nat)
    (hop : ∀ u, op = .close u → u ≠ t ∧ ¬ Anc x.heap u t) :
    ranOf (x.step grow op).ran t = ranOf x.ran t := by
  cases op with
  | close s =>
    obtain ⟨h1, h2⟩ := hop s rfl
    show ranOf (x.ran ++ (x.heap.close s).2) t = _
    cases hs : x.heap.scopes[s]? with
    | none => rw [close_out_of_range _ s hs]; simp
    | some r =>
      have p := close_post x.heap s hi (getElem?_lt hs)
      have hn : ¬ Reach x.heap s t := fun hr => (reach_anc hr).elim (fun e => h1 e.symm) h2
      have e : (x.heap.close s).2.filter (fun y => decide (y.1 = t)) = [] :=
        List.filter_eq_nil_iff.2 (fun y hy e => hn (of_decide_eq_true e ▸ p.log_out y hy))
      unfold ranOf
      rw [List.filter_append, e, List.append_nil]
  | _ => rfl

/-- **C68, as long as nobody closes it**: a scope that is open stays open, accepts
destructors, and runs none of them, whatever is done to scopes until it or a scope it was
derived from is closed. -/
theorem C68_stays_open (grow : Nat → Nat) (ops rest : List (SOp R V)) (t : Nat) (d : Dtor)
    (ho : (Heap.run grow ops).opn t = true)
    (hc : ∀ u, SOp.close u ∈ rest → u ≠ t ∧ ¬ Anc (Heap.run grow ops) u t) :
    let x := Hist.run grow ops
    let y := Hist.run grow (ops ++ rest)
    y.heap.opn t = true ∧ (y.heap.addDtor t d).2 = true ∧ ranOf y.ran t = ranOf x.ran t := by
  have hheap : ∀ (l : List (SOp R V)) (x : Hist R V),
      (l.foldl (Hist.step grow) x).heap = l.foldl (Heap.step grow) x.heap := by
    intro l
    induction l with
    | nil => intro x; rfl
    | cons op l ih => intro x; rw [List.foldl_cons, ih, Hist.step_heap]; rfl
  have hx : (Hist.run grow ops).heap = Heap.run grow ops := hheap ops _
  have key : ∀ (l : List (SOp R V)) (x : Hist R V), CInv x.heap → x.heap.opn t = true →
      (∀ u, SOp.close u ∈ l → u ≠ t ∧ ¬ Anc x.heap u t) →
      (l.foldl (Hist.step grow) x).heap.opn t = true ∧
      ranOf (l.foldl (Hist.step grow) x).ran t = ranOf x.ran t := by
    intro l
    induction l with
    | nil => intro x _ ho _; exact ⟨ho, rfl⟩
    | cons op l ih =>
      intro x hi ho hcl
      have hop : ∀ u, op = .close u → u ≠ t ∧ ¬ Anc x.heap u t :=
        fun u e => hcl u (by rw [← e]; exact List.mem_cons_self ..)
      obtain ⟨h1, h2⟩ := heap_stays grow x.heap hi op t ho hop
      have h3 := ran_stays grow x hi op t hop
      rw [← Hist.step_heap] at h1 h2
      have hi' : CInv (x.step grow op).heap := by rw [Hist.step_heap]; exact step_CInv grow _ hi op
      suffices hh : ∀ u, SOp.close u ∈ l → u ≠ t ∧ ¬ Anc (x.step grow op).heap u t by
        obtain ⟨h5, h6⟩ := ih _ hi' h1 hh
        exact ⟨h5, h6.trans h3⟩
      · intro u hu
        obtain ⟨h7, h8⟩ := hcl u (List.mem_cons_of_mem _ hu)
        refine ⟨h7, fun ha => h8 ?_⟩
        have back : ∀ v, v < x.heap.scopes.length → Anc (x.step grow op).heap u v → Anc x.heap u v := by
          intro v hv ha
          induction ha with
          | parent v hp => exact .parent v (by rw [← h2 v hv]; exact hp)
          | up v p hp _ ih' =>
            rw [h2 v hv] at hp
            exact .up v p hp (ih' (by have := hi.older v p hp; omega))
        exact back t (opn_lt ho) ha
  dsimp only
  have hrun : Hist.run grow (ops ++ rest) = rest.foldl (Hist.step grow) (Hist.run grow ops) := by
    simp [Hist.run, List.foldl_append]
  rw [hrun]
  obtain ⟨h1, h2⟩ := key rest (Hist.run grow ops) (by rw [hx]; exact run_CInv grow ops)
    (by rw [hx]; exact ho) (by rw [hx]; exact hc)
  refine ⟨h1, ?_, h2⟩
  unfold Heap.opn at h1
  unfold Heap.addDtor
  cases e : (rest.foldl (Hist.step grow) (Hist.run grow ops)).heap.scopes[t]? with
  | none => rw [e] at h1; cases h1
  | some r =>
    rw [e] at h1
    simp only [Bool.not_eq_true'] at h1
    simp [h1]

/-! ## Calling a stored query with arguments

`_StoredQuery.Call` (stored.go:92-121) makes a scope of its own, starts the query on it and
closes it when it returns (`defer sub_scope.Close()`), while the goroutine of the query
(stored.go:64-84) copies that scope and runs on the copy.  Both go on independently. -/

/-- The scope `Call` makes, and the one its goroutine makes, in a heap. -/
def subOf (h : Heap R V) : Nat := h.scopes.length
def newOf (h : Heap R V) : Nat := h.scopes.length + 1

theorem copy_get_new (h : Heap R V) (s : Nat) (r : ScopeRec) (hr : h.scopes[s]? = some r) :
    (h.copy s).scopes[h.scopes.length]? =
      some ⟨⟨h.arrays.length, r.vars.len⟩, r.depth + 1, some s, [], 0, none, [], false⟩ := by
  simp only [Heap.copy, hr]
  rw [List.getElem?_append_right (by simp)]
  simp

theorem copy_len (h : Heap R V) (s : Nat) (r : ScopeRec) (hr : h.scopes[s]? = some r) :
    (h.copy s).scopes.length = h.scopes.length + 1 := by
  simp [Heap.copy, hr]

/-- **C68 for `_StoredQuery.Call`**, what the destructor `d` of a plugin in the called query
experiences, in any program state.  If `Call` returns before its goroutine copies the
scope, it is registered.  If `Call` returns between the copy and the registration, it is
refused.  If `Call` returns after the registration, it runs at that moment, with the query
still running. -/
theorem C68_call_outcomes (grow : Nat → Nat) (ops : List (SOp R V)) (s : Nat) (i : Nat)
    (hs : s < (Heap.run grow ops).scopes.length) :
    let h := (Heap.run grow ops).copy s
    let sub := (Heap.run grow ops).scopes.length
    let new := sub + 1
    ((((h.close sub).1.copy sub).addDtor new (.mk i [])).2 = true) ∧
    ((((h.copy sub).close sub).1.addDtor new (.mk i [])).2 = false) ∧
    (((h.copy sub).addDtor new (.mk i [])).2 = true ∧
      (new, i) ∈ (((h.copy sub).addDtor new (.mk i [])).1.close sub).2) := by
  have hi0 := run_CInv grow ops
  generalize Heap.run grow ops = k at *
  obtain ⟨r, hr⟩ : ∃ r, k.scopes[s]? = some r := ⟨_, List.getElem?_eq_getElem hs⟩
  have hi : CInv (k.copy s) := copy_CInv k s hi0
  have hlen : (k.copy s).scopes.length = k.scopes.length + 1 := copy_len k s r hr
  have hsub := copy_get_new k s r hr
  dsimp only
  generalize k.copy s = h at *
  -- the copy of the copy
  obtain ⟨r1, hr1⟩ : ∃ r1, h.scopes[k.scopes.length]? = some r1 := ⟨_, hsub⟩
  have hi2 : CInv (h.copy k.scopes.length) := copy_CInv h _ hi
  have hnew := copy_get_new h k.scopes.length r1 hr1
  rw [hlen] at hnew
  have hlen2 : (h.copy k.scopes.length).scopes.length = k.scopes.length + 2 := by
    rw [copy_len h _ r1 hr1, hlen]
  have hpar2 : (h.copy k.scopes.length).par (k.scopes.length + 1) = some k.scopes.length := by
    unfold Heap.par; rw [hnew]; rfl
  have hopn2 : (h.copy k.scopes.length).opn (k.scopes.length + 1) = true := by
    unfold Heap.opn; rw [hnew]; rfl
  refine ⟨?_, ?_, ?_, ?_⟩
  · -- closed first
    have p := close_post h k.scopes.length hi (by omega)
    obtain ⟨r2, e2, _⟩ := p.rec' _ r1 hr1
    have hn := copy_get_new (h.close k.scopes.length).1 k.scopes.length r2 e2
    rw [p.len, hlen] at hn
    unfold Heap.addDtor
    rw [hn]; rfl
  · -- closed between
    have p := close_post (h.copy k.scopes.length) k.scopes.length hi2 (by omega)
    have hreach : Reach (h.copy k.scopes.length) k.scopes.length (k.scopes.length + 1) :=
      .kid _ _ .self hpar2 hopn2
    obtain ⟨r2, e2, _, e3, _⟩ := p.rec' _ _ hnew
    unfold Heap.addDtor
    rw [e2]
    simp [(e3 hreach).1]
  · unfold Heap.addDtor; rw [hnew]; rfl
  · -- closed afterwards
    have hstep : ((h.copy k.scopes.length).addDtor (k.scopes.length + 1) (.mk i [])).1 =
        (h.copy k.scopes.length).step grow (.addDtor (k.scopes.length + 1) (.mk i [])) := rfl
    have hi3 := step_CInv grow _ hi2 (.addDtor (k.scopes.length + 1) (.mk i []))
    rw [← hstep] at hi3
    have hget : ∃ r3, ((h.copy k.scopes.length).addDtor (k.scopes.length + 1) (.mk i [])).1.scopes[k.scopes.length + 1]? = some r3 ∧
        r3.parent = some k.scopes.length ∧ r3.destroyed = false ∧ r3.dtors = [.mk i []] := by
      unfold Heap.addDtor
      rw [hnew]
      simp only [Bool.false_eq_true, if_false]
      rw [List.getElem?_set_self (by omega)]
      exact ⟨_, rfl, rfl, rfl, rfl⟩
    have hlen3 : ((h.copy k.scopes.length).addDtor (k.scopes.length + 1) (.mk i [])).1.scopes.length = k.scopes.length + 2 := by
      unfold Heap.addDtor
      rw [hnew]
      simp only [Bool.false_eq_true, if_false, List.length_set]
      exact hlen2
    obtain ⟨r3, e3, e4, e5, e6⟩ := hget
    generalize ((h.copy k.scopes.length).addDtor (k.scopes.length + 1) (.mk i [])).1 = h3 at *
    have p := close_post h3 k.scopes.length hi3 (by omega)
    have hreach : Reach h3 k.scopes.length (k.scopes.length + 1) := by
      refine .kid _ _ .self ?_ ?_
      · unfold Heap.par; rw [e3]; exact e4
      · unfold Heap.opn; rw [e3]; simp [e5]
    have hl := p.log_in _ r3 e3 hreach
    rw [e6] at hl
    have hrr : (runRounds 10 [Dtor.mk i []]).1 = [i] := by
      simp [runRounds, runPass]
    rw [hrr] at hl
    have : (k.scopes.length + 1, i) ∈ (h3.close k.scopes.length).2.filter (fun x => decide (x.1 = k.scopes.length + 1)) := by
      rw [hl]; simp
    exact (List.mem_filter.1 this).1

end

/-- **C68 fails as stated**: a destructor that a plugin attaches to its scope, in a query
called with arguments, may be refused, or run before the query has ended. -/
theorem C68_refuted : ∃ (ops : List (SOp Unit Unit)) (s i : Nat),
    let h := (Heap.run (fun n => n) ops).copy s
    let sub := (Heap.run (fun n => n) ops).scopes.length
    (((h.copy sub).close sub).1.addDtor (sub + 1) (.mk i [])).2 = false ∧
    (sub + 1, i) ∈ (((h.copy sub).addDtor (sub + 1) (.mk i [])).1.close sub).2 :=
  ⟨[.new ()], 0, 7, by decide⟩

/-- A query at work on scope 2, a copy of a copy of the root, while other scopes come and
go. -/
example : let rest : List (SOp Unit Unit) := [.copy 1, .close 3, .addDtor 2 (.mk 4 []), .copy 2, .close 4]
    (Heap.run (fun n => n) ([.new (), .copy 0, .copy 1] : List (SOp Unit Unit))).opn 2 = true ∧
    (Hist.run (fun n => n) ([.new (), .copy 0, .copy 1] ++ rest)).heap.opn 2 = true ∧
    ranOf (Hist.run (fun n => n) ([.new (), .copy 0, .copy 1] ++ rest)).ran 2 = [] := by decide

end Vfilter
