import Verif.ScopeLemmas
/-!
# C20 Destructors run once, in reverse order, children first;
# C21 Closing a scope closes all its descendants
-/
set_option linter.all false

namespace Vfilter
section
variable {R V : Type} [Inhabited R]

/-! ## Specification notions -/

/-- Parent of a scope. -/
def Heap.par (h : Heap R V) (t : Nat) : Option Nat := (h.scopes[t]?).bind (·.parent)

/-- The scope exists and is not closed. -/
def Heap.opn (h : Heap R V) (t : Nat) : Bool :=
  match h.scopes[t]? with
  | some r => !r.destroyed
  | none => false

/-- `t` was derived from `s` by a chain of copies (reflexive). -/
inductive Desc (h : Heap R V) (s : Nat) : Nat → Prop where
  | self : Desc h s s
  | kid (u t : Nat) : Desc h s u → h.par t = some u → Desc h s t

/-- `t` was derived from `s` through scopes that are all still open (`s` itself may be
closed). -/
inductive Reach (h : Heap R V) (s : Nat) : Nat → Prop where
  | self : Reach h s s
  | kid (u t : Nat) : Reach h s u → h.par t = some u → h.opn t = true → Reach h s t

/-- `u` is a proper ancestor of `t`. -/
inductive Anc (h : Heap R V) (u : Nat) : Nat → Prop where
  | parent (t : Nat) : h.par t = some u → Anc h u t
  | up (t p : Nat) : h.par t = some p → Anc h u p → Anc h u t

/-! ## Invariant -/

/-- The children list of a scope holds, besides cleared slots, exactly its open children
in order of creation. -/
structure CInv (h : Heap R V) : Prop where
  older : ∀ t u, h.par t = some u → u < t
  kids : ∀ (u : Nat) r, h.scopes[u]? = some r →
    r.children.filterMap id =
      (List.range h.scopes.length).filter (fun t => decide (h.par t = some u) && h.opn t)

theorem opn_lt {h : Heap R V} {t : Nat} (ht : h.opn t = true) : t < h.scopes.length := by
  unfold Heap.opn at ht
  cases hr : h.scopes[t]? with
  | none => rw [hr] at ht; simp at ht
  | some r => exact getElem?_lt hr

theorem CInv.mem_kids {h : Heap R V} (hi : CInv h) {u : Nat} {r : ScopeRec} (hr : h.scopes[u]? = some r)
    (c : Nat) : c ∈ r.children.filterMap id ↔ h.par c = some u ∧ h.opn c = true := by
  rw [hi.kids u r hr]
  simp only [List.mem_filter, List.mem_range, Bool.and_eq_true, decide_eq_true_eq]
  constructor
  · rintro ⟨_, h⟩; exact h
  · intro hh; exact ⟨opn_lt hh.2, hh⟩

theorem CInv.kids_nodup {h : Heap R V} (hi : CInv h) {u : Nat} {r : ScopeRec}
    (hr : h.scopes[u]? = some r) : (r.children.filterMap id).Nodup := by
  rw [hi.kids u r hr]
  exact List.nodup_range.filter _

theorem Reach.le {h : Heap R V} (hi : ∀ t u, h.par t = some u → u < t) {s t : Nat} (hr : Reach h s t) :
    s ≤ t := by
  induction hr with
  | self => exact Nat.le_refl _
  | kid u t _ hp _ ih => have := hi t u hp; omega

theorem Reach.trans' {h : Heap R V} {s c t : Nat} (h1 : Reach h s c) (h2 : Reach h c t) : Reach h s t := by
  induction h2 with
  | self => exact h1
  | kid u t _ hp ho ih => exact .kid u t ih hp ho

theorem Reach.head {h : Heap R V} {s t : Nat} (hr : Reach h s t) :
    t = s ∨ ∃ c, h.par c = some s ∧ h.opn c = true ∧ Reach h c t := by
  induction hr with
  | self => exact Or.inl rfl
  | kid u t _ hp ho ih =>
    rcases ih with rfl | ⟨c, h1, h2, h3⟩
    · exact Or.inr ⟨t, hp, ho, .self⟩
    · exact Or.inr ⟨c, h1, h2, .kid u t h3 hp ho⟩

theorem reach_disjoint {h : Heap R V} (hi : ∀ t u, h.par t = some u → u < t) {s c c' t : Nat}
    (hc : h.par c = some s) (hc' : h.par c' = some s) (h1 : Reach h c t) (h2 : Reach h c' t) : c = c' := by
  induction h1 with
  | self =>
    cases h2 with
    | self => rfl
    | kid u _ hr hp _ =>
      rw [hc] at hp; cases hp
      have := hr.le hi; have := hi _ _ hc'; omega
  | kid u t hr hp ho ih =>
    cases h2 with
    | self =>
      rw [hc'] at hp; cases hp
      have := hr.le hi; have := hi _ _ hc; omega
    | kid u' _ hr' hp' _ =>
      rw [hp] at hp'; cases hp'
      exact ih hr'

theorem anc_lt {h : Heap R V} (hi : ∀ t u, h.par t = some u → u < t) {u t : Nat} (ha : Anc h u t) : u < t := by
  induction ha with
  | parent t hp => exact hi t u hp
  | up t p hp _ ih => have := hi t p hp; omega

/-- Ancestors of something reached from `c` are reached from `c` or ancestors of `c`. -/
theorem anc_reach {h : Heap R V} {u c t : Nat} (hr : Reach h c t) (ha : Anc h u t) :
    Reach h c u ∨ Anc h u c := by
  induction hr with
  | self => exact Or.inr ha
  | kid p t hr hp ho ih =>
    cases ha with
    | parent _ hp' => rw [hp] at hp'; cases hp'; exact Or.inl hr
    | up _ p' hp' ha' => rw [hp] at hp'; cases hp'; exact ih ha'

/-! ## The effect of closing -/

/-- Effect of closing the scopes in `D` (as a set), with log `L`. -/
structure Post (h : Heap R V) (D : Nat → Prop) (h' : Heap R V) (L : List (Nat × Nat)) : Prop where
  len : h'.scopes.length = h.scopes.length
  rec' : ∀ (t : Nat) r, h.scopes[t]? = some r → ∃ r', h'.scopes[t]? = some r' ∧ r'.parent = r.parent ∧
    (D t → r'.destroyed = true ∧ r'.dtors = (runRounds 10 r.dtors).2) ∧
    (¬ D t → r'.destroyed = r.destroyed ∧ r'.dtors = r.dtors)
  inv : CInv h'
  log_in : ∀ (t : Nat) r, h.scopes[t]? = some r → D t →
    L.filter (fun x => decide (x.1 = t)) = (runRounds 10 r.dtors).1.map (fun i => (t, i))
  log_out : ∀ x ∈ L, D x.1
  order : L.Pairwise (fun x y => ¬ Anc h x.1 y.1)

theorem Post.par {h h' : Heap R V} {D L} (p : Post h D h' L) (t : Nat) : h'.par t = h.par t := by
  unfold Heap.par
  cases hr : h.scopes[t]? with
  | none =>
    have : h'.scopes[t]? = none := by
      rw [List.getElem?_eq_none_iff] at hr ⊢; rw [p.len]; exact hr
    rw [this]
  | some r =>
    obtain ⟨r', h1, h2, _⟩ := p.rec' t r hr
    rw [h1]; simp [h2]

theorem Post.opn_of {h h' : Heap R V} {D L} (p : Post h D h' L) (t : Nat) (ho : h'.opn t = true) :
    h.opn t = true ∧ ¬ D t := by
  have hlt := opn_lt ho
  rw [p.len] at hlt
  have hr : h.scopes[t]? = some h.scopes[t] := List.getElem?_eq_getElem hlt
  obtain ⟨r', h1, h2, h3, h4⟩ := p.rec' t _ hr
  unfold Heap.opn at ho ⊢
  rw [h1] at ho
  rw [hr]
  simp only [Bool.not_eq_true'] at ho ⊢
  by_cases hd : D t
  · rw [(h3 hd).1] at ho; simp at ho
  · exact ⟨by rw [← (h4 hd).1]; exact ho, hd⟩

theorem Post.opn_keep {h h' : Heap R V} {D L} (p : Post h D h' L) (t : Nat) (ho : h.opn t = true)
    (hd : ¬ D t) : h'.opn t = true := by
  have hlt := opn_lt ho
  have hr : h.scopes[t]? = some h.scopes[t] := List.getElem?_eq_getElem hlt
  obtain ⟨r', h1, h2, h3, h4⟩ := p.rec' t _ hr
  unfold Heap.opn at ho ⊢
  rw [hr] at ho
  rw [h1]
  simp only [Bool.not_eq_true'] at ho ⊢
  rw [(h4 hd).1]; exact ho

theorem Post.anc {h h' : Heap R V} {D L} (p : Post h D h' L) (u t : Nat) : Anc h' u t ↔ Anc h u t := by
  constructor
  · intro ha
    induction ha with
    | parent t hp => exact .parent t (by rw [← p.par]; exact hp)
    | up t q hp _ ih => exact .up t q (by rw [← p.par]; exact hp) ih
  · intro ha
    induction ha with
    | parent t hp => exact .parent t (by rw [p.par]; exact hp)
    | up t q hp _ ih => exact .up t q (by rw [p.par]; exact hp) ih

/-- Closing a list of siblings one after the other. -/
theorem fold_post (n s : Nat)
    (ih : ∀ (h : Heap R V) c, CInv h → c < h.scopes.length → h.scopes.length - c ≤ n →
      Post h (Reach h c) (Heap.closeF n h c).1 (Heap.closeF n h c).2) :
    ∀ (ks : List Nat) (h : Heap R V) (pre : List (Nat × Nat)), CInv h → ks.Nodup →
      (∀ c ∈ ks, h.par c = some s ∧ h.opn c = true) → h.scopes.length - s ≤ n + 1 →
      ∃ L, (ks.foldl (fun (acc : Heap R V × List (Nat × Nat)) (c : Nat) =>
          ((Heap.closeF n acc.1 c).1, acc.2 ++ (Heap.closeF n acc.1 c).2)) (h, pre)).2 = pre ++ L ∧
        Post h (fun t => ∃ c ∈ ks, Reach h c t)
          (ks.foldl (fun (acc : Heap R V × List (Nat × Nat)) (c : Nat) =>
            ((Heap.closeF n acc.1 c).1, acc.2 ++ (Heap.closeF n acc.1 c).2)) (h, pre)).1 L := by
  intro ks
  induction ks with
  | nil =>
    intro h pre hi _ _ _
    refine ⟨[], by simp, rfl, ?_, hi, ?_, by simp, by simp⟩
    · intro t r hr
      exact ⟨r, hr, rfl, by simp, by simp⟩
    · simp
  | cons c cs ihk =>
    intro h pre hi hnd hks hn
    obtain ⟨hpc, hoc⟩ := hks c (by simp)
    have hlt := opn_lt hoc
    have hsc := hi.older c s hpc
    have p1 := ih h c hi hlt (by omega)
    generalize hx : Heap.closeF n h c = x at p1
    obtain ⟨h1, L1⟩ := x
    simp only [List.foldl_cons, hx]
    simp only at p1
    have hnotin : ∀ c' ∈ cs, c' ≠ c := by
      intro c' hc' e; subst e; simp at hnd; exact hnd.1 hc'
    have hks1 : ∀ c' ∈ cs, h1.par c' = some s ∧ h1.opn c' = true := by
      intro c' hc'
      obtain ⟨h2, h3⟩ := hks c' (by simp [hc'])
      refine ⟨by rw [p1.par]; exact h2, p1.opn_keep c' h3 ?_⟩
      intro hr
      exact hnotin c' hc' (reach_disjoint hi.older hpc h2 hr .self).symm
    obtain ⟨L2, hL2, p2⟩ := ihk h1 (pre ++ L1) p1.inv (by simp at hnd; exact hnd.2) hks1
      (by rw [p1.len]; exact hn)
    -- reach in h1 from the other siblings is reach in h
    have hreach : ∀ c' ∈ cs, ∀ t, Reach h1 c' t ↔ Reach h c' t := by
      intro c' hc' t
      obtain ⟨h2, h3⟩ := hks c' (by simp [hc'])
      constructor
      · intro hr
        induction hr with
        | self => exact .self
        | kid u t _ hp ho ih' => exact .kid u t ih' (by rw [← p1.par]; exact hp) (p1.opn_of t ho).1
      · intro hr
        induction hr with
        | self => exact .self
        | kid u t hr hp ho ih' =>
          refine .kid u t ih' (by rw [p1.par]; exact hp) (p1.opn_keep t ho ?_)
          intro hrc
          exact hnotin c' hc' (reach_disjoint hi.older hpc h2 hrc (.kid u t hr hp ho)).symm
    have hD : ∀ t, (∃ c' ∈ cs, Reach h1 c' t) ↔ (∃ c' ∈ cs, Reach h c' t) := by
      intro t
      constructor
      · rintro ⟨c', hc', hr⟩; exact ⟨c', hc', (hreach c' hc' t).1 hr⟩
      · rintro ⟨c', hc', hr⟩; exact ⟨c', hc', (hreach c' hc' t).2 hr⟩
    have hdisj : ∀ t, Reach h c t → ¬ ∃ c' ∈ cs, Reach h c' t := by
      rintro t hr ⟨c', hc', hr'⟩
      exact hnotin c' hc' (reach_disjoint hi.older hpc (hks c' (by simp [hc'])).1 hr hr').symm
    refine ⟨L1 ++ L2, by rw [hL2]; simp, ?_⟩
    refine ⟨by rw [p2.len, p1.len], ?_, p2.inv, ?_, ?_, ?_⟩
    · intro t r hr
      obtain ⟨r1, e1, e2, e3, e4⟩ := p1.rec' t r hr
      obtain ⟨r2, f1, f2, f3, f4⟩ := p2.rec' t r1 e1
      refine ⟨r2, f1, by rw [f2, e2], ?_, ?_⟩
      · rintro ⟨c', hc', hrc⟩
        rcases List.mem_cons.1 hc' with rfl | hc'
        · have hnd := hdisj t hrc
          have f := f4 (fun e => hnd ((hD t).1 e))
          have e := e3 hrc
          exact ⟨by rw [f.1, e.1], by rw [f.2, e.2]⟩
        · have hnc : ¬ Reach h c t := fun e => hdisj t e ⟨c', hc', hrc⟩
          have f := f3 ((hD t).2 ⟨c', hc', hrc⟩)
          have e := e4 hnc
          exact ⟨f.1, by rw [f.2, e.2]⟩
      · intro hnd
        have f := f4 (fun e => hnd (by obtain ⟨c', hc', hr'⟩ := (hD t).1 e; exact ⟨c', by simp [hc'], hr'⟩))
        have e := e4 (fun e => hnd ⟨c, by simp, e⟩)
        exact ⟨by rw [f.1, e.1], by rw [f.2, e.2]⟩
    · rintro t r hr ⟨c', hc', hrc⟩
      obtain ⟨r1, e1, e2, e3, e4⟩ := p1.rec' t r hr
      rw [List.filter_append]
      rcases List.mem_cons.1 hc' with rfl | hc'
      · rw [p1.log_in t r hr hrc]
        have : L2.filter (fun x => decide (x.1 = t)) = [] := by
          rw [List.filter_eq_nil_iff]
          intro x hx
          simp only [decide_eq_true_eq]
          rintro rfl
          exact hdisj _ hrc ((hD _).1 (p2.log_out x hx))
        rw [this, List.append_nil]
      · have hnc : ¬ Reach h c t := fun e => hdisj t e ⟨c', hc', hrc⟩
        have : L1.filter (fun x => decide (x.1 = t)) = [] := by
          rw [List.filter_eq_nil_iff]
          intro x hx
          simp only [decide_eq_true_eq]
          rintro rfl
          exact hnc (p1.log_out x hx)
        rw [this, List.nil_append, p2.log_in t r1 e1 ((hD t).2 ⟨c', hc', hrc⟩), (e4 hnc).2]
    · intro x hx
      rcases List.mem_append.1 hx with hx | hx
      · exact ⟨c, by simp, p1.log_out x hx⟩
      · obtain ⟨c', hc', hr'⟩ := (hD _).1 (p2.log_out x hx)
        exact ⟨c', by simp [hc'], hr'⟩
    · rw [List.pairwise_append]
      refine ⟨p1.order, ?_, ?_⟩
      · exact p2.order.imp (fun {x y} hxy ha => hxy ((p1.anc _ _).2 ha))
      · intro x hx y hy ha
        have hxr := p1.log_out x hx
        obtain ⟨c', hc', hyr⟩ := (hD _).1 (p2.log_out y hy)
        have hpc' := (hks c' (by simp [hc'])).1
        rcases anc_reach hyr ha with hr | ha'
        · exact hdisj _ hxr ⟨c', hc', hr⟩
        · have h1 := hxr.le hi.older
          have h2 : x.1 ≤ s := by
            cases ha' with
            | parent _ hp => rw [hpc'] at hp; cases hp; exact Nat.le_refl _
            | up _ q hp hq => rw [hpc'] at hp; cases hp; exact Nat.le_of_lt (anc_lt hi.older hq)
          omega

theorem filterMap_clear (l : List (Option Nat)) (s : Nat) :
    (l.map (fun c => if c = some s then none else c)).filterMap id =
      (l.filterMap id).filter (fun t => decide (t ≠ s)) := by
  induction l with
  | nil => rfl
  | cons a l ih =>
    cases a with
    | none => simpa using ih
    | some b =>
      by_cases hb : b = s
      · subst hb; simp at ih ⊢; exact ih
      · simp [hb] at ih ⊢; exact ih

/-- The last part of closing. -/
theorem finish_post (h : Heap R V) (s : Nat) (hi : CInv h) (hs : s < h.scopes.length) :
    Post h (fun t => t = s) (h.finish s).1 (h.finish s).2 := by
  have hr : h.scopes[s]? = some h.scopes[s] := List.getElem?_eq_getElem hs
  generalize h.scopes[s] = r at hr
  -- elementwise description
  have hget : ∀ t, (h.finish s).1.scopes[t]? = (h.scopes[t]?).map (fun q =>
      let q1 := if r.parent = some t then clearSlot s q else q
      if t = s then { q1 with dtors := (runRounds 10 r.dtors).2, destroyed := true } else q1) := by
    intro t
    simp only [Heap.finish, hr]
    rw [List.getElem?_modify]
    cases hp : r.parent with
    | none =>
      cases h.scopes[t]? with
      | none => simp
      | some q => by_cases hst : s = t <;> simp [hst, eq_comm]
    | some p =>
      simp only [List.getElem?_modify]
      cases h.scopes[t]? with
      | none => simp
      | some q =>
        by_cases hst : s = t
        · subst hst
          by_cases hpt : p = s <;> simp [hpt]
        · by_cases hpt : p = t
          · simp [hst, hpt, Ne.symm hst]
          · simp [hst, hpt, Ne.symm hst]
  have hlen : (h.finish s).1.scopes.length = h.scopes.length := by
    have := congrArg List.length (finish_fixed h s).1
    simpa using this
  have hlog : (h.finish s).2 = (runRounds 10 r.dtors).1.map (fun i => (s, i)) := by
    simp only [Heap.finish, hr]
  have hpar : ∀ t, (h.finish s).1.par t = h.par t := by
    intro t
    unfold Heap.par
    rw [hget t]
    cases h.scopes[t]? with
    | none => rfl
    | some q =>
      simp only [Option.map_some, Option.bind_some]
      by_cases h2 : r.parent = some t <;> by_cases h1 : t = s <;> simp only [h2, if_true, if_false] <;> simp [h1, clearSlot]
  have hopn : ∀ t, (h.finish s).1.opn t = (h.opn t && decide (t ≠ s)) := by
    intro t
    unfold Heap.opn
    rw [hget t]
    cases h.scopes[t]? with
    | none => simp
    | some q =>
      simp only [Option.map_some]
      by_cases h2 : r.parent = some t <;> by_cases h1 : t = s <;> simp only [h2, if_true, if_false] <;> simp [h1, clearSlot]
  refine ⟨hlen, ?_, ⟨?_, ?_⟩, ?_, ?_, ?_⟩
  · intro t q hq
    refine ⟨_, by rw [hget t, hq]; rfl, ?_, ?_, ?_⟩
    · by_cases h2 : r.parent = some t <;> by_cases h1 : t = s <;> simp only [h2, if_true, if_false] <;> simp [h1, clearSlot]
    · rintro rfl
      rw [hr] at hq; cases hq
      simp
    · intro hne
      by_cases h2 : r.parent = some t <;> simp [hne, h2, clearSlot]
  · intro t u hp
    rw [hpar] at hp
    exact hi.older t u hp
  · intro u ru hu
    rw [hget u] at hu
    cases hq : h.scopes[u]? with
    | none => rw [hq] at hu; simp at hu
    | some q =>
      rw [hq] at hu
      simp only [Option.map_some, Option.some.injEq] at hu
      have hk := hi.kids u q hq
      have hch : ru.children = if r.parent = some u then
          q.children.map (fun c => if c = some s then none else c) else q.children := by
        subst hu
        by_cases h2 : r.parent = some u <;> by_cases h1 : u = s <;> simp only [h2, if_true, if_false] <;> simp [h1, clearSlot]
      rw [hch, hlen]
      by_cases h2 : r.parent = some u
      · rw [if_pos h2, filterMap_clear, hk, List.filter_filter]
        apply List.filter_congr
        intro t _
        rw [hpar, hopn]
        cases decide (h.par t = some u) <;> cases h.opn t <;> simp
      · rw [if_neg h2, hk]
        apply List.filter_congr
        intro t _
        rw [hpar, hopn]
        by_cases hts : t = s
        · subst hts
          have : h.par t = r.parent := by simp [Heap.par, hr]
          rw [this]; simp [h2]
        · simp [hts]
  · rintro t q hq rfl
    rw [hr] at hq; cases hq
    rw [hlog]
    rw [List.filter_eq_self]
    intro x hx
    simp at hx
    obtain ⟨i, _, rfl⟩ := hx
    simp
  · intro x hx
    rw [hlog] at hx
    simp at hx
    obtain ⟨i, _, rfl⟩ := hx
    rfl
  · rw [hlog, List.pairwise_map]
    apply List.pairwise_of_forall
    intro i j ha
    have := anc_lt hi.older ha
    omega

/-- The effect of `Close` on any scope in any state satisfying the invariant: exactly
the scopes reached through open scopes are affected. -/
theorem closeF_post : ∀ (n : Nat) (h : Heap R V) (s : Nat), CInv h → s < h.scopes.length →
    h.scopes.length - s ≤ n → Post h (Reach h s) (Heap.closeF n h s).1 (Heap.closeF n h s).2 := by
  intro n
  induction n with
  | zero => intro h s _ hs hn; omega
  | succ n ih =>
    intro h s hi hs hn
    have hr : h.scopes[s]? = some h.scopes[s] := List.getElem?_eq_getElem hs
    generalize h.scopes[s] = r at hr
    obtain ⟨L, hL, p1⟩ := fold_post n s ih (r.children.filterMap id) h [] hi (hi.kids_nodup hr)
      (fun c hc => (hi.mem_kids hr c).1 hc) hn
    rw [Heap.closeF, hr]
    simp only
    generalize hacc : List.foldl (fun (acc : Heap R V × List (Nat × Nat)) (c : Nat) =>
          ((Heap.closeF n acc.1 c).1, acc.2 ++ (Heap.closeF n acc.1 c).2)) (h, [])
          (r.children.filterMap id) = acc at hL p1
    obtain ⟨h1, L1⟩ := acc
    simp only [List.nil_append] at hL p1
    subst hL
    have p2 := finish_post h1 s p1.inv (by rw [p1.len]; exact hs)
    have hD : ∀ t, (∃ c ∈ r.children.filterMap id, Reach h c t) ↔ (Reach h s t ∧ t ≠ s) := by
      intro t
      constructor
      · rintro ⟨c, hc, hrc⟩
        obtain ⟨h2, h3⟩ := (hi.mem_kids hr c).1 hc
        have := hi.older c s h2
        have := hrc.le hi.older
        exact ⟨(Reach.kid s c .self h2 h3).trans' hrc, by omega⟩
      · rintro ⟨hrs, hne⟩
        rcases hrs.head with e | ⟨c, h2, h3, h4⟩
        · exact absurd e hne
        · exact ⟨c, (hi.mem_kids hr c).2 ⟨h2, h3⟩, h4⟩
    refine ⟨by rw [p2.len, p1.len], ?_, p2.inv, ?_, ?_, ?_⟩
    · intro t q hq
      obtain ⟨q1, e1, e2, e3, e4⟩ := p1.rec' t q hq
      obtain ⟨q2, f1, f2, f3, f4⟩ := p2.rec' t q1 e1
      refine ⟨q2, f1, by rw [f2, e2], ?_, ?_⟩
      · intro hrs
        by_cases hts : t = s
        · have e := e4 (fun e => ((hD t).1 e).2 hts)
          have f := f3 hts
          exact ⟨f.1, by rw [f.2, e.2]⟩
        · have e := e3 ((hD t).2 ⟨hrs, hts⟩)
          have f := f4 hts
          exact ⟨by rw [f.1, e.1], by rw [f.2, e.2]⟩
      · intro hnr
        have hts : t ≠ s := fun e => hnr (e ▸ .self)
        have e := e4 (fun e => hnr ((hD t).1 e).1)
        have f := f4 hts
        exact ⟨by rw [f.1, e.1], by rw [f.2, e.2]⟩
    · intro t q hq hrs
      obtain ⟨q1, e1, e2, e3, e4⟩ := p1.rec' t q hq
      rw [List.filter_append]
      by_cases hts : t = s
      · have : L1.filter (fun x => decide (x.1 = t)) = [] := by
          rw [List.filter_eq_nil_iff]
          intro x hx
          simp only [decide_eq_true_eq]
          intro e
          exact ((hD _).1 (p1.log_out x hx)).2 (e.trans hts)
        rw [this, List.nil_append, p2.log_in t q1 e1 hts, (e4 (fun e => ((hD t).1 e).2 hts)).2]
      · have : (h1.finish s).2.filter (fun x => decide (x.1 = t)) = [] := by
          rw [List.filter_eq_nil_iff]
          intro x hx
          simp only [decide_eq_true_eq]
          intro e
          exact hts (e ▸ p2.log_out x hx)
        rw [this, List.append_nil, p1.log_in t q hq ((hD t).2 ⟨hrs, hts⟩)]
    · intro x hx
      rcases List.mem_append.1 hx with hx | hx
      · exact ((hD _).1 (p1.log_out x hx)).1
      · have hxs : x.1 = s := p2.log_out x hx
        rw [hxs]; exact .self
    · rw [List.pairwise_append]
      refine ⟨p1.order, ?_, ?_⟩
      · exact p2.order.imp (fun {x y} hxy ha => hxy ((p1.anc _ _).2 ha))
      · intro x hx y hy ha
        have hy' := p2.log_out y hy
        rw [hy'] at ha
        have h3 := anc_lt hi.older ha
        have h4 := ((hD _).1 (p1.log_out x hx)).1.le hi.older
        omega

theorem close_post (h : Heap R V) (s : Nat) (hi : CInv h) (hs : s < h.scopes.length) :
    Post h (Reach h s) (h.close s).1 (h.close s).2 :=
  closeF_post _ h s hi hs (by omega)

theorem close_out_of_range (h : Heap R V) (s : Nat) (hs : h.scopes[s]? = none) : h.close s = (h, []) := by
  simp only [Heap.close, Heap.closeF, hs]

/-! ## The invariant holds in every reachable state -/

theorem CInv.of_same {h h' : Heap R V} (hi : CInv h)
    (hs : ∀ (t : Nat), (h'.scopes[t]?).map (fun (r : ScopeRec) => (r.parent, r.children, r.destroyed)) =
      (h.scopes[t]?).map (fun (r : ScopeRec) => (r.parent, r.children, r.destroyed)))
    (hlen : h'.scopes.length = h.scopes.length) : CInv h' := by
  have hpar : ∀ t, h'.par t = h.par t := by
    intro t
    have := hs t
    unfold Heap.par
    cases h1 : h'.scopes[t]? <;> cases h2 : h.scopes[t]? <;> rw [h1, h2] at this <;> simp_all
  have hopn : ∀ t, h'.opn t = h.opn t := by
    intro t
    have := hs t
    unfold Heap.opn
    cases h1 : h'.scopes[t]? <;> cases h2 : h.scopes[t]? <;> rw [h1, h2] at this <;> simp_all
  refine ⟨fun t u hp => hi.older t u (by rw [← hpar]; exact hp), ?_⟩
  intro u r hr
  have := hs u
  rw [hr] at this
  cases h2 : h.scopes[u]? with
  | none => rw [h2] at this; simp at this
  | some r0 =>
    rw [h2] at this
    simp at this
    rw [this.2.1, hi.kids u r0 h2, hlen]
    apply List.filter_congr
    intro t _
    rw [hpar, hopn]

theorem same_set {h : Heap R V} {s : Nat} {r r' : ScopeRec} (hr : h.scopes[s]? = some r)
    (he : (r'.parent, r'.children, r'.destroyed) = (r.parent, r.children, r.destroyed)) (t : Nat) :
    ((h.scopes.set s r')[t]?).map (fun (r : ScopeRec) => (r.parent, r.children, r.destroyed)) =
      (h.scopes[t]?).map (fun (r : ScopeRec) => (r.parent, r.children, r.destroyed)) := by
  rw [List.getElem?_set]
  by_cases hst : s = t
  · subst hst
    rw [hr]
    simp [getElem?_lt hr]
    simpa using he
  · simp [hst]

theorem newScope_CInv (h : Heap R V) (null : R) (hi : CInv h) : CInv (h.newScope null) := by
  have hlen : (h.newScope null).scopes.length = h.scopes.length + 1 := by simp [Heap.newScope]
  have hget : ∀ t, t < h.scopes.length → (h.newScope null).scopes[t]? = h.scopes[t]? := by
    intro t ht; simp only [Heap.newScope]; rw [List.getElem?_append_left ht]
  have hnew : ∃ r, (h.newScope null).scopes[h.scopes.length]? = some r ∧ r.parent = none ∧ r.children = [] := by
    refine ⟨_, by simp only [Heap.newScope]; rw [List.getElem?_append_right (Nat.le_refl _)]; simp; rfl, rfl, rfl⟩
  obtain ⟨rn, hn1, hn2, hn3⟩ := hnew
  have hpar : ∀ t, (h.newScope null).par t = h.par t := by
    intro t
    rcases Nat.lt_trichotomy t h.scopes.length with hlt | heq | hgt
    · simp [Heap.par, hget t hlt]
    · subst heq; simp [Heap.par, hn1, hn2]
    · have h1 : h.scopes[t]? = none := by rw [List.getElem?_eq_none_iff]; omega
      have h2 : (h.newScope null).scopes[t]? = none := by rw [List.getElem?_eq_none_iff, hlen]; omega
      simp [Heap.par, h1, h2]
  have hopn : ∀ t, t < h.scopes.length → (h.newScope null).opn t = h.opn t := by
    intro t ht; simp [Heap.opn, hget t ht]
  have hplt : ∀ t u, h.par t = some u → t < h.scopes.length := by
    intro t u hp
    unfold Heap.par at hp
    cases hx : h.scopes[t]? with
    | none => rw [hx] at hp; simp at hp
    | some _ => exact getElem?_lt hx
  refine ⟨fun t u hp => hi.older t u (by rw [← hpar]; exact hp), ?_⟩
  intro u r hr
  rw [hlen, List.range_succ, List.filter_append]
  have hlast : [h.scopes.length].filter
      (fun t => decide ((h.newScope null).par t = some u) && (h.newScope null).opn t) = [] := by
    have : (h.newScope null).par h.scopes.length = none := by simp [Heap.par, hn1, hn2]
    simp [this]
  rw [hlast, List.append_nil]
  have hcongr : (List.range h.scopes.length).filter
      (fun t => decide ((h.newScope null).par t = some u) && (h.newScope null).opn t) =
      (List.range h.scopes.length).filter (fun t => decide (h.par t = some u) && h.opn t) := by
    apply List.filter_congr
    intro t ht
    rw [hpar, hopn t (List.mem_range.1 ht)]
  rw [hcongr]
  rcases Nat.lt_or_ge u h.scopes.length with hlt | hge
  · rw [hget u hlt] at hr
    exact hi.kids u r hr
  · have hu : u = h.scopes.length := by have := getElem?_lt hr; omega
    subst hu
    rw [hn1] at hr; cases hr
    rw [hn3]
    symm
    rw [List.filterMap_nil, List.filter_eq_nil_iff]
    intro t ht
    simp only [Bool.and_eq_true, decide_eq_true_eq, not_and]
    intro hp
    have := hi.older t _ hp
    have := List.mem_range.1 ht
    omega

theorem copy_CInv (h : Heap R V) (s : Nat) (hi : CInv h) : CInv (h.copy s) := by
  cases hr : h.scopes[s]? with
  | none => simp only [Heap.copy, hr]; exact hi
  | some r =>
    have hs := getElem?_lt hr
    have hlen : (h.copy s).scopes.length = h.scopes.length + 1 := by simp [Heap.copy, hr]
    have hnew : ∃ c, (h.copy s).scopes[h.scopes.length]? = some c ∧ c.parent = some s ∧ c.children = [] ∧
        c.destroyed = false := by
      simp only [Heap.copy, hr]
      rw [List.getElem?_append_right (by simp)]
      simp
    obtain ⟨c, hc1, hc2, hc3, hc4⟩ := hnew
    have hget : ∀ t, t < h.scopes.length → ∃ q q', h.scopes[t]? = some q ∧ (h.copy s).scopes[t]? = some q' ∧
        q'.parent = q.parent ∧ q'.destroyed = q.destroyed ∧
        q'.children.filterMap id = q.children.filterMap id ++ (if t = s then [h.scopes.length] else []) := by
      intro t ht
      have hq : h.scopes[t]? = some h.scopes[t] := List.getElem?_eq_getElem ht
      simp only [Heap.copy, hr]
      rw [List.getElem?_append_left (by simpa using ht), List.getElem?_set]
      by_cases hst : s = t
      · subst hst
        rw [hr] at hq
        refine ⟨r, { r with children := (if r.garbage > 10 then r.children.filter (·.isSome) else r.children) ++ [some h.scopes.length], garbage := if r.garbage > 10 then 0 else r.garbage }, hr, by simp only [if_true, hs], rfl, rfl, ?_⟩
        simp only [List.filterMap_append, if_true]
        congr 1
        split
        · induction r.children with
          | nil => rfl
          | cons a l ih =>
            cases a with
            | none => simpa using ih
            | some b => simp at ih ⊢; exact ih
        · rfl
      · refine ⟨_, _, hq, by simp only [hst, if_false]; exact hq, rfl, rfl, ?_⟩
        have : ¬ t = s := fun e => hst e.symm
        simp [this]
    have hpar : ∀ t, t < h.scopes.length → (h.copy s).par t = h.par t := by
      intro t ht
      obtain ⟨q, q', h1, h2, h3, _⟩ := hget t ht
      simp [Heap.par, h1, h2, h3]
    have hopn : ∀ t, t < h.scopes.length → (h.copy s).opn t = h.opn t := by
      intro t ht
      obtain ⟨q, q', h1, h2, h3, h4, _⟩ := hget t ht
      simp [Heap.opn, h1, h2, h4]
    have hparn : (h.copy s).par h.scopes.length = some s := by simp [Heap.par, hc1, hc2]
    have hopnn : (h.copy s).opn h.scopes.length = true := by simp [Heap.opn, hc1, hc4]
    refine ⟨?_, ?_⟩
    · intro t u hp
      rcases Nat.lt_trichotomy t h.scopes.length with hlt | heq | hgt
      · exact hi.older t u (by rw [← hpar t hlt]; exact hp)
      · subst heq; rw [hparn] at hp; cases hp; exact hs
      · have h2 : (h.copy s).scopes[t]? = none := by rw [List.getElem?_eq_none_iff, hlen]; omega
        simp [Heap.par, h2] at hp
    · intro u ru hu
      rw [hlen, List.range_succ, List.filter_append]
      have hcongr : (List.range h.scopes.length).filter
          (fun t => decide ((h.copy s).par t = some u) && (h.copy s).opn t) =
          (List.range h.scopes.length).filter (fun t => decide (h.par t = some u) && h.opn t) := by
        apply List.filter_congr
        intro t ht
        rw [hpar t (List.mem_range.1 ht), hopn t (List.mem_range.1 ht)]
      rw [hcongr]
      have hlast : [h.scopes.length].filter
          (fun t => decide ((h.copy s).par t = some u) && (h.copy s).opn t) =
          if u = s then [h.scopes.length] else [] := by
        by_cases hus : u = s
        · subst hus; simp [hparn, hopnn]
        · have : ¬ s = u := fun e => hus e.symm
          simp [hparn, hus, this]
      rw [hlast]
      rcases Nat.lt_or_ge u h.scopes.length with hlt | hge
      · obtain ⟨q, q', h1, h2, h3, h4, h5⟩ := hget u hlt
        rw [h2] at hu; cases hu
        rw [h5, hi.kids u q h1]
      · have hul : u = h.scopes.length := by have := getElem?_lt hu; omega
        subst hul
        rw [hc1] at hu; cases hu
        rw [hc3]
        have : ¬ h.scopes.length = s := by omega
        rw [if_neg this, List.append_nil]
        symm
        rw [List.filterMap_nil, List.filter_eq_nil_iff]
        intro t ht
        simp only [Bool.and_eq_true, decide_eq_true_eq, not_and]
        intro hp
        have := hi.older t _ hp
        have := List.mem_range.1 ht
        omega

theorem step_CInv (grow : Nat → Nat) (h : Heap R V) (hi : CInv h) (op : SOp R V) :
    CInv (h.step grow op) := by
  cases op with
  | new null => exact newScope_CInv h null hi
  | copy s => exact copy_CInv h s hi
  | append s x =>
    simp only [Heap.step, Heap.appendVars]
    cases hr : h.scopes[s]? with
    | none => exact hi
    | some r => exact hi.of_same (fun t => same_set hr (by rfl) t) (by simp)
  | newAg s =>
    simp only [Heap.step, Heap.setNewAg]
    cases hr : h.scopes[s]? with
    | none => exact hi
    | some r => exact hi.of_same (fun t => same_set hr (by rfl) t) (by simp)
  | setAg s c =>
    simp only [Heap.step, Heap.setAg]
    split
    · cases hr : h.scopes[s]? with
      | none => exact hi
      | some r => exact hi.of_same (fun t => same_set hr (by rfl) t) (by simp)
    · exact hi
  | modAg s name f =>
    simp only [Heap.step, Heap.modifyAg]
    cases h.getAg s with
    | none => exact hi
    | some c =>
      simp only
      cases h.ctxs[c]? with
      | none => exact hi
      | some d => exact hi.of_same (fun t => rfl) rfl
  | addDtor s d =>
    simp only [Heap.step, Heap.addDtor]
    cases hr : h.scopes[s]? with
    | none => exact hi
    | some r =>
      simp only
      split
      · exact hi
      · exact hi.of_same (fun t => same_set hr (by rfl) t) (by simp)
  | close s =>
    simp only [Heap.step]
    cases hs : h.scopes[s]? with
    | none => rw [close_out_of_range h s hs]; exact hi
    | some r => exact (close_post h s hi (getElem?_lt hs)).inv

theorem empty_CInv : CInv (Heap.empty : Heap R V) := by
  refine ⟨?_, ?_⟩
  · intro t u hp; simp [Heap.par, Heap.empty] at hp
  · intro u r hr; simp [Heap.empty] at hr

theorem foldl_CInv (grow : Nat → Nat) (ops : List (SOp R V)) (h : Heap R V) (hi : CInv h) :
    CInv (ops.foldl (Heap.step grow) h) := by
  induction ops generalizing h with
  | nil => exact hi
  | cons op r ih => exact ih _ (step_CInv grow h hi op)

theorem run_CInv (grow : Nat → Nat) (ops : List (SOp R V)) : CInv (Heap.run grow ops) :=
  foldl_CInv grow ops _ empty_CInv

/-! ## C21 -/

theorem isClosed_iff (h : Heap R V) (t : Nat) (ht : t < h.scopes.length) :
    h.isClosed t = !h.opn t := by
  unfold Heap.isClosed Heap.opn
  rw [List.getElem?_eq_getElem ht]
  simp

theorem par_lt {h : Heap R V} {t u : Nat} (hp : h.par t = some u) : t < h.scopes.length := by
  unfold Heap.par at hp
  cases hx : h.scopes[t]? with
  | none => rw [hx] at hp; simp at hp
  | some _ => exact getElem?_lt hx

/-- The history never derives a scope from a closed one. -/
def OpenCopies (grow : Nat → Nat) : Heap R V → List (SOp R V) → Prop
  | _, [] => True
  | h, op :: rest => (∀ s, op = .copy s → h.isClosed s = false) ∧ OpenCopies grow (h.step grow op) rest

/-- Everything derived from a closed scope is closed. -/
def CL (h : Heap R V) : Prop := ∀ t u, h.par t = some u → h.opn u = false → h.opn t = false

theorem CL.of_same {h h' : Heap R V} (hi : CL h) (hp : ∀ t, h'.par t = h.par t)
    (ho : ∀ t, h'.opn t = h.opn t) : CL h' := by
  intro t u h1 h2
  rw [ho] at h2 ⊢
  rw [hp] at h1
  exact hi t u h1 h2

theorem par_opn_of_same {h h' : Heap R V}
    (hs : ∀ (t : Nat), (h'.scopes[t]?).map (fun (r : ScopeRec) => (r.parent, r.children, r.destroyed)) =
      (h.scopes[t]?).map (fun (r : ScopeRec) => (r.parent, r.children, r.destroyed))) (t : Nat) :
    h'.par t = h.par t ∧ h'.opn t = h.opn t := by
  have := hs t
  unfold Heap.par Heap.opn
  cases h1 : h'.scopes[t]? <;> cases h2 : h.scopes[t]? <;> rw [h1, h2] at this <;> simp_all

theorem step_CL (grow : Nat → Nat) (h : Heap R V) (hi : CInv h) (hc : CL h) (op : SOp R V)
    (hop : ∀ s, op = .copy s → h.isClosed s = false) : CL (h.step grow op) := by
  have same : ∀ h' : Heap R V, (∀ (t : Nat), (h'.scopes[t]?).map (fun (r : ScopeRec) => (r.parent, r.children, r.destroyed)) =
      (h.scopes[t]?).map (fun (r : ScopeRec) => (r.parent, r.children, r.destroyed))) → CL h' := by
    intro h' hs
    exact hc.of_same (fun t => (par_opn_of_same hs t).1) (fun t => (par_opn_of_same hs t).2)
  cases op with
  | new null =>
    intro t u hp ho
    simp only [Heap.step, Heap.newScope, Heap.par, Heap.opn] at hp ho ⊢
    rcases Nat.lt_trichotomy t h.scopes.length with hlt | heq | hgt
    · rw [List.getElem?_append_left hlt] at hp ⊢
      have hu : u < h.scopes.length := by
        have := hi.older t u (by unfold Heap.par; exact hp); omega
      rw [List.getElem?_append_left hu] at ho
      exact hc t u (by unfold Heap.par; exact hp) (by unfold Heap.opn; exact ho)
    · subst heq
      rw [List.getElem?_append_right (Nat.le_refl _)] at hp
      simp at hp
    · rw [List.getElem?_eq_none_iff.2 (by simp; omega)] at hp
      simp at hp
  | copy s =>
    have hcl := hop s rfl
    simp only [Heap.step]
    cases hr : h.scopes[s]? with
    | none => simp only [Heap.copy, hr]; exact hc
    | some r =>
      have hs := getElem?_lt hr
      have hrd : r.destroyed = false := by simpa [Heap.isClosed, hr] using hcl
      have hold : ∀ t, t < h.scopes.length → (h.copy s).par t = h.par t ∧ (h.copy s).opn t = h.opn t := by
        intro t ht
        simp only [Heap.copy, hr, Heap.par, Heap.opn]
        rw [List.getElem?_append_left (by simpa using ht), List.getElem?_set]
        by_cases hst : s = t
        · subst hst; rw [if_pos rfl, if_pos hs, hr]; exact ⟨rfl, rfl⟩
        · simp [hst]
      have hnew : (h.copy s).par h.scopes.length = some s := by
        simp only [Heap.copy, hr, Heap.par]
        rw [List.getElem?_append_right (by simp)]
        simp
      intro t u hp ho
      rcases Nat.lt_trichotomy t h.scopes.length with hlt | heq | hgt
      · obtain ⟨h1, h2⟩ := hold t hlt
        rw [h1] at hp
        have hu := hi.older t u hp
        rw [(hold u (by omega)).2] at ho
        rw [h2]
        exact hc t u hp ho
      · subst heq
        rw [hnew] at hp
        cases hp
        rw [(hold s hs).2] at ho
        simp [Heap.opn, hr, hrd] at ho
      · have := par_lt hp
        simp [Heap.copy, hr] at this
        omega
  | append s x =>
    simp only [Heap.step, Heap.appendVars]
    cases hr : h.scopes[s]? with
    | none => exact hc
    | some r => exact same _ (fun t => same_set hr (by rfl) t)
  | newAg s =>
    simp only [Heap.step, Heap.setNewAg]
    cases hr : h.scopes[s]? with
    | none => exact hc
    | some r => exact same _ (fun t => same_set hr (by rfl) t)
  | setAg s c =>
    simp only [Heap.step, Heap.setAg]
    split
    · cases hr : h.scopes[s]? with
      | none => exact hc
      | some r => exact same _ (fun t => same_set hr (by rfl) t)
    · exact hc
  | modAg s name f =>
    simp only [Heap.step, Heap.modifyAg]
    cases h.getAg s with
    | none => exact hc
    | some c =>
      simp only
      cases h.ctxs[c]? with
      | none => exact hc
      | some d => exact same _ (fun t => rfl)
  | addDtor s d =>
    simp only [Heap.step, Heap.addDtor]
    cases hr : h.scopes[s]? with
    | none => exact hc
    | some r =>
      simp only
      split
      · exact hc
      · exact same _ (fun t => same_set hr (by rfl) t)
  | close s =>
    simp only [Heap.step]
    cases hs : h.scopes[s]? with
    | none => rw [close_out_of_range h s hs]; exact hc
    | some r =>
      have p := close_post h s hi (getElem?_lt hs)
      intro t u hp ho
      rw [p.par] at hp
      cases hto : (h.close s).1.opn t with
      | false => rfl
      | true =>
        obtain ⟨h1, h2⟩ := p.opn_of t hto
        exfalso
        cases huo : h.opn u with
        | false => rw [hc t u hp huo] at h1; simp at h1
        | true =>
          have hru : Reach h s u := by
            refine Classical.byContradiction (fun hn => ?_)
            rw [p.opn_keep u huo hn] at ho
            simp at ho
          exact h2 (.kid u t hru hp h1)

theorem foldl_CL (grow : Nat → Nat) (ops : List (SOp R V)) (h : Heap R V) (hi : CInv h) (hc : CL h)
    (ho : OpenCopies grow h ops) : CL (ops.foldl (Heap.step grow) h) := by
  induction ops generalizing h with
  | nil => exact hc
  | cons op r ih => exact ih _ (step_CInv grow h hi op) (step_CL grow h hi hc op ho.1) ho.2

theorem run_CL (grow : Nat → Nat) (ops : List (SOp R V)) (ho : OpenCopies grow Heap.empty ops) :
    CL (Heap.run grow ops) :=
  foldl_CL grow ops _ empty_CInv (by intro t u hp; simp [Heap.par, Heap.empty] at hp) ho

/-- **C21, histories that never copy a closed scope**: after closing a scope, it and every
scope derived from it (directly or not) is closed, no other scope changes its state, and no
closed scope is reopened. -/
theorem C21_closes_descendants_partial (grow : Nat → Nat) (ops : List (SOp R V))
    (ho : OpenCopies grow Heap.empty ops) (s t : Nat)
    (hs : s < (Heap.run grow ops).scopes.length) (ht : t < (Heap.run grow ops).scopes.length) :
    ((Heap.run grow ops).close s).1.isClosed t = true ↔
      (Desc (Heap.run grow ops) s t ∨ (Heap.run grow ops).isClosed t = true) := by
  generalize hh : Heap.run grow ops = h at *
  have hi : CInv h := hh ▸ run_CInv grow ops
  have hc : CL h := hh ▸ run_CL grow ops ho
  have p := close_post h s hi hs
  rw [isClosed_iff _ t (by rw [p.len]; exact ht), isClosed_iff _ t ht]
  have hdesc : ∀ t, Desc h s t → Reach h s t ∨ h.opn t = false := by
    intro t hd
    induction hd with
    | self => exact Or.inl .self
    | kid u t _ hp ih =>
      cases hto : h.opn t with
      | false => exact Or.inr rfl
      | true =>
        rcases ih with hr | hcl
        · exact Or.inl (.kid u t hr hp hto)
        · rw [hc t u hp hcl] at hto; simp at hto
  have hreach : ∀ t, Reach h s t → Desc h s t := by
    intro t hr
    induction hr with
    | self => exact .self
    | kid u t _ hp _ ih => exact .kid u t ih hp
  constructor
  · intro hcl
    by_cases hr : Reach h s t
    · exact Or.inl (hreach t hr)
    · refine Or.inr ?_
      cases hto : h.opn t with
      | false => rfl
      | true => rw [p.opn_keep t hto hr] at hcl; simp at hcl
  · intro hd
    cases hto : (h.close s).1.opn t with
    | false => rfl
    | true =>
      obtain ⟨h1, h2⟩ := p.opn_of t hto
      rcases hd with hd | hd
      · rcases hdesc t hd with hr | hcl
        · exact absurd hr h2
        · rw [hcl] at h1; simp at h1
      · rw [h1] at hd; simp at hd

/-- **C21, all histories**: closing a scope closes exactly the scopes that can be reached
from it through open scopes; all others keep their state. -/
theorem C21_closes_reachable (grow : Nat → Nat) (ops : List (SOp R V)) (s t : Nat)
    (hs : s < (Heap.run grow ops).scopes.length) (ht : t < (Heap.run grow ops).scopes.length) :
    ((Heap.run grow ops).close s).1.isClosed t = true ↔
      (Reach (Heap.run grow ops) s t ∨ (Heap.run grow ops).isClosed t = true) := by
  generalize hh : Heap.run grow ops = h at *
  have hi : CInv h := hh ▸ run_CInv grow ops
  have p := close_post h s hi hs
  rw [isClosed_iff _ t (by rw [p.len]; exact ht), isClosed_iff _ t ht]
  constructor
  · intro hcl
    by_cases hr : Reach h s t
    · exact Or.inl hr
    · refine Or.inr ?_
      cases hto : h.opn t with
      | false => rfl
      | true => rw [p.opn_keep t hto hr] at hcl; simp at hcl
  · intro hd
    cases hto : (h.close s).1.opn t with
    | false => rfl
    | true =>
      obtain ⟨h1, h2⟩ := p.opn_of t hto
      rcases hd with hr | hd
      · exact absurd hr h2
      · rw [h1] at hd; simp at hd

/-- A closed scope refuses new destructors and keeps its registered ones. -/
theorem C21_closed_refuses (h : Heap R V) (s : Nat) (d : Dtor) (hcl : h.isClosed s = true) :
    h.addDtor s d = (h, false) := by
  unfold Heap.isClosed at hcl
  unfold Heap.addDtor
  cases hr : h.scopes[s]? with
  | none => rfl
  | some r =>
    rw [hr] at hcl
    have hcl : r.destroyed = true := hcl
    simp [hcl]

end

/-- **C21 fails as stated**: a child of a closed scope can be made (`Copy` does not check),
and closing the root does not reach it. -/
theorem C21_closes_descendants_refuted :
    ∃ (ops : List (SOp Unit Unit)) (s t : Nat),
      let h := Heap.run (fun n => n) ops
      Desc h s t ∧ t < h.scopes.length ∧ (h.close s).1.isClosed s = true ∧
      (h.close s).1.isClosed t = false := by
  refine ⟨[.new (), .copy 0, .close 1, .copy 1], 0, 2, ?_, by decide, by decide, by decide⟩
  exact .kid 1 2 (.kid 0 1 .self (by decide)) (by decide)

example : OpenCopies (fun n => n) (Heap.empty : Heap Unit Unit)
    [.new (), .copy 0, .copy 1, .copy 0, .close 3, .close 0] := by
  refine ⟨?_, ?_, ?_, ?_, ?_, ?_, trivial⟩ <;> intro s h <;> first | (cases h; done) | (cases h; decide)

/-! ## C20 -/

/-- All destructors contained in one registration: itself and those it registers while
running. -/
def Dtor.nodes : Dtor → List Nat
  | .mk i adds => i :: nodesL adds
where nodesL : List Dtor → List Nat
  | [] => []
  | d :: ds => d.nodes ++ nodesL ds

/-- Nesting depth of registrations made by running destructors. -/
def Dtor.height : Dtor → Nat
  | .mk _ adds => heightL adds + 1
where heightL : List Dtor → Nat
  | [] => 0
  | d :: ds => max d.height (heightL ds)

theorem nodesL_append (a b : List Dtor) :
    Dtor.nodes.nodesL (a ++ b) = Dtor.nodes.nodesL a ++ Dtor.nodes.nodesL b := by
  induction a with
  | nil => rfl
  | cons d a ih => simp [Dtor.nodes.nodesL, ih]

theorem nodesL_pass (ds : List Dtor) :
    ((ds.map (fun (d : Dtor) => match d with | .mk i _ => i)) ++
      Dtor.nodes.nodesL (ds.flatMap (fun (d : Dtor) => match d with | .mk _ adds => adds))).Perm
      (Dtor.nodes.nodesL ds) := by
  induction ds with
  | nil => exact List.Perm.refl _
  | cons d ds ih =>
    obtain ⟨i, adds⟩ := d
    simp only [List.map_cons, List.flatMap_cons, nodesL_append, Dtor.nodes.nodesL, Dtor.nodes,
      List.cons_append]
    refine List.Perm.cons i ?_
    refine List.Perm.trans ?_ (List.Perm.append_left (Dtor.nodes.nodesL adds) ih)
    rw [← List.append_assoc, ← List.append_assoc]
    exact List.Perm.append_right _ List.perm_append_comm

theorem nodesL_perm {a b : List Dtor} (h : a.Perm b) :
    (Dtor.nodes.nodesL a).Perm (Dtor.nodes.nodesL b) := by
  induction h with
  | nil => exact List.Perm.refl _
  | cons x _ ih => exact List.Perm.append_left _ ih
  | swap x y l =>
    simp only [Dtor.nodes.nodesL, ← List.append_assoc]
    exact List.Perm.append_right _ List.perm_append_comm
  | trans _ _ ih1 ih2 => exact ih1.trans ih2

/-- What ran together with what is left is exactly what was registered. -/
theorem runRounds_conserve (n : Nat) : ∀ ds, ((runRounds n ds).1 ++
    Dtor.nodes.nodesL (runRounds n ds).2).Perm (Dtor.nodes.nodesL ds) := by
  induction n with
  | zero => intro ds; simp [runRounds]
  | succ n ih =>
    intro ds
    rw [runRounds]
    cases ds with
    | nil => simp [Dtor.nodes.nodesL]
    | cons d ds =>
      simp only [List.isEmpty_cons, Bool.false_eq_true, if_false, List.append_assoc]
      refine (List.Perm.append_left _ (ih _)).trans ?_
      simp only [runPass]
      refine (nodesL_pass _).trans (nodesL_perm (List.reverse_perm _))

theorem heightL_le {n : Nat} {ds : List Dtor} : Dtor.height.heightL ds ≤ n ↔ ∀ d ∈ ds, d.height ≤ n := by
  induction ds with
  | nil => simp [Dtor.height.heightL]
  | cons d ds ih => simp [Dtor.height.heightL, ← ih, Nat.max_le]

theorem runRounds_empty (n : Nat) : runRounds n [] = ([], []) := by
  cases n <;> rfl

theorem runRounds_done (n : Nat) : ∀ ds, (∀ d ∈ ds, Dtor.height d ≤ n) → (runRounds n ds).2 = [] := by
  induction n with
  | zero =>
    intro ds h
    cases ds with
    | nil => rfl
    | cons d ds =>
      have := h d (by simp)
      obtain ⟨i, adds⟩ := d
      simp [Dtor.height] at this
  | succ n ih =>
    intro ds h
    rw [runRounds]
    split
    · rfl
    · apply ih
      intro d hd
      simp only [runPass, List.mem_flatMap, List.mem_reverse] at hd
      obtain ⟨⟨i, adds⟩, he, hd⟩ := hd
      have := h _ he
      simp only [Dtor.height] at this
      exact heightL_le.1 (by omega : Dtor.height.heightL adds ≤ n) d hd

/-- The order in which the destructors of one scope run: the registered ones in reverse,
then those they registered, again in reverse of their registration, and so on. -/
inductive RunsAs : List Dtor → List Nat → Prop where
  | done : RunsAs [] []
  | round (ds : List Dtor) (l : List Nat) : ds ≠ [] →
      RunsAs (ds.reverse.flatMap (fun d => match d with | .mk _ adds => adds)) l →
      RunsAs ds (ds.reverse.map (fun d => match d with | .mk i _ => i) ++ l)

theorem runRounds_runsAs (n : Nat) : ∀ ds, (∀ d ∈ ds, Dtor.height d ≤ n) → RunsAs ds (runRounds n ds).1 := by
  induction n with
  | zero =>
    intro ds h
    cases ds with
    | nil => exact .done
    | cons d ds =>
      have := h d (by simp)
      obtain ⟨i, adds⟩ := d
      simp [Dtor.height] at this
  | succ n ih =>
    intro ds h
    rw [runRounds]
    cases ds with
    | nil => exact .done
    | cons d0 ds0 =>
      simp only [List.isEmpty_cons, Bool.false_eq_true, if_false]
      refine .round _ _ (by simp) (ih _ ?_)
      intro d hd
      simp only [List.mem_flatMap, List.mem_reverse] at hd
      obtain ⟨⟨i, adds⟩, he, hd⟩ := hd
      have := h _ he
      simp only [Dtor.height] at this
      exact heightL_le.1 (by omega : Dtor.height.heightL adds ≤ n) d hd

section
variable {R V : Type} [Inhabited R]

/-- The destructors registered on a scope and not run yet. -/
def Heap.pending (h : Heap R V) (t : Nat) : List Dtor :=
  match h.scopes[t]? with
  | some r => r.dtors
  | none => []

/-- **C20, one close**: for every reachable state, closing `s` runs for each scope reached
(through open scopes) its pending destructors and for no other scope anything; with
registrations nested at most 10 deep the order within a scope is the documented one and
nothing is left pending. -/
theorem C20_close_runs_partial (grow : Nat → Nat) (ops : List (SOp R V)) (s t : Nat)
    (hs : s < (Heap.run grow ops).scopes.length) :
    let h := Heap.run grow ops
    let log := ((h.close s).2.filter (fun x => decide (x.1 = t))).map (·.2)
    (Reach h s t → (∀ d ∈ h.pending t, d.height ≤ 10) →
      RunsAs (h.pending t) log ∧ log.Perm (Dtor.nodes.nodesL (h.pending t)) ∧
      (h.close s).1.pending t = []) ∧
    (¬ Reach h s t → log = [] ∧ (h.close s).1.pending t = h.pending t) := by
  intro h log
  have hi : CInv h := run_CInv grow ops
  have p := close_post h s hi hs
  constructor
  · intro hr hd
    have ht : t < h.scopes.length := by
      cases hr with
      | self => exact hs
      | kid u _ _ hp _ => exact par_lt hp
    have hg : h.scopes[t]? = some h.scopes[t] := List.getElem?_eq_getElem ht
    generalize h.scopes[t] = r at hg
    have hpd : h.pending t = r.dtors := by simp [Heap.pending, hg]
    rw [hpd] at hd ⊢
    have hlog : log = (runRounds 10 r.dtors).1 := by
      show (((h.close s).2.filter (fun x => decide (x.1 = t))).map (·.2)) = _
      rw [p.log_in t r hg hr, List.map_map]
      simp [Function.comp_def]
    have hdone := runRounds_done 10 r.dtors hd
    refine ⟨hlog ▸ runRounds_runsAs 10 r.dtors hd, ?_, ?_⟩
    · have := runRounds_conserve 10 r.dtors
      rw [hdone] at this
      simpa [Dtor.nodes.nodesL, hlog] using this
    · obtain ⟨r', e1, e2, e3, e4⟩ := p.rec' t r hg
      simp only [Heap.pending, e1]
      rw [(e3 hr).2, hdone]
  · intro hnr
    constructor
    · show (((h.close s).2.filter (fun x => decide (x.1 = t))).map (·.2)) = _
      rw [List.map_eq_nil_iff, List.filter_eq_nil_iff]
      intro x hx
      simp only [decide_eq_true_eq]
      rintro rfl
      exact hnr (p.log_out x hx)
    · unfold Heap.pending
      cases hg : h.scopes[t]? with
      | none =>
        have : (h.close s).1.scopes[t]? = none := by
          rw [List.getElem?_eq_none_iff] at hg ⊢; rw [p.len]; exact hg
        rw [this]
      | some r =>
        obtain ⟨r', e1, e2, e3, e4⟩ := p.rec' t r hg
        rw [e1]; exact (e4 hnr).2

/-- **C20, order**: while closing, no destructor of a scope runs before a destructor of a
scope derived from it. -/
theorem C20_children_first (grow : Nat → Nat) (ops : List (SOp R V)) (s : Nat)
    (hs : s < (Heap.run grow ops).scopes.length) :
    ((Heap.run grow ops).close s).2.Pairwise (fun x y => ¬ Anc (Heap.run grow ops) x.1 y.1) :=
  (close_post _ s (run_CInv grow ops) hs).order

/-- **C20, reverse order**: destructors that register nothing run exactly once each in
reverse order of registration. -/
theorem C20_reverse (grow : Nat → Nat) (ops : List (SOp R V)) (s t : Nat) (ids : List Nat)
    (hs : s < (Heap.run grow ops).scopes.length) (hr : Reach (Heap.run grow ops) s t)
    (hp : (Heap.run grow ops).pending t = ids.map (fun i => Dtor.mk i [])) :
    (((Heap.run grow ops).close s).2.filter (fun x => decide (x.1 = t))).map (·.2) = ids.reverse := by
  have hk := (C20_close_runs_partial grow ops s t hs).1 hr (by
    rw [hp]; intro d hd; simp at hd; obtain ⟨i, _, rfl⟩ := hd; simp [Dtor.height, Dtor.height.heightL])
  have hra := hk.1
  rw [hp] at hra
  generalize (((Heap.run grow ops).close s).2.filter (fun x => decide (x.1 = t))).map (·.2) = l at hra
  have hflat : ∀ ids : List Nat, ((ids.map (fun i => Dtor.mk i [])).reverse.flatMap
      (fun d => match d with | .mk _ adds => adds)) = [] := by
    intro ids; rw [List.flatMap_eq_nil_iff]; intro d hd; simp at hd; obtain ⟨i, _, rfl⟩ := hd; rfl
  generalize hds : ids.map (fun i => Dtor.mk i []) = ds at hra
  cases hra with
  | done => simp at hds; simp [hds]
  | round _ l' hne hra' =>
    rw [← hds, hflat] at hra'
    cases hra' with
    | done => rw [← hds]; simp [← List.map_reverse, Function.comp_def]
    | round _ _ hne' _ => exact absurd rfl hne'

/-- **C20, closing again**: closing a scope a second time runs nothing (registrations
nested at most 10 deep). -/
theorem C20_close_again_partial (grow : Nat → Nat) (ops : List (SOp R V)) (s : Nat)
    (hs : s < (Heap.run grow ops).scopes.length)
    (hd : ∀ d ∈ (Heap.run grow ops).pending s, d.height ≤ 10) :
    (((Heap.run grow ops).close s).1.close s).2 = [] := by
  generalize hh : Heap.run grow ops = h at *
  have hi : CInv h := hh ▸ run_CInv grow ops
  have p := close_post h s hi hs
  have p2 := close_post (h.close s).1 s p.inv (by rw [p.len]; exact hs)
  have honly : ∀ t, Reach (h.close s).1 s t → t = s := by
    intro t hr
    rcases hr.head with e | ⟨c, h1, h2, _⟩
    · exact e
    · obtain ⟨h3, h4⟩ := p.opn_of c h2
      rw [p.par] at h1
      exact absurd (Reach.kid s c .self h1 h3) h4
  have hg : h.scopes[s]? = some h.scopes[s] := List.getElem?_eq_getElem hs
  generalize h.scopes[s] = r at hg
  obtain ⟨r', e1, e2, e3, e4⟩ := p.rec' s r hg
  have hpd : h.pending s = r.dtors := by simp [Heap.pending, hg]
  rw [hpd] at hd
  have hl := p2.log_in s r' e1 .self
  rw [(e3 .self).2, runRounds_done 10 _ hd, runRounds_empty] at hl
  simp only [List.map_nil, List.filter_eq_nil_iff, decide_eq_true_eq] at hl
  rw [List.eq_nil_iff_forall_not_mem]
  intro x hx
  exact hl x hx (honly _ (p2.log_out x hx))

/-! ### Whole histories -/

/-- A history keeping a log of the destructors run and of the accepted registrations. -/
structure Hist (R V : Type) where
  heap : Heap R V
  ran : List (Nat × Nat)
  registered : List (Nat × Dtor)

/-- One API call with its observations. -/
def Hist.step (grow : Nat → Nat) (x : Hist R V) (op : SOp R V) : Hist R V :=
  match op with
  | .close s => ⟨(x.heap.close s).1, x.ran ++ (x.heap.close s).2, x.registered⟩
  | .addDtor s d =>
    ⟨(x.heap.addDtor s d).1, x.ran,
      if (x.heap.addDtor s d).2 then x.registered ++ [(s, d)] else x.registered⟩
  | op => ⟨x.heap.step grow op, x.ran, x.registered⟩

def Hist.run (grow : Nat → Nat) (ops : List (SOp R V)) : Hist R V :=
  ops.foldl (Hist.step grow) ⟨Heap.empty, [], []⟩

theorem Hist.step_heap (grow : Nat → Nat) (x : Hist R V) (op : SOp R V) :
    (x.step grow op).heap = x.heap.step grow op := by
  cases op <;> rfl

/-- Destructors of scope `t` (with nested ones) among the registrations. -/
def regOf (l : List (Nat × Dtor)) (t : Nat) : List Nat :=
  Dtor.nodes.nodesL ((l.filter (fun x => decide (x.1 = t))).map (·.2))

def ranOf (l : List (Nat × Nat)) (t : Nat) : List Nat :=
  (l.filter (fun x => decide (x.1 = t))).map (·.2)

def Conserved (x : Hist R V) : Prop :=
  ∀ t, (ranOf x.ran t ++ Dtor.nodes.nodesL (x.heap.pending t)).Perm (regOf x.registered t)

theorem pending_of_dtors {h h' : Heap R V} {t : Nat}
    (hs : (h'.scopes[t]?).map (·.dtors) = (h.scopes[t]?).map (·.dtors)) : h'.pending t = h.pending t := by
  unfold Heap.pending
  cases h1 : h'.scopes[t]? <;> cases h2 : h.scopes[t]? <;> rw [h1, h2] at hs <;> simp_all

theorem set_dtors {h : Heap R V} {s : Nat} {r r' : ScopeRec} (hr : h.scopes[s]? = some r)
    (he : r'.dtors = r.dtors) (t : Nat) :
    ((h.scopes.set s r')[t]?).map (·.dtors) = (h.scopes[t]?).map (·.dtors) := by
  rw [List.getElem?_set]
  by_cases hst : s = t
  · subst hst
    rw [hr]
    simp [getElem?_lt hr, he]
  · simp [hst]

theorem addDtor_pending (h : Heap R V) (s : Nat) (d : Dtor) :
    h.addDtor s d = (h, false) ∨ ∃ h', h.addDtor s d = (h', true) ∧
      ∀ t, h'.pending t = if t = s then h.pending t ++ [d] else h.pending t := by
  unfold Heap.addDtor
  cases hr : h.scopes[s]? with
  | none => exact Or.inl rfl
  | some r =>
    simp only
    split
    · exact Or.inl rfl
    · refine Or.inr ⟨_, rfl, ?_⟩
      intro t
      unfold Heap.pending
      simp only
      rw [List.getElem?_set]
      by_cases hst : s = t
      · subst hst
        rw [if_pos rfl, if_pos (getElem?_lt hr), if_pos rfl, hr]
      · have : ¬ t = s := fun e => hst e.symm
        rw [if_neg hst, if_neg this]

theorem step_conserved (grow : Nat → Nat) (x : Hist R V) (hi : CInv x.heap) (hc : Conserved x)
    (op : SOp R V) : Conserved (x.step grow op) := by
  have same : ∀ h' : Heap R V, (∀ t, h'.pending t = x.heap.pending t) →
      Conserved ⟨h', x.ran, x.registered⟩ := by
    intro h' hp t
    simp only [hp]
    exact hc t
  cases op with
  | new null =>
    refine same _ (fun t => ?_)
    simp only [Heap.step, Heap.newScope, Heap.pending]
    rcases Nat.lt_trichotomy t x.heap.scopes.length with hlt | heq | hgt
    · rw [List.getElem?_append_left hlt]
    · subst heq; rw [List.getElem?_append_right (Nat.le_refl _)]; simp
    · rw [List.getElem?_eq_none_iff.2 (by simp; omega), List.getElem?_eq_none_iff.2 (by omega)]
  | copy s =>
    refine same _ (fun t => ?_)
    simp only [Heap.step, Heap.copy]
    cases hr : x.heap.scopes[s]? with
    | none => rfl
    | some r =>
      simp only [Heap.pending]
      rcases Nat.lt_trichotomy t x.heap.scopes.length with hlt | heq | hgt
      · rw [List.getElem?_append_left (by simpa using hlt), List.getElem?_set]
        by_cases hst : s = t
        · subst hst; rw [if_pos rfl, if_pos hlt, hr]
        · simp [hst]
      · subst heq; rw [List.getElem?_append_right (by simp)]; simp
      · rw [List.getElem?_eq_none_iff.2 (by simp; omega), List.getElem?_eq_none_iff.2 (by omega)]
  | append s v =>
    refine same _ (fun t => ?_)
    simp only [Heap.step, Heap.appendVars]
    cases hr : x.heap.scopes[s]? with
    | none => rfl
    | some r => exact pending_of_dtors (set_dtors hr (by rfl) t)
  | newAg s =>
    refine same _ (fun t => ?_)
    simp only [Heap.step, Heap.setNewAg]
    cases hr : x.heap.scopes[s]? with
    | none => rfl
    | some r => exact pending_of_dtors (set_dtors hr (by rfl) t)
  | setAg s c =>
    refine same _ (fun t => ?_)
    simp only [Heap.step, Heap.setAg]
    split
    · cases hr : x.heap.scopes[s]? with
      | none => rfl
      | some r => exact pending_of_dtors (set_dtors hr (by rfl) t)
    · rfl
  | modAg s name f =>
    refine same _ (fun t => ?_)
    simp only [Heap.step, Heap.modifyAg]
    cases x.heap.getAg s with
    | none => rfl
    | some c =>
      simp only
      cases x.heap.ctxs[c]? with
      | none => rfl
      | some d => rfl
  | addDtor s d =>
    intro t
    have hct := hc t
    rcases addDtor_pending x.heap s d with h0 | ⟨h', h0, h1⟩
    · simp only [Hist.step, h0]; exact hct
    · simp only [Hist.step, h0, if_true]
      rw [h1 t]
      by_cases hst : t = s
      · subst hst
        rw [if_pos rfl, nodesL_append]
        simp only [regOf, List.filter_append, List.map_append, nodesL_append] at hct ⊢
        rw [← List.append_assoc]
        refine List.Perm.append hct ?_
        simp
      · have h2 : regOf (x.registered ++ [(s, d)]) t = regOf x.registered t := by
          have : ¬ s = t := fun e => hst e.symm
          simp [regOf, List.filter_append, this]
        rw [h2, if_neg hst]; simpa using hct
  | close s =>
    simp only [Hist.step]
    cases hs : x.heap.scopes[s]? with
    | none =>
      rw [close_out_of_range _ s hs]
      simp only [List.append_nil]
      exact hc
    | some r0 =>
      have p := close_post x.heap s hi (getElem?_lt hs)
      intro t
      have hct := hc t
      simp only [ranOf, List.filter_append, List.map_append] at hct ⊢
      cases hg : x.heap.scopes[t]? with
      | none =>
        have h1 : (x.heap.close s).1.scopes[t]? = none := by
          rw [List.getElem?_eq_none_iff] at hg ⊢; rw [p.len]; exact hg
        have h2 : ((x.heap.close s).2.filter (fun x => decide (x.1 = t))) = [] := by
          rw [List.filter_eq_nil_iff]
          intro y hy
          simp only [decide_eq_true_eq]
          rintro rfl
          have hr := p.log_out y hy
          have hlt : y.1 < x.heap.scopes.length := by
            generalize y.1 = z at hr
            cases hr with
            | self => exact getElem?_lt hs
            | kid u _ _ hp _ => exact par_lt hp
          rw [List.getElem?_eq_none_iff] at hg
          omega
        rw [h2]
        simpa [Heap.pending, h1, hg] using hct
      | some r =>
        obtain ⟨r', e1, e2, e3, e4⟩ := p.rec' t r hg
        simp only [Heap.pending, hg, e1] at hct ⊢
        by_cases hr : Reach x.heap s t
        · rw [p.log_in t r hg hr, (e3 hr).2]
          refine List.Perm.trans ?_ hct
          rw [List.append_assoc]
          refine List.Perm.append_left _ ?_
          have := runRounds_conserve 10 r.dtors
          simpa [Function.comp_def] using this
        · have h2 : ((x.heap.close s).2.filter (fun x => decide (x.1 = t))) = [] := by
            rw [List.filter_eq_nil_iff]
            intro y hy
            simp only [decide_eq_true_eq]
            rintro rfl
            exact hr (p.log_out y hy)
          rw [h2, (e4 hr).2]
          simpa using hct

theorem foldl_conserved (grow : Nat → Nat) (ops : List (SOp R V)) (x : Hist R V) (hi : CInv x.heap)
    (hc : Conserved x) : Conserved (ops.foldl (Hist.step grow) x) := by
  induction ops generalizing x with
  | nil => exact hc
  | cons op r ih =>
    exact ih _ (by rw [Hist.step_heap]; exact step_CInv grow _ hi op) (step_conserved grow x hi hc op)

/-- **C20, exactly once over a whole history**: for any sequence of API calls and any
scope, the destructors that ran plus those still pending are, counted with multiplicity,
exactly the accepted registrations (with those registered by running destructors).  So none
runs twice and none is lost. -/
theorem C20_exactly_once (grow : Nat → Nat) (ops : List (SOp R V)) (t : Nat) :
    (ranOf (Hist.run grow ops).ran t ++
      Dtor.nodes.nodesL ((Hist.run grow ops).heap.pending t)).Perm
      (regOf (Hist.run grow ops).registered t) :=
  foldl_conserved grow ops _ empty_CInv
    (by intro t; simp [ranOf, regOf, Heap.pending, Heap.empty, Dtor.nodes.nodesL]) t

end

/-- A chain of destructors each registering the next. -/
def chainDtor : Nat → Dtor
  | 0 => .mk 0 []
  | n + 1 => .mk (n + 1) [chainDtor n]

/-- **C20 fails as stated**: of destructors registered by destructors, only ten rounds run
on the first close; a second close runs the remainder. -/
theorem C20_close_again_refuted :
    ∃ (ops : List (SOp Unit Unit)), let h := Heap.run (fun n => n) ops
      (h.close 0).1.isClosed 0 = true ∧ (h.close 0).2.length = 10 ∧
      ((h.close 0).1.close 0).2 = [(0, 0)] :=
  ⟨[.new (), .addDtor 0 (chainDtor 10)], by decide⟩

/-- Two destructors on the root, one on the child: child first, then reverse order; the
third destructor registered by the second runs in the next round. -/
example : ((Heap.run (fun n => n) ([.new (), .addDtor 0 (.mk 1 []), .addDtor 0 (.mk 2 [.mk 3 []]),
    .copy 0, .addDtor 1 (.mk 4 [])] : List (SOp Unit Unit))).close 0).2 =
    [(1, 4), (0, 2), (0, 1), (0, 3)] := by decide

example : Reach (Heap.run (fun n => n) ([.new (), .copy 0, .copy 1] : List (SOp Unit Unit))) 0 2 :=
  .kid 1 2 (.kid 0 1 .self (by decide) (by decide)) (by decide) (by decide)

end Vfilter
