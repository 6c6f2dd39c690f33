import Verif.RowScopes
import Verif.Props.ScopeLife
/-!
# C91: what a row attaches to its scopes lives as long as the row
-/
set_option linter.all false

namespace Vfilter.RowScopes

section
variable {R V : Type} [Inhabited R] {grow : Nat → Nat}

/-! ## One operation -/

/-- What an operation does to the tree of scopes. -/
structure Shape (h : Heap R V) (op : SOp R V) (h' : Heap R V) : Prop where
  len : h.scopes.length ≤ h'.scopes.length
  par : ∀ t, t < h.scopes.length → h'.par t = h.par t
  opn_of : ∀ t, t < h.scopes.length → h'.opn t = true → h.opn t = true
  lost : ∀ t, h.opn t = true → h'.opn t = false → ∃ s, op = .close s ∧ Reach h s t
  closed : ∀ s, op = .close s → s < h.scopes.length → ∀ t, Reach h s t → h'.opn t = false
  new : ∀ t u, h.scopes.length ≤ t → h'.par t = some u → op = .copy u ∧ t = h.scopes.length

theorem shape_same {h h' : Heap R V} {op : SOp R V} (hop : ∀ s, op ≠ .close s)
    (hs : ∀ (t : Nat), (h'.scopes[t]?).map (fun (r : ScopeRec) => (r.parent, r.children, r.destroyed)) =
      (h.scopes[t]?).map (fun (r : ScopeRec) => (r.parent, r.children, r.destroyed))) : Shape h op h' := by
  have hl : ∀ t, h.scopes.length ≤ t → h'.scopes[t]? = none := by
    intro t ht
    have := hs t
    rw [List.getElem?_eq_none_iff.2 ht] at this
    simpa using this
  refine ⟨?_, fun t _ => (par_opn_of_same hs t).1, fun t _ => by rw [(par_opn_of_same hs t).2]; exact id, ?_, ?_, ?_⟩
  · apply Nat.le_of_not_lt
    intro hlt
    have := hs h'.scopes.length
    rw [List.getElem?_eq_none_iff.2 (Nat.le_refl _), List.getElem?_eq_getElem hlt] at this
    simp at this
  · intro t h1 h2
    rw [(par_opn_of_same hs t).2, h1] at h2; cases h2
  · intro s e; exact absurd e (hop s)
  · intro t u ht hp
    unfold Heap.par at hp
    rw [hl t ht] at hp; cases hp

theorem step_shape (h : Heap R V) (hi : CInv h) (op : SOp R V) : Shape h op (h.step grow op) := by
  cases op with
  | new null =>
    have hold : ∀ t, t < h.scopes.length → (h.newScope null).scopes[t]? = h.scopes[t]? := by
      intro t ht
      unfold Heap.newScope
      dsimp only
      rw [List.getElem?_append_left ht]
    refine ⟨by simp [Heap.step, Heap.newScope], fun t ht => ?_, fun t ht => ?_, fun t h1 h2 => ?_, nofun, ?_⟩
    · show (h.newScope null).par t = _
      unfold Heap.par; rw [hold t ht]
    · show (h.newScope null).opn t = true → _
      unfold Heap.opn; rw [hold t ht]; exact id
    · have : (h.newScope null).opn t = h.opn t := by unfold Heap.opn; rw [hold t (opn_lt h1)]
      change (h.newScope null).opn t = false at h2
      rw [this, h1] at h2; cases h2
    · intro t u ht hp
      change (h.newScope null).par t = some u at hp
      unfold Heap.par Heap.newScope at hp
      dsimp only at hp
      rw [List.getElem?_append_right ht] at hp
      cases e : t - h.scopes.length with
      | zero => rw [e] at hp; simp at hp
      | succ n => rw [e] at hp; simp at hp
  | copy s =>
    cases hr : h.scopes[s]? with
    | none =>
      have e : h.step grow (.copy s) = h := by show h.copy s = h; unfold Heap.copy; rw [hr]
      rw [e]; exact shape_same (by simp) (fun _ => rfl)
    | some r =>
      have hs := getElem?_lt hr
      have hold : ∀ t, t < h.scopes.length → (h.copy s).par t = h.par t ∧ (h.copy s).opn t = h.opn t := by
        intro t ht
        simp only [Heap.copy, hr, Heap.par, Heap.opn]
        rw [List.getElem?_append_left (by simpa using ht), List.getElem?_set]
        by_cases hst : s = t
        · subst hst; rw [if_pos rfl, if_pos hs, hr]; exact ⟨rfl, rfl⟩
        · simp [hst]
      have hlen : (h.copy s).scopes.length = h.scopes.length + 1 := copy_len h s r hr
      refine ⟨by show _ ≤ (h.copy s).scopes.length; omega, fun t ht => (hold t ht).1,
        fun t ht => by show (h.copy s).opn t = true → _; rw [(hold t ht).2]; exact id, fun t h1 h2 => ?_, nofun, ?_⟩
      · change (h.copy s).opn t = false at h2
        rw [(hold t (opn_lt h1)).2, h1] at h2; cases h2
      · intro t u ht hp
        change (h.copy s).par t = some u at hp
        have hlt := par_lt hp
        have ht' : t = h.scopes.length := by omega
        subst ht'
        unfold Heap.par at hp
        rw [copy_get_new h s r hr] at hp
        simp at hp
        exact ⟨by rw [hp], rfl⟩
  | append s v =>
    refine shape_same (by simp) (fun t => ?_)
    unfold Heap.step Heap.appendVars
    dsimp only
    cases hr : h.scopes[s]? with
    | none => rfl
    | some r => (refine same_set hr ?_ t; rfl)
  | newAg s =>
    refine shape_same (by simp) (fun t => ?_)
    unfold Heap.step Heap.setNewAg
    dsimp only
    cases hr : h.scopes[s]? with
    | none => rfl
    | some r => (refine same_set hr ?_ t; rfl)
  | setAg s c =>
    refine shape_same (by simp) (fun t => ?_)
    unfold Heap.step
    dsimp only
    split
    · unfold Heap.setAg
      cases hr : h.scopes[s]? with
      | none => rfl
      | some r => (refine same_set hr ?_ t; rfl)
    · rfl
  | modAg s name f =>
    refine shape_same (by simp) (fun t => ?_)
    unfold Heap.step Heap.modifyAg
    dsimp only
    cases h.getAg s with
    | none => rfl
    | some c =>
      dsimp only
      cases h.ctxs[c]? with
      | none => rfl
      | some d => rfl
  | addDtor s d =>
    refine shape_same (by simp) (fun t => ?_)
    unfold Heap.step Heap.addDtor
    dsimp only
    cases hr : h.scopes[s]? with
    | none => rfl
    | some r =>
      dsimp only
      split
      · rfl
      · (refine same_set hr ?_ t; rfl)
  | close s =>
    cases hs : h.scopes[s]? with
    | none =>
      have e : h.step grow (.close s) = h := by show (h.close s).1 = h; rw [close_out_of_range _ s hs]
      rw [e]
      refine ⟨Nat.le_refl _, fun _ _ => rfl, fun _ _ => id, fun t h1 h2 => absurd (h1.symm.trans h2) (by decide), ?_, ?_⟩
      · intro s' e' hlt
        cases e'
        rw [List.getElem?_eq_none_iff] at hs; omega
      · intro t u ht hp
        have := par_lt hp; omega
    | some r =>
      have hlt := getElem?_lt hs
      have p := close_post h s hi hlt
      refine ⟨by show _ ≤ (h.close s).1.scopes.length; rw [p.len]; exact Nat.le_refl _, fun t _ => p.par t,
        fun t _ ho => (p.opn_of t ho).1, fun t h1 h2 => ⟨s, rfl, ?_⟩, ?_, ?_⟩
      · apply Classical.byContradiction
        intro hn
        change (h.close s).1.opn t = false at h2
        rw [p.opn_keep t h1 hn] at h2; cases h2
      · intro s' e' _ t hr
        cases e'
        cases ho : (h.step grow (.close s)).opn t with
        | false => rfl
        | true => exact absurd hr (p.opn_of t ho).2
      · intro t u ht hp
        have := par_lt hp
        change t < (h.close s).1.scopes.length at this
        rw [p.len] at this; omega

/-! ## Sequences of operations -/

theorem does_heap (x : Hist R V) (l : List (SOp R V)) : (x.does grow l).heap = l.foldl (Heap.step grow) x.heap := by
  induction l generalizing x with
  | nil => rfl
  | cons op l ih => show ((x.step grow op).does grow l).heap = _; rw [ih, Hist.step_heap]; rfl

theorem does_append (x : Hist R V) (a b : List (SOp R V)) : x.does grow (a ++ b) = (x.does grow a).does grow b :=
  List.foldl_append

theorem does_CInv {x : Hist R V} (hi : CInv x.heap) (l : List (SOp R V)) : CInv (x.does grow l).heap := by
  rw [does_heap]; exact foldl_CInv grow l x.heap hi

/-- Scopes stay where they are, and closed ones stay closed. -/
theorem does_keeps {x : Hist R V} (hi : CInv x.heap) (l : List (SOp R V)) :
    x.next ≤ (x.does grow l).next ∧ (∀ t, t < x.next → (x.does grow l).heap.par t = x.heap.par t) ∧
    (∀ t, t < x.next → (x.does grow l).heap.opn t = true → x.heap.opn t = true) := by
  induction l generalizing x with
  | nil => exact ⟨Nat.le_refl _, fun _ _ => rfl, fun _ _ => id⟩
  | cons op l ih =>
    have sh := step_shape (grow := grow) x.heap hi op
    rw [← Hist.step_heap] at sh
    obtain ⟨h1, h2, h3⟩ := ih (x := x.step grow op) (by rw [Hist.step_heap]; exact step_CInv grow _ hi op)
    have hl : x.next ≤ (x.step grow op).next := sh.len
    refine ⟨Nat.le_trans hl h1, fun t ht => ?_, fun t ht ho => ?_⟩
    · exact (h2 t (Nat.lt_of_lt_of_le ht hl)).trans (sh.par t ht)
    · exact sh.opn_of t ht (h3 t (Nat.lt_of_lt_of_le ht hl) ho)

/-- A scope is not touched by those who close only newer ones. -/
theorem does_stays {x : Hist R V} (hi : CInv x.heap) {t : Nat} (l : List (SOp R V)) (hl : ∀ u, SOp.close u ∈ l → t < u) :
    (x.heap.opn t = true → (x.does grow l).heap.opn t = true) ∧ ranOf (x.does grow l).ran t = ranOf x.ran t := by
  induction l generalizing x with
  | nil => exact ⟨id, rfl⟩
  | cons op l ih =>
    have hop : ∀ u, op = .close u → u ≠ t ∧ ¬ Anc x.heap u t := by
      intro u e
      have := hl u (e ▸ List.mem_cons_self)
      exact ⟨by omega, fun ha => by have := anc_lt hi.older ha; omega⟩
    have hi' : CInv (x.step grow op).heap := by rw [Hist.step_heap]; exact step_CInv grow _ hi op
    obtain ⟨h1, h2⟩ := ih hi' (fun u hu => hl u (List.mem_cons_of_mem _ hu))
    refine ⟨fun ho => h1 ?_, h2.trans (ran_stays grow x hi op t hop)⟩
    rw [Hist.step_heap]; exact (heap_stays grow x.heap hi op t ho hop).1

theorem accepts {h : Heap R V} {t : Nat} (ho : h.opn t = true) (d : Dtor) : (h.addDtor t d).2 = true := by
  unfold Heap.opn at ho
  unfold Heap.addDtor
  cases e : h.scopes[t]? with
  | none => rw [e] at ho; cases ho
  | some r => rw [e] at ho; simp at ho; simp [ho]

theorem refuses {h : Heap R V} {t : Nat} (ho : h.opn t = false) (d : Dtor) : (h.addDtor t d).2 = false := by
  unfold Heap.opn at ho
  unfold Heap.addDtor
  cases e : h.scopes[t]? with
  | none => rfl
  | some r => rw [e] at ho; simp at ho; simp [ho]

/-! ## Destructors that come to an end -/

/-- No scope has destructors that register others more than ten deep, and closed scopes have none. -/
structure Tidy (h : Heap R V) : Prop where
  low : ∀ t, ∀ d ∈ h.pending t, d.height ≤ 10
  done : ∀ t, h.opn t = false → h.pending t = []

theorem step_tidy {h : Heap R V} (hi : CInv h) (ht : Tidy h) (op : SOp R V) (hop : ∀ s d, op = .addDtor s d → d.height ≤ 10) :
    Tidy (h.step grow op) := by
  have same : ∀ h' : Heap R V, (∀ t, h'.pending t = h.pending t) → (∀ t, t < h.scopes.length → h'.opn t = h.opn t) →
      Tidy h' := by
    intro h' h1 h2
    refine ⟨fun t => by rw [h1]; exact ht.low t, fun t ho => ?_⟩
    rw [h1]
    rcases Nat.lt_or_ge t h.scopes.length with hlt | hge
    · exact ht.done t (by rw [← h2 t hlt]; exact ho)
    · unfold Heap.pending; rw [List.getElem?_eq_none_iff.2 hge]
  have same' : ∀ h' : Heap R V, (∀ (t : Nat), (h'.scopes[t]?).map (fun (r : ScopeRec) => (r.dtors, r.destroyed)) =
      (h.scopes[t]?).map (fun (r : ScopeRec) => (r.dtors, r.destroyed))) → Tidy h' := by
    intro h' hs
    refine same h' (fun t => ?_) (fun t _ => ?_)
    · have := hs t
      unfold Heap.pending
      cases h1 : h'.scopes[t]? <;> cases h2 : h.scopes[t]? <;> rw [h1, h2] at this <;> simp_all
    · have := hs t
      unfold Heap.opn
      cases h1 : h'.scopes[t]? <;> cases h2 : h.scopes[t]? <;> rw [h1, h2] at this <;> simp_all
  have set : ∀ {s : Nat} {r r' : ScopeRec}, h.scopes[s]? = some r → r'.dtors = r.dtors → r'.destroyed = r.destroyed →
      ∀ (t : Nat), ((h.scopes.set s r')[t]?).map (fun (r : ScopeRec) => (r.dtors, r.destroyed)) =
        (h.scopes[t]?).map (fun (r : ScopeRec) => (r.dtors, r.destroyed)) := by
    intro s r r' hr h1 h2 t
    rw [List.getElem?_set]
    by_cases hst : s = t
    · subst hst; rw [hr]; simp [getElem?_lt hr, h1, h2]
    · simp [hst]
  cases op with
  | new null =>
    refine same _ (fun t => ?_) (fun t hlt => ?_)
    · show (h.newScope null).pending t = _
      unfold Heap.pending Heap.newScope
      dsimp only
      rcases Nat.lt_or_ge t h.scopes.length with hlt | hge
      · rw [List.getElem?_append_left hlt]
      · rw [List.getElem?_append_right hge, List.getElem?_eq_none_iff.2 hge]
        cases t - h.scopes.length <;> simp
    · show (h.newScope null).opn t = _
      unfold Heap.opn Heap.newScope
      dsimp only
      rw [List.getElem?_append_left hlt]
  | copy s =>
    show Tidy (h.copy s)
    cases hr : h.scopes[s]? with
    | none =>
      have e : h.copy s = h := by unfold Heap.copy; rw [hr]
      rw [e]; exact ht
    | some r =>
      have hs := getElem?_lt hr
      refine same _ (fun t => ?_) (fun t hlt => ?_)
      · rcases Nat.lt_or_ge t h.scopes.length with hlt | hge
        · simp only [Heap.copy, hr, Heap.pending]
          rw [List.getElem?_append_left (by simpa using hlt), List.getElem?_set]
          by_cases hst : s = t
          · subst hst; rw [if_pos rfl, if_pos hs, hr]
          · simp [hst]
        · have h0 : h.pending t = [] := by unfold Heap.pending; rw [List.getElem?_eq_none_iff.2 hge]
          rw [h0]
          rcases Nat.eq_or_lt_of_le hge with e | hgt
          · subst e
            unfold Heap.pending; rw [copy_get_new h s r hr]
          · unfold Heap.pending
            rw [List.getElem?_eq_none_iff.2 (by rw [copy_len h s r hr]; omega)]
      · simp only [Heap.copy, hr, Heap.opn]
        rw [List.getElem?_append_left (by simpa using hlt), List.getElem?_set]
        by_cases hst : s = t
        · subst hst; rw [if_pos rfl, if_pos hs, hr]
        · simp [hst]
  | append s v =>
    refine same' _ (fun t => ?_)
    unfold Heap.step Heap.appendVars
    dsimp only
    cases hr : h.scopes[s]? with
    | none => rfl
    | some r => (refine set hr ?_ ?_ t <;> rfl)
  | newAg s =>
    refine same' _ (fun t => ?_)
    unfold Heap.step Heap.setNewAg
    dsimp only
    cases hr : h.scopes[s]? with
    | none => rfl
    | some r => (refine set hr ?_ ?_ t <;> rfl)
  | setAg s c =>
    refine same' _ (fun t => ?_)
    unfold Heap.step
    dsimp only
    split
    · unfold Heap.setAg
      cases hr : h.scopes[s]? with
      | none => rfl
      | some r => (refine set hr ?_ ?_ t <;> rfl)
    · rfl
  | modAg s name f =>
    refine same' _ (fun t => ?_)
    unfold Heap.step Heap.modifyAg
    dsimp only
    cases h.getAg s with
    | none => rfl
    | some c =>
      dsimp only
      cases h.ctxs[c]? with
      | none => rfl
      | some d => rfl
  | addDtor s d =>
    show Tidy (h.addDtor s d).1
    unfold Heap.addDtor
    cases hr : h.scopes[s]? with
    | none => exact ht
    | some r =>
      dsimp only
      split
      · exact ht
      · next hnd =>
        have hs := getElem?_lt hr
        have hp : h.pending s = r.dtors := by simp [Heap.pending, hr]
        refine ⟨fun t d' hd' => ?_, fun t ho => ?_⟩
        · simp only [Heap.pending] at hd'
          rw [List.getElem?_set] at hd'
          by_cases hst : s = t
          · subst hst
            rw [if_pos rfl, if_pos hs] at hd'
            simp only [List.mem_append, List.mem_singleton] at hd'
            rcases hd' with hd' | rfl
            · exact ht.low s d' (by rw [hp]; exact hd')
            · exact hop s d' rfl
          · rw [if_neg hst] at hd'
            exact ht.low t d' hd'
        · simp only [Heap.opn] at ho
          simp only [Heap.pending]
          rw [List.getElem?_set] at ho ⊢
          by_cases hst : s = t
          · subst hst
            rw [if_pos rfl, if_pos hs] at ho
            simp at ho; exact absurd ho hnd
          · rw [if_neg hst] at ho ⊢
            exact ht.done t ho
  | close s =>
    show Tidy (h.close s).1
    cases hs : h.scopes[s]? with
    | none => rw [close_out_of_range _ s hs]; exact ht
    | some r =>
      have p := close_post h s hi (getElem?_lt hs)
      have get : ∀ (t : Nat) r', (h.close s).1.scopes[t]? = some r' → ∃ r0, h.scopes[t]? = some r0 := by
        intro t r' e
        have := getElem?_lt e
        rw [p.len] at this
        exact ⟨_, List.getElem?_eq_getElem this⟩
      have key : ∀ t, (h.close s).1.pending t = [] ∨ ((h.close s).1.pending t = h.pending t ∧ (h.close s).1.opn t = h.opn t) := by
        intro t
        cases e : (h.close s).1.scopes[t]? with
        | none => left; unfold Heap.pending; rw [e]
        | some r' =>
          obtain ⟨r0, h0⟩ := get t r' e
          obtain ⟨r1, e1, e2, e3, e4⟩ := p.rec' t r0 h0
          rw [e] at e1; cases e1
          have hpd : h.pending t = r0.dtors := by simp [Heap.pending, h0]
          by_cases hr : Reach h s t
          · left
            unfold Heap.pending; rw [e]
            show r'.dtors = []
            rw [(e3 hr).2]
            exact runRounds_done 10 _ (by rw [← hpd]; exact ht.low t)
          · right
            unfold Heap.pending Heap.opn; rw [e, h0]
            exact ⟨(e4 hr).2, by simp [(e4 hr).1]⟩
      refine ⟨fun t d hd => ?_, fun t ho => ?_⟩
      · rcases key t with k | ⟨k, _⟩
        · rw [k] at hd; cases hd
        · rw [k] at hd; exact ht.low t d hd
      · rcases key t with k | ⟨k, k'⟩
        · exact k
        · rw [k]; exact ht.done t (by rw [← k']; exact ho)

/-- Destructors that register others at most ten deep. -/
def ShallowOps (l : List (SOp R V)) : Prop := ∀ s d, SOp.addDtor s d ∈ l → d.height ≤ 10

theorem does_tidy {x : Hist R V} (hi : CInv x.heap) (ht : Tidy x.heap) (l : List (SOp R V)) (hl : ShallowOps l) :
    Tidy (x.does grow l).heap := by
  induction l generalizing x with
  | nil => exact ht
  | cons op l ih =>
    refine ih (x := x.step grow op) (by rw [Hist.step_heap]; exact step_CInv grow _ hi op) ?_
      (fun s d h => hl s d (List.mem_cons_of_mem _ h))
    rw [Hist.step_heap]
    exact step_tidy hi ht op (fun s d e => hl s d (e ▸ List.mem_cons_self))

theorem does_conserved {x : Hist R V} (hi : CInv x.heap) (hc : Conserved x) (l : List (SOp R V)) :
    Conserved (x.does grow l) := foldl_conserved grow l x hi hc


/-! ## Scopes made by copying open ones -/

/-- What was copied, directly or not, from `s` and is closed has only closed copies. -/
def Linked (h : Heap R V) (s : Nat) : Prop := ∀ t u, Desc h s u → h.par t = some u → h.opn u = false → h.opn t = false

theorem desc_back {h h' : Heap R V} (hi : CInv h) (hp : ∀ t, t < h.scopes.length → h'.par t = h.par t) {s u : Nat}
    (hd : Desc h' s u) (hu : u < h.scopes.length) : Desc h s u := by
  induction hd with
  | self => exact .self
  | kid v u _ hpar ih =>
    rw [hp u hu] at hpar
    exact .kid v u (ih (by have := hi.older u v hpar; omega)) hpar

theorem step_linked {h : Heap R V} (hi : CInv h) {s : Nat} (hc : Linked h s) (op : SOp R V)
    (hop : ∀ u, op = .copy u → h.isClosed u = false) : Linked (h.step grow op) s := by
  have sh := step_shape (grow := grow) h hi op
  have hi' := step_CInv grow h hi op
  intro t u hd hp hu
  cases ht : (h.step grow op).opn t with
  | false => rfl
  | true =>
    exfalso
    have hut := hi'.older t u hp
    rcases Nat.lt_or_ge t h.scopes.length with hlt | hge
    · have hp0 := hp
      rw [sh.par t hlt] at hp0
      have hot := sh.opn_of t hlt ht
      cases hou : h.opn u with
      | false =>
        have := hc t u (desc_back hi sh.par hd (by omega)) hp0 hou
        rw [hot] at this; cases this
      | true =>
        obtain ⟨c, e, hr⟩ := sh.lost u hou hu
        have hcu := hr.le hi.older
        have := sh.closed c e (by omega) t (.kid u t hr hp0 hot)
        rw [ht] at this; cases this
    · obtain ⟨e, rfl⟩ := sh.new t u hge hp
      have hcl := hop u e
      have hou : h.opn u = true := by
        unfold Heap.isClosed at hcl
        unfold Heap.opn
        cases e2 : h.scopes[u]? with
        | none => rw [List.getElem?_eq_none_iff] at e2; omega
        | some r => rw [e2] at hcl; simp [hcl]
      obtain ⟨c, e', _⟩ := sh.lost u hou hu
      rw [e] at e'; cases e'

theorem does_linked {x : Hist R V} (hi : CInv x.heap) {s : Nat} (hc : Linked x.heap s) (l : List (SOp R V))
    (ho : OpenCopies grow x.heap l) : Linked (x.does grow l).heap s := by
  induction l generalizing x with
  | nil => exact hc
  | cons op l ih =>
    refine ih (x := x.step grow op) (by rw [Hist.step_heap]; exact step_CInv grow _ hi op) ?_ ?_
    · rw [Hist.step_heap]; exact step_linked hi hc op ho.1
    · rw [Hist.step_heap]; exact ho.2

/-! ## New scopes -/

theorem copied {x : Hist R V} {s : Nat} (hs : s < x.next) : (x.does grow [.copy s]).next = x.next + 1 ∧
    (x.does grow [.copy s]).heap.opn x.next = true ∧ (x.does grow [.copy s]).heap.par x.next = some s := by
  obtain ⟨r, hr⟩ : ∃ r, x.heap.scopes[s]? = some r := ⟨_, List.getElem?_eq_getElem hs⟩
  have h1 := copy_get_new x.heap s r hr
  have h2 := copy_len x.heap s r hr
  refine ⟨h2, ?_, ?_⟩
  · show (x.heap.copy s).opn _ = _
    unfold Heap.opn Hist.next; rw [h1]; rfl
  · show (x.heap.copy s).par _ = _
    unfold Heap.par Hist.next; rw [h1]; rfl

theorem appended (x : Hist R V) (s : Nat) (v : R) : (x.does grow [.append s v]).next = x.next := by
  show ((x.heap.appendVars grow s v).scopes.length) = x.heap.scopes.length
  unfold Heap.appendVars
  cases x.heap.scopes[s]? with
  | none => rfl
  | some r => simp

/-- The evaluation closes only scopes that it has made. -/
def Own (w : Work R V) : Prop := ∀ h u, SOp.close u ∈ w h → h.scopes.length ≤ u

/-- The evaluation copies only open scopes. -/
def Links (grow : Nat → Nat) (w : Work R V) : Prop := ∀ h, OpenCopies grow h (w h)

/-- The evaluation registers destructors that register others at most ten deep. -/
def Shallow (w : Work R V) : Prop := ∀ h, ShallowOps (w h)

/-- The operations of `selectStart`. -/
def selectOps (s sub : Nat) (row lazyRow : R) (filtered : Bool) : List (SOp R V) :=
  [.copy s, .copy sub, .append (sub + 1) row] ++
    (if filtered then [.copy sub, .append (sub + 2) row, .append (sub + 2) lazyRow] else [])

theorem selectStart_eq (x : Hist R V) (s : Nat) (row lazyRow : R) (filtered : Bool) :
    selectStart grow x s row lazyRow filtered = x.does grow (selectOps s x.next row lazyRow filtered) := by
  cases filtered <;> rfl

/-- The number of scopes that a row has. -/
def rowScopes (filtered : Bool) : Nat := if filtered then 3 else 2

theorem select_new {x : Hist R V} (hi : CInv x.heap) {s : Nat} (hs : s < x.next) (row lazyRow : R) (filtered : Bool) :
    (selectStart grow x s row lazyRow filtered).next = x.next + rowScopes filtered ∧
    (∀ u, x.next ≤ u → u < x.next + rowScopes filtered →
      (selectStart grow x s row lazyRow filtered).heap.opn u = true) ∧
    (selectStart grow x s row lazyRow filtered).heap.par x.next = some s ∧
    (∀ u, x.next < u → u < x.next + rowScopes filtered →
      (selectStart grow x s row lazyRow filtered).heap.par u = some x.next) := by
  obtain ⟨a1, a2, a3⟩ := copied (grow := grow) hs
  have hia := does_CInv (grow := grow) hi [.copy s]
  generalize hA : x.does grow [.copy s] = A at *
  obtain ⟨b1, b2, b3⟩ := copied (grow := grow) (x := A) (s := x.next) (by omega)
  have kb := does_keeps (grow := grow) hia [.copy x.next]
  have sb := fun t => does_stays (grow := grow) hia (t := t) [.copy x.next] (by simp)
  have hib := does_CInv (grow := grow) hia [.copy x.next]
  generalize hB : A.does grow [.copy x.next] = B at *
  have c1 := appended (grow := grow) B (x.next + 1) row
  have kc := does_keeps (grow := grow) hib [.append (x.next + 1) row]
  have sc := fun t => does_stays (grow := grow) hib (t := t) [.append (x.next + 1) row] (by simp)
  have hic := does_CInv (grow := grow) hib [.append (x.next + 1) row]
  generalize hC : B.does grow [.append (x.next + 1) row] = C at *
  have eC : x.does grow [.copy s, .copy x.next, .append (x.next + 1) row] = C := by rw [← hC, ← hB, ← hA]; rfl
  have o0 : C.heap.opn x.next = true := (sc _).1 ((sb _).1 a2)
  have o1 : C.heap.opn (x.next + 1) = true := (sc _).1 (by rw [← a1]; exact b2)
  have p0 : C.heap.par x.next = some s := by rw [kc.2.1 _ (by omega), kb.2.1 _ (by omega)]; exact a3
  have p1 : C.heap.par (x.next + 1) = some x.next := by rw [kc.2.1 _ (by omega), ← a1]; exact b3
  cases filtered with
  | false =>
    have e : selectStart grow x s row lazyRow false = C := by rw [selectStart_eq]; exact eC
    rw [e]
    refine ⟨by simp [rowScopes]; omega, fun u h1 h2 => ?_, p0, fun u h1 h2 => ?_⟩
    · simp only [rowScopes, Bool.false_eq_true, if_false] at h2
      rcases (by omega : u = x.next ∨ u = x.next + 1) with rfl | rfl
      · exact o0
      · exact o1
    · simp only [rowScopes, Bool.false_eq_true, if_false] at h2
      obtain rfl : u = x.next + 1 := by omega
      exact p1
  | true =>
    obtain ⟨d1, d2, d3⟩ := copied (grow := grow) (x := C) (s := x.next) (by omega)
    have kd := does_keeps (grow := grow) hic [.copy x.next]
    have sd := fun t => does_stays (grow := grow) hic (t := t) [.copy x.next] (by simp)
    have hid := does_CInv (grow := grow) hic [.copy x.next]
    generalize hD : C.does grow [.copy x.next] = D at *
    have e1 := appended (grow := grow) D (x.next + 2) row
    have e2 := appended (grow := grow) (D.does grow [.append (x.next + 2) row]) (x.next + 2) lazyRow
    have e2' : (D.does grow [.append (x.next + 2) row, .append (x.next + 2) lazyRow]).next = D.next := e2.trans e1
    have ke := does_keeps (grow := grow) hid [.append (x.next + 2) row, .append (x.next + 2) lazyRow]
    have se := fun t => does_stays (grow := grow) hid (t := t)
      [.append (x.next + 2) row, .append (x.next + 2) lazyRow] (by simp)
    have e : selectStart grow x s row lazyRow true =
        D.does grow [.append (x.next + 2) row, .append (x.next + 2) lazyRow] := by
      rw [selectStart_eq, ← hD, ← eC]; rfl
    rw [e]
    have hCn : C.next = x.next + 2 := by omega
    refine ⟨by simp [rowScopes]; omega, fun u h1 h2 => ?_, ?_, fun u h1 h2 => ?_⟩
    · simp only [rowScopes, if_true] at h2
      rcases (by omega : u = x.next ∨ u = x.next + 1 ∨ u = x.next + 2) with rfl | rfl | rfl
      · exact (se _).1 ((sd _).1 o0)
      · exact (se _).1 ((sd _).1 o1)
      · exact (se _).1 (by rw [← hCn]; exact d2)
    · rw [ke.2.1 _ (by omega), kd.2.1 _ (by omega)]; exact p0
    · simp only [rowScopes, if_true] at h2
      rcases (by omega : u = x.next + 1 ∨ u = x.next + 2) with rfl | rfl
      · rw [ke.2.1 _ (by omega), kd.2.1 _ (by omega)]; exact p1
      · rw [ke.2.1 _ (by omega), ← hCn]; exact d3


/-! ## Any history -/

theorem run_heap_CInv (ops : List (SOp R V)) : CInv (Hist.run grow ops).heap :=
  does_CInv (x := ⟨Heap.empty, [], []⟩) empty_CInv ops

theorem run_conserved (ops : List (SOp R V)) : Conserved (Hist.run grow ops) := C20_exactly_once grow ops

theorem run_tidy (ops : List (SOp R V)) (hl : ShallowOps ops) : Tidy (Hist.run grow ops).heap :=
  does_tidy (x := ⟨Heap.empty, [], []⟩) empty_CInv
    ⟨by intro t d hd; simp [Heap.pending, Heap.empty] at hd, by intro t _; simp [Heap.pending, Heap.empty]⟩ ops hl

/-- Destructors are registered for scopes that there are. -/
theorem does_known {x : Hist R V} (hi : CInv x.heap) (hk : ∀ e ∈ x.registered, e.1 < x.next) (l : List (SOp R V)) :
    ∀ e ∈ (x.does grow l).registered, e.1 < (x.does grow l).next := by
  induction l generalizing x with
  | nil => exact hk
  | cons op l ih =>
    have hi' : CInv (x.step grow op).heap := by rw [Hist.step_heap]; exact step_CInv grow _ hi op
    refine ih (x := x.step grow op) hi' ?_
    have hn := (does_keeps (grow := grow) hi [op]).1
    change x.next ≤ (x.step grow op).next at hn
    intro e he
    have old : ∀ e ∈ x.registered, e.1 < (x.step grow op).next := fun e h => Nat.lt_of_lt_of_le (hk e h) hn
    cases op with
    | addDtor s d =>
      simp only [Hist.step] at he
      split at he
      · next h2 =>
        rw [List.mem_append, List.mem_singleton] at he
        rcases he with he | rfl
        · exact old e he
        · refine Nat.lt_of_lt_of_le ?_ hn
          unfold Heap.addDtor at h2
          cases e : x.heap.scopes[s]? with
          | none => rw [e] at h2; cases h2
          | some r => exact getElem?_lt e
      · exact old e he
    | _ => exact old e he

theorem unborn {x : Hist R V} (hc : Conserved x) (hk : ∀ e ∈ x.registered, e.1 < x.next) {t : Nat} (ht : x.next ≤ t) :
    ranOf x.ran t = [] := by
  have h := hc t
  have hr : regOf x.registered t = [] := by
    unfold regOf
    have : x.registered.filter (fun e => decide (e.1 = t)) = [] := by
      rw [List.filter_eq_nil_iff]
      intro e he
      have := hk e he
      simp; omega
    rw [this]; rfl
  rw [hr] at h
  have := h.eq_nil
  simp at this; exact this.1

theorem run_unborn (ops : List (SOp R V)) {t : Nat} (ht : (Hist.run grow ops).next ≤ t) :
    ranOf (Hist.run grow ops).ran t = [] :=
  unborn (run_conserved ops) (does_known (x := ⟨Heap.empty, [], []⟩) empty_CInv (by intro e he; cases he) ops) ht

/-- Everything accepted for a closed scope has run. -/
theorem all_ran {x : Hist R V} (hc : Conserved x) (ht : Tidy x.heap) {t : Nat} (ho : x.heap.opn t = false) :
    (ranOf x.ran t).Perm (regOf x.registered t) := by
  have h := hc t
  rw [ht.done t ho] at h
  simpa [Dtor.nodes.nodesL] using h

theorem select_stays {x : Hist R V} (hi : CInv x.heap) {s t : Nat} (row lazyRow : R) (filtered : Bool) :
    (x.heap.opn t = true → (selectStart grow x s row lazyRow filtered).heap.opn t = true) ∧
    ranOf (selectStart grow x s row lazyRow filtered).ran t = ranOf x.ran t := by
  rw [selectStart_eq]
  exact does_stays hi _ (by cases filtered <;> simp [selectOps])

/-! ## SELECT -/

/-- **C91, while the row is there**: for every history, every scope `s`, every row and whatever is done with scopes while
WHERE and the columns are evaluated (`l`: any operations that close none but scopes made meanwhile), all the
scopes of the row are open: they accept destructors, and none of theirs has run. -/
theorem C91_select_open (grow : Nat → Nat) (ops : List (SOp R V)) (s : Nat) (hs : s < (Hist.run grow ops).next)
    (row lazyRow : R) (filtered : Bool) (l : List (SOp R V))
    (hl : ∀ u, SOp.close u ∈ l → (Hist.run grow ops).next + rowScopes filtered ≤ u) (u : Nat)
    (h1 : (Hist.run grow ops).next ≤ u) (h2 : u < (Hist.run grow ops).next + rowScopes filtered) :
    let y := (selectStart grow (Hist.run grow ops) s row lazyRow filtered).does grow l
    y.heap.opn u = true ∧ (∀ d, (y.heap.addDtor u d).2 = true) ∧ ranOf y.ran u = [] := by
  have hu := run_unborn (grow := grow) ops h1
  have hi := run_heap_CInv (grow := grow) ops
  generalize Hist.run grow ops = x at *
  obtain ⟨_, hn, _⟩ := select_new (grow := grow) hi hs row lazyRow filtered
  have hi' : CInv (selectStart grow x s row lazyRow filtered).heap := by rw [selectStart_eq]; exact does_CInv hi _
  obtain ⟨a, b⟩ := does_stays (grow := grow) hi' (t := u) l (fun v hv => by have := hl v hv; omega)
  have ho := a (hn u h1 h2)
  exact ⟨ho, accepts ho, by rw [b, (select_stays hi row lazyRow filtered).2, hu]⟩

/-- The operations of the expressions of a row. -/
def selectWork (grow : Nat → Nat) (y : Hist R V) (wh : Option (Work R V × Bool)) (cols : Work R V) : List (SOp R V) :=
  match wh with
  | none => cols y.heap
  | some (w, accept) => w y.heap ++ (if accept then cols (y.work grow w).heap else [])

theorem selectRow_eq (x : Hist R V) (s : Nat) (row lazyRow : R) (wh : Option (Work R V × Bool)) (cols : Work R V) :
    selectRow grow x s row lazyRow wh cols =
      ((selectStart grow x s row lazyRow wh.isSome).does grow
        (selectWork grow (selectStart grow x s row lazyRow wh.isSome) wh cols)).does grow (selectEnd x.next wh.isSome) := by
  rcases wh with _ | ⟨w, accept⟩
  · rfl
  · cases accept with
    | false => simp only [selectRow, selectWork, Bool.false_eq_true, if_false, List.append_nil]; rfl
    | true => simp only [selectRow, selectWork, if_true, does_append]; rfl

theorem openCopies_append {h : Heap R V} {a b : List (SOp R V)} (ha : OpenCopies grow h a)
    (hb : OpenCopies grow (a.foldl (Heap.step grow) h) b) : OpenCopies grow h (a ++ b) := by
  induction a generalizing h with
  | nil => exact hb
  | cons op a ih => exact ⟨ha.1, ih ha.2 hb⟩

theorem work_next {x : Hist R V} (hi : CInv x.heap) (w : Work R V) : x.next ≤ (x.work grow w).next :=
  (does_keeps (grow := grow) hi (w x.heap)).1

theorem selectWork_own {y : Hist R V} (hi : CInv y.heap) {wh : Option (Work R V × Bool)} {cols : Work R V}
    (hw : ∀ p ∈ wh, Own p.1) (hcols : Own cols) : ∀ u, SOp.close u ∈ selectWork grow y wh cols → y.next ≤ u := by
  intro u hu
  rcases wh with _ | ⟨w, accept⟩
  · exact hcols _ _ hu
  · simp only [selectWork, List.mem_append] at hu
    rcases hu with hu | hu
    · exact hw (w, accept) rfl _ _ hu
    · cases accept with
      | false => simp at hu
      | true =>
        rw [if_pos rfl] at hu
        exact Nat.le_trans (work_next hi w) (hcols _ _ hu)

theorem selectWork_links {y : Hist R V} {wh : Option (Work R V × Bool)} {cols : Work R V}
    (hw : ∀ p ∈ wh, Links grow p.1) (hcols : Links grow cols) : OpenCopies grow y.heap (selectWork grow y wh cols) := by
  rcases wh with _ | ⟨w, accept⟩
  · exact hcols _
  · refine openCopies_append (hw (w, accept) rfl _) ?_
    cases accept with
    | false => trivial
    | true =>
      have := hcols (y.work grow w).heap
      rw [if_pos rfl]
      rw [← does_heap]
      exact this

theorem selectWork_shallow {y : Hist R V} {wh : Option (Work R V × Bool)} {cols : Work R V}
    (hw : ∀ p ∈ wh, Shallow p.1) (hcols : Shallow cols) : ShallowOps (selectWork grow y wh cols) := by
  intro s d hd
  rcases wh with _ | ⟨w, accept⟩
  · exact hcols _ _ _ hd
  · simp only [selectWork, List.mem_append] at hd
    rcases hd with hd | hd
    · exact hw (w, accept) rfl _ _ _ hd
    · cases accept with
      | false => simp at hd
      | true => rw [if_pos rfl] at hd; exact hcols _ _ _ hd

theorem desc_le {h : Heap R V} (hi : CInv h) {s u : Nat} (hd : Desc h s u) : s ≤ u := by
  induction hd with
  | self => exact Nat.le_refl _
  | kid v u _ hp ih => have := hi.older u v hp; omega

theorem linked_closed {h : Heap R V} {s : Nat} (hl : Linked h s) (ho : h.opn s = false) {t : Nat} (hd : Desc h s t) :
    h.opn t = false := by
  induction hd with
  | self => exact ho
  | kid u t hu hp ih => exact hl t u hu hp ih

/-- A closed scope is closed. -/
theorem closes {x : Hist R V} (hi : CInv x.heap) {s : Nat} (hs : s < x.next) : (x.does grow [.close s]).heap.opn s = false :=
  (step_shape (grow := grow) x.heap hi (.close s)).closed s rfl hs s .self

theorem does_registered {x : Hist R V} (l : List (SOp R V)) : ∀ e ∈ x.registered, e ∈ (x.does grow l).registered := by
  induction l generalizing x with
  | nil => exact fun _ h => h
  | cons op l ih =>
    intro e he
    refine ih (x := x.step grow op) e ?_
    cases op with
    | addDtor s d =>
      simp only [Hist.step]
      split
      · exact List.mem_append_left _ he
      · exact he
    | _ => exact he

/-- **C91, what the columns attach**: for every history, scope and row that is kept: a destructor that the columns attach to one of
the scopes of the row, whatever they do before and after, is accepted. -/
theorem C91_select_accepts (grow : Nat → Nat) (ops : List (SOp R V)) (s : Nat) (hs : s < (Hist.run grow ops).next)
    (row lazyRow : R) (wh : Option (Work R V × Bool)) (cols : Work R V) (ha : ∀ p ∈ wh, p.2 = true)
    (hw : ∀ p ∈ wh, Own p.1) (hcols : Own cols) (u : Nat) (d : Dtor)
    (h1 : (Hist.run grow ops).next ≤ u) (h2 : u < (Hist.run grow ops).next + rowScopes wh.isSome)
    (hd : ∀ h, SOp.addDtor u d ∈ cols h) :
    (u, d) ∈ (selectRow grow (Hist.run grow ops) s row lazyRow wh cols).registered := by
  have hi := run_heap_CInv (grow := grow) ops
  have hopen := C91_select_open grow ops s hs row lazyRow wh.isSome
  rw [selectRow_eq]
  generalize Hist.run grow ops = x at *
  obtain ⟨n1, _⟩ := select_new (grow := grow) hi hs row lazyRow wh.isSome
  have hiy : CInv (selectStart grow x s row lazyRow wh.isSome).heap := by rw [selectStart_eq]; exact does_CInv hi _
  have own := selectWork_own (grow := grow) hiy (cols := cols) hw hcols
  refine does_registered _ _ ?_
  have hmem : SOp.addDtor u d ∈ selectWork grow (selectStart grow x s row lazyRow wh.isSome) wh cols := by
    rcases wh with _ | ⟨w, accept⟩
    · exact hd _
    · obtain rfl : accept = true := ha _ rfl
      simp only [selectWork, if_true]
      exact List.mem_append_right _ (hd _)
  obtain ⟨a, b, e⟩ := List.append_of_mem hmem
  rw [e] at own ⊢
  obtain ⟨_, acc, _⟩ := hopen a (fun v hv => by
    have := own v (List.mem_append_left _ hv)
    rw [n1] at this; exact this) u h1 h2
  rw [does_append]
  refine does_registered (x := ((selectStart grow x s row lazyRow wh.isSome).does grow a).step grow (.addDtor u d)) b _ ?_
  simp only [Hist.step, acc d, if_true]
  simp

/-- **C91, after the row**: for every history, every scope `s` and every row, with and without WHERE, accepted or
not: once the row has been processed, every scope made for it, and every scope copied from these, is closed, and
exactly the destructors that were accepted for it have run, each as often as it was registered.  The scopes there were before
are as they were: open ones are open, and none of their destructors has run. -/
theorem C91_select_done (grow : Nat → Nat) (ops : List (SOp R V)) (hsh : ShallowOps ops) (s : Nat)
    (hs : s < (Hist.run grow ops).next) (row lazyRow : R) (wh : Option (Work R V × Bool)) (cols : Work R V)
    (hw : ∀ p ∈ wh, Own p.1 ∧ Links grow p.1 ∧ Shallow p.1) (hcols : Own cols ∧ Links grow cols ∧ Shallow cols) :
    let x := Hist.run grow ops
    let z := selectRow grow x s row lazyRow wh cols
    (∀ t, Desc z.heap x.next t → z.heap.opn t = false ∧ (ranOf z.ran t).Perm (regOf z.registered t)) ∧
    (∀ u, x.next ≤ u → u < x.next + rowScopes wh.isSome → Desc z.heap x.next u) ∧
    (∀ t, t < x.next → (x.heap.opn t = true → z.heap.opn t = true) ∧ ranOf z.ran t = ranOf x.ran t) := by
  have hi := run_heap_CInv (grow := grow) ops
  have hc := run_conserved (grow := grow) ops
  have ht := run_tidy (grow := grow) ops hsh
  generalize Hist.run grow ops = x at *
  intro x' z
  have hz : z = _ := selectRow_eq x s row lazyRow wh cols
  obtain ⟨n1, n2, n3, n4⟩ := select_new (grow := grow) hi hs row lazyRow wh.isSome
  have st := fun t => select_stays (grow := grow) hi (s := s) (t := t) row lazyRow wh.isSome
  have hiy : CInv (selectStart grow x s row lazyRow wh.isSome).heap := by rw [selectStart_eq]; exact does_CInv hi _
  have hcy : Conserved (selectStart grow x s row lazyRow wh.isSome) := by
    rw [selectStart_eq]; exact does_conserved hi hc _
  have hty : Tidy (selectStart grow x s row lazyRow wh.isSome).heap := by
    rw [selectStart_eq]; exact does_tidy hi ht _ (by intro s d h; cases wh <;> simp [selectOps] at h)
  generalize selectStart grow x s row lazyRow wh.isSome = y at *
  have hly : Linked y.heap x.next := by
    intro t u hd hp hu
    have h1 := desc_le hiy hd
    have h2 := hiy.older t u hp
    have h3 : t < y.next := par_lt hp
    have := n2 u h1 (by omega)
    rw [this] at hu; cases hu
  have own := selectWork_own (grow := grow) hiy (fun p h => (hw p h).1) hcols.1
  have lk := selectWork_links (grow := grow) (y := y) (fun p h => (hw p h).2.1) hcols.2.1
  have sl := selectWork_shallow (grow := grow) (y := y) (fun p h => (hw p h).2.2) hcols.2.2
  generalize selectWork grow y wh cols = l at *
  have hiv := does_CInv (grow := grow) hiy l
  have hcv := does_conserved (grow := grow) hiy hcy l
  have htv := does_tidy (grow := grow) hiy hty l sl
  have hlv := does_linked (grow := grow) hiy hly l lk
  have kv := does_keeps (grow := grow) hiy l
  have sv := fun t (h : t < x.next) => does_stays (grow := grow) hiy (t := t) l (fun u hu => by have := own u hu; omega)
  generalize y.does grow l = v at *
  have rsp : 2 ≤ rowScopes wh.isSome := by unfold rowScopes; split <;> omega
  have hie := does_CInv (grow := grow) hiv (selectEnd x.next wh.isSome)
  have hce := does_conserved (grow := grow) hiv hcv (selectEnd x.next wh.isSome)
  have hte := does_tidy (grow := grow) hiv htv (selectEnd x.next wh.isSome)
    (by intro s d h; cases wh <;> simp [selectEnd] at h)
  have hle := does_linked (grow := grow) hiv hlv (selectEnd x.next wh.isSome)
    (by cases wh <;> simp [selectEnd, OpenCopies])
  have ke := does_keeps (grow := grow) hiv (selectEnd x.next wh.isSome)
  have se := fun t (h : t < x.next) => does_stays (grow := grow) hiv (t := t) (selectEnd x.next wh.isSome)
    (fun u hu => by cases wh <;> simp [selectEnd] at hu <;> omega)
  have hcl : (v.does grow (selectEnd x.next wh.isSome)).heap.opn x.next = false := by
    have e : selectEnd x.next wh.isSome = (if wh.isSome then [SOp.close (x.next + 2)] else []) ++ [.close (x.next + 1)]
        ++ ([.close x.next] : List (SOp R V)) := by simp [selectEnd]
    rw [e, does_append]
    have k := does_keeps (grow := grow) hiv ((if wh.isSome then [SOp.close (x.next + 2)] else []) ++ [.close (x.next + 1)])
    exact closes (does_CInv hiv _) (by omega)
  rw [← hz] at hie hce hte hle ke se hcl
  refine ⟨fun t hd => ?_, fun u h1 h2 => ?_, fun t h => ?_⟩
  · have := linked_closed hle hcl hd
    exact ⟨this, all_ran hce hte this⟩
  · change x.next ≤ u at h1
    change u < x.next + rowScopes wh.isSome at h2
    rcases Nat.eq_or_lt_of_le h1 with rfl | h1
    · exact .self
    · refine .kid x.next u .self ?_
      rw [ke.2.1 u (by omega), kv.2.1 u (by omega)]
      exact n4 u h1 h2
  · refine ⟨fun ho => (se t h).1 ((sv t h).1 ((st t).1 ho)), ?_⟩
    rw [(se t h).2, (sv t h).2, (st t).2]

/-- The premises can be met: WHERE attaches a destructor to its scope, a column copies its scope, attaches a destructor to the
copy and another to its own.  All three run. -/
example : (selectRow (V := Unit) (fun n => n) (Hist.run (fun n => n) [.new ()]) 0 () ()
    (some (fun _ => [.addDtor 3 (.mk 7 [])], true))
    (fun h => [.copy 2, .addDtor h.scopes.length (.mk 8 []), .addDtor 2 (.mk 9 [])])).ran = [(3, 7), (4, 8), (2, 9)] := by
  decide


/-! ## GROUP BY -/

/-- The operations of `groupStart`. -/
def groupOps (g n : Nat) (r : GRow R V) : List (SOp R V) :=
  [.copy g, .copy n, .append (n + 1) r.row, .append n r.row, .append n r.lazyRow]

theorem group_new {x : Hist R V} (hi : CInv x.heap) {g : Nat} (hg : g < x.next) (r : GRow R V) :
    (groupStart grow x g r).next = x.next + 2 ∧ (groupStart grow x g r).heap.opn x.next = true ∧
    (groupStart grow x g r).heap.opn (x.next + 1) = true ∧ (groupStart grow x g r).heap.par x.next = some g ∧
    (groupStart grow x g r).heap.par (x.next + 1) = some x.next := by
  obtain ⟨a1, a2, a3⟩ := copied (grow := grow) hg
  have hia := does_CInv (grow := grow) hi [.copy g]
  generalize hA : x.does grow [.copy g] = A at *
  obtain ⟨b1, b2, b3⟩ := copied (grow := grow) (x := A) (s := x.next) (by omega)
  have kb := does_keeps (grow := grow) hia [.copy x.next]
  have sb := fun t => does_stays (grow := grow) hia (t := t) [.copy x.next] (by simp)
  have hib := does_CInv (grow := grow) hia [.copy x.next]
  generalize hB : A.does grow [.copy x.next] = B at *
  have c1 := appended (grow := grow) B (x.next + 1) r.row
  have c2 := appended (grow := grow) (B.does grow [.append (x.next + 1) r.row]) x.next r.row
  have c3 := appended (grow := grow) ((B.does grow [.append (x.next + 1) r.row]).does grow [.append x.next r.row])
    x.next r.lazyRow
  have kc := does_keeps (grow := grow) hib [.append (x.next + 1) r.row, .append x.next r.row, .append x.next r.lazyRow]
  have sc := fun t => does_stays (grow := grow) hib (t := t)
    [.append (x.next + 1) r.row, .append x.next r.row, .append x.next r.lazyRow] (by simp)
  have e : groupStart grow x g r =
      B.does grow [.append (x.next + 1) r.row, .append x.next r.row, .append x.next r.lazyRow] := by
    rw [← hB, ← hA]; rfl
  have en : (groupStart grow x g r).next = B.next := by rw [e]; exact c3.trans (c2.trans c1)
  rw [e] at en ⊢
  refine ⟨by omega, (sc _).1 ((sb _).1 a2), (sc _).1 (by rw [← a1]; exact b2), ?_, ?_⟩
  · rw [kc.2.1 _ (by omega), kb.2.1 _ (by omega)]; exact a3
  · rw [kc.2.1 _ (by omega), ← a1]; exact b3

/-- The expressions of the row close only scopes that they have made. -/
structure GOwn (r : GRow R V) : Prop where
  wh : Own r.wh
  key : Own r.key
  cols : Own r.cols

/-- The destructors of the row register others at most ten deep. -/
structure GShallow (r : GRow R V) : Prop where
  wh : Shallow r.wh
  key : Shallow r.key
  cols : Shallow r.cols

/-- The operations of a row. -/
def groupRowOps (grow : Nat → Nat) (x : Hist R V) (g : Nat) (r : GRow R V) : List (SOp R V) :=
  let y := groupStart grow x g r
  if r.accept then
    groupOps g x.next r ++ r.wh y.heap ++ r.key (y.work grow r.wh).heap ++ [.close (x.next + 1)] ++ groupCtx x.next r.ctx ++
      r.cols ((groupKey grow x g r).does grow (groupCtx x.next r.ctx)).heap
  else groupOps g x.next r ++ r.wh y.heap ++ [.close x.next, .close (x.next + 1)]

theorem groupRow_eq (x : Hist R V) (g : Nat) (r : GRow R V) :
    groupRow grow x g r = x.does grow (groupRowOps grow x g r) := by
  unfold groupRow groupRowOps
  split <;> simp only [does_append] <;> rfl

theorem groupCtx_mem {n : Nat} {c : Option Nat} {op : SOp R V} (h : op ∈ (groupCtx n c : List (SOp R V))) :
    op = .newAg n ∨ ∃ c, op = .setAg n c := by
  cases c <;> simp [groupCtx] at h
  · exact .inl h
  · exact .inr ⟨_, h⟩

theorem groupRow_own {x : Hist R V} (hi : CInv x.heap) {g : Nat} (hg : g < x.next) {r : GRow R V} (ho : GOwn r) :
    ∀ u, SOp.close u ∈ groupRowOps grow x g r → x.next ≤ u ∧ (r.accept = true → x.next < u) := by
  have hst : ∀ v, SOp.close v ∉ groupOps g x.next r := by intro v; simp [groupOps]
  have hgc : ∀ v, SOp.close v ∉ (groupCtx x.next r.ctx : List (SOp R V)) := by
    intro v h; rcases groupCtx_mem h with h | ⟨c, h⟩ <;> cases h
  have hiy : CInv (groupStart grow x g r).heap := does_CInv hi _
  have hn := (group_new (grow := grow) hi hg r).1
  have n1 := work_next (grow := grow) hiy r.wh
  have hiw : CInv ((groupStart grow x g r).work grow r.wh).heap := does_CInv hiy _
  have n2 := work_next (grow := grow) hiw r.key
  have hik : CInv (((groupStart grow x g r).work grow r.wh).work grow r.key).heap := does_CInv hiw _
  have n3 : _ ≤ (groupKey grow x g r).next := (does_keeps (grow := grow) hik [.close (x.next + 1)]).1
  have hik' : CInv (groupKey grow x g r).heap := does_CInv hik _
  have n4 := (does_keeps (grow := grow) hik' (groupCtx x.next r.ctx)).1
  intro u hu
  unfold groupRowOps at hu
  cases ha : r.accept with
  | true =>
    rw [ha, if_pos rfl] at hu
    simp only [List.mem_append] at hu
    rcases hu with ((((hu | hu) | hu) | hu) | hu) | hu
    · exact absurd hu (hst u)
    · have : (groupStart grow x g r).next ≤ u := ho.wh _ _ hu
      exact ⟨by omega, fun _ => by omega⟩
    · have : ((groupStart grow x g r).work grow r.wh).next ≤ u := ho.key _ _ hu
      exact ⟨by omega, fun _ => by omega⟩
    · simp at hu; exact ⟨by omega, fun _ => by omega⟩
    · exact absurd hu (hgc u)
    · have : ((groupKey grow x g r).does grow (groupCtx x.next r.ctx)).next ≤ u := ho.cols _ _ hu
      exact ⟨by omega, fun _ => by omega⟩
  | false =>
    rw [ha] at hu
    simp only [Bool.false_eq_true, if_false, List.mem_append] at hu
    refine ⟨?_, by simp⟩
    rcases hu with (hu | hu) | hu
    · exact absurd hu (hst u)
    · have : (groupStart grow x g r).next ≤ u := ho.wh _ _ hu
      omega
    · simp at hu; omega


theorem groupRow_shallow {x : Hist R V} {g : Nat} {r : GRow R V} (hs : GShallow r) : ShallowOps (groupRowOps grow x g r) := by
  intro s d hd
  have hst : SOp.addDtor s d ∉ groupOps g x.next r := by simp [groupOps]
  have hgc : SOp.addDtor s d ∉ (groupCtx x.next r.ctx : List (SOp R V)) := by
    intro h; rcases groupCtx_mem h with h | ⟨c, h⟩ <;> cases h
  unfold groupRowOps at hd
  split at hd <;> simp only [List.mem_append] at hd
  · rcases hd with ((((hd | hd) | hd) | hd) | hd) | hd
    · exact absurd hd hst
    · exact hs.wh _ _ _ hd
    · exact hs.key _ _ _ hd
    · simp at hd
    · exact absurd hd hgc
    · exact hs.cols _ _ _ hd
  · rcases hd with (hd | hd) | hd
    · exact absurd hd hst
    · exact hs.wh _ _ _ hd
    · simp at hd

theorem rows_ops {x : Hist R V} (hi : CInv x.heap) {g : Nat} (hg : g < x.next) (rows : List (GRow R V))
    (ho : ∀ r ∈ rows, GOwn r) : ∃ l, rows.foldl (fun y r => groupRow grow y g r) x = x.does grow l ∧
      (∀ u, SOp.close u ∈ l → x.next ≤ u) ∧ ((∀ r ∈ rows, GShallow r) → ShallowOps l) := by
  induction rows generalizing x with
  | nil => exact ⟨[], rfl, by simp, by intro _ s d h; cases h⟩
  | cons r rows ih =>
    have hn := (does_keeps (grow := grow) hi (groupRowOps grow x g r)).1
    obtain ⟨l, e, h1, h2⟩ := ih (x := groupRow grow x g r) (by rw [groupRow_eq]; exact does_CInv hi _)
      (by rw [groupRow_eq]; omega) (fun r h => ho r (List.mem_cons_of_mem _ h))
    refine ⟨groupRowOps grow x g r ++ l, ?_, fun u hu => ?_, fun hs s d hd => ?_⟩
    · rw [List.foldl_cons, e, does_append, groupRow_eq]
    · rw [List.mem_append] at hu
      rcases hu with hu | hu
      · exact (groupRow_own hi hg (ho r List.mem_cons_self) u hu).1
      · have := h1 u hu
        rw [groupRow_eq] at this; omega
    · rw [List.mem_append] at hd
      rcases hd with hd | hd
      · exact groupRow_shallow (hs r List.mem_cons_self) s d hd
      · exact h2 (fun r h => hs r (List.mem_cons_of_mem _ h)) s d hd

/-- **C91, GROUP BY, WHERE and the group key**: for every history and row, whatever is done with scopes while WHERE and the
group key are evaluated, the two scopes of the row are open. -/
theorem C91_group_open (grow : Nat → Nat) (ops : List (SOp R V)) (g : Nat) (hg : g < (Hist.run grow ops).next)
    (r : GRow R V) (l : List (SOp R V)) (hl : ∀ u, SOp.close u ∈ l → (Hist.run grow ops).next + 2 ≤ u) (u : Nat)
    (hu : u = (Hist.run grow ops).next ∨ u = (Hist.run grow ops).next + 1) :
    let y := (groupStart grow (Hist.run grow ops) g r).does grow l
    y.heap.opn u = true ∧ (∀ d, (y.heap.addDtor u d).2 = true) ∧ ranOf y.ran u = [] := by
  have hub := run_unborn (grow := grow) ops (t := u) (by omega)
  have hi := run_heap_CInv (grow := grow) ops
  generalize Hist.run grow ops = x at *
  obtain ⟨_, n1, n2, _⟩ := group_new (grow := grow) hi hg r
  have hi' : CInv (groupStart grow x g r).heap := does_CInv hi _
  obtain ⟨a, b⟩ := does_stays (grow := grow) hi' (t := u) l (fun v hv => by have := hl v hv; omega)
  have ho := a (by rcases hu with rfl | rfl <;> assumption)
  refine ⟨ho, accepts ho, ?_⟩
  have := (does_stays (grow := grow) hi (t := u) (groupOps g x.next r) (by simp [groupOps])).2
  rw [b, ← hub]; exact this

theorem reg_closed {x : Hist R V} (hi : CInv x.heap) {t : Nat} (ht : t < x.next) (ho : x.heap.opn t = false)
    (l : List (SOp R V)) : (x.does grow l).heap.opn t = false ∧
      regOf (x.does grow l).registered t = regOf x.registered t := by
  induction l generalizing x with
  | nil => exact ⟨ho, rfl⟩
  | cons op l ih =>
    have hi' : CInv (x.step grow op).heap := by rw [Hist.step_heap]; exact step_CInv grow _ hi op
    obtain ⟨k1, _, k3⟩ := does_keeps (grow := grow) hi [op]
    change x.next ≤ (x.step grow op).next at k1
    have ho' : (x.step grow op).heap.opn t = false := by
      cases e : (x.step grow op).heap.opn t with
      | false => rfl
      | true => rw [k3 t ht e] at ho; cases ho
    obtain ⟨h1, h2⟩ := ih (x := x.step grow op) hi' (by omega) ho'
    refine ⟨h1, h2.trans ?_⟩
    cases op with
    | addDtor s d =>
      simp only [Hist.step]
      split
      · next hacc =>
        have hne : s ≠ t := by
          rintro rfl
          rw [refuses ho d] at hacc; cases hacc
        unfold regOf
        rw [List.filter_append]
        simp [hne]
      · rfl
    | _ => rfl

theorem groupKey_facts {x : Hist R V} (hi : CInv x.heap) {g : Nat} (hg : g < x.next) (r : GRow R V) :
    CInv (groupKey grow x g r).heap ∧ x.next + 2 ≤ (groupKey grow x g r).next ∧
      (groupKey grow x g r).heap.opn (x.next + 1) = false := by
  obtain ⟨n0, _⟩ := group_new (grow := grow) hi hg r
  have hiy : CInv (groupStart grow x g r).heap := does_CInv hi _
  have n1 := work_next (grow := grow) hiy r.wh
  have hiw : CInv ((groupStart grow x g r).work grow r.wh).heap := does_CInv hiy _
  have n2 := work_next (grow := grow) hiw r.key
  have hik : CInv (((groupStart grow x g r).work grow r.wh).work grow r.key).heap := does_CInv hiw _
  have n3 : _ ≤ (groupKey grow x g r).next := (does_keeps (grow := grow) hik [.close (x.next + 1)]).1
  exact ⟨does_CInv hik _, by omega, closes hik (by omega)⟩

theorem groupKey_tidy {x : Hist R V} (hi : CInv x.heap) (hc : Conserved x) (ht : Tidy x.heap) (g : Nat) {r : GRow R V}
    (h1 : Shallow r.wh) (h2 : Shallow r.key) : Tidy (groupKey grow x g r).heap ∧ Conserved (groupKey grow x g r) := by
  have hiy : CInv (groupStart grow x g r).heap := does_CInv hi _
  have hiw : CInv ((groupStart grow x g r).work grow r.wh).heap := does_CInv hiy _
  have hik : CInv (((groupStart grow x g r).work grow r.wh).work grow r.key).heap := does_CInv hiw _
  have ty : Tidy (groupStart grow x g r).heap := does_tidy hi ht _ (by intro s d h; simp at h)
  have tw : Tidy ((groupStart grow x g r).work grow r.wh).heap := does_tidy hiy ty _ (h1 _)
  have tk : Tidy (((groupStart grow x g r).work grow r.wh).work grow r.key).heap := does_tidy hiw tw _ (h2 _)
  have cy : Conserved (groupStart grow x g r) := does_conserved hi hc _
  have cw : Conserved ((groupStart grow x g r).work grow r.wh) := does_conserved hiy cy _
  have ck : Conserved (((groupStart grow x g r).work grow r.wh).work grow r.key) := does_conserved hiw cw _
  exact ⟨does_tidy hik tk _ (by intro s d h; simp at h), does_conserved hik ck _⟩

/-- **C91, GROUP BY, too late for the columns**: for every history and row, before the columns are evaluated their scope is
closed and all that was accepted for it has run; whatever happens later, it accepts no destructor any more. -/
theorem C91_group_late (grow : Nat → Nat) (ops : List (SOp R V)) (hsh : ShallowOps ops) (g : Nat)
    (hg : g < (Hist.run grow ops).next) (r : GRow R V) (h1 : Shallow r.wh) (h2 : Shallow r.key) (l : List (SOp R V)) :
    let n := (Hist.run grow ops).next
    let y := groupKey grow (Hist.run grow ops) g r
    let z := y.does grow l
    (ranOf y.ran (n + 1)).Perm (regOf y.registered (n + 1)) ∧ z.heap.opn (n + 1) = false ∧
    (∀ d, (z.heap.addDtor (n + 1) d).2 = false) ∧ regOf z.registered (n + 1) = regOf y.registered (n + 1) := by
  have hi := run_heap_CInv (grow := grow) ops
  have hc := run_conserved (grow := grow) ops
  have ht := run_tidy (grow := grow) ops hsh
  generalize Hist.run grow ops = x at *
  obtain ⟨k1, k2, k3⟩ := groupKey_facts (grow := grow) hi hg r
  obtain ⟨t1, t2⟩ := groupKey_tidy (grow := grow) hi hc ht g h1 h2
  obtain ⟨a, b⟩ := reg_closed (grow := grow) k1 (t := x.next + 1) (by omega) k3 l
  exact ⟨all_ran t2 t1 k3, a, refuses a, b⟩

/-- **C91, GROUP BY, held to the end**: for every history and every accepted row, after it and after any rows that follow it,
the scope of the row is still open and none of its destructors has run. -/
theorem C91_group_held (grow : Nat → Nat) (ops : List (SOp R V)) (g : Nat) (hg : g < (Hist.run grow ops).next)
    (r : GRow R V) (post : List (GRow R V)) (ha : r.accept = true) (hr : GOwn r) (ho : ∀ r ∈ post, GOwn r) :
    let n := (Hist.run grow ops).next
    let z := post.foldl (fun y r => groupRow grow y g r) (groupRow grow (Hist.run grow ops) g r)
    z.heap.opn n = true ∧ ranOf z.ran n = [] := by
  have hub := run_unborn (grow := grow) ops (Nat.le_refl _)
  have hi := run_heap_CInv (grow := grow) ops
  generalize Hist.run grow ops = x at *
  intro n z
  have own := groupRow_own (grow := grow) hi hg hr
  have hix : CInv (groupRow grow x g r).heap := by rw [groupRow_eq]; exact does_CInv hi _
  obtain ⟨c1, n1, _⟩ := group_new (grow := grow) hi hg r
  have hn : x.next < (groupRow grow x g r).next := by
    rw [groupRow_eq]
    have hop : groupRowOps grow x g r = groupOps g x.next r ++ (groupRowOps grow x g r).drop 5 := by
      unfold groupRowOps; split <;> simp [groupOps]
    rw [hop, does_append]
    have h2 := (does_keeps (grow := grow) (x := x.does grow (groupOps g x.next r)) (does_CInv hi _)
      ((groupRowOps grow x g r).drop 5)).1
    have : (x.does grow (groupOps g x.next r)).next = x.next + 2 := c1
    omega
  obtain ⟨l, e, h1, _⟩ := rows_ops (grow := grow) hix (g := g) (by omega) post ho
  have hz : z = (groupRow grow x g r).does grow l := e
  obtain ⟨a, b⟩ := does_stays (grow := grow) hix (t := x.next) l (fun u hu => by have := h1 u hu; omega)
  have hop : groupRowOps grow x g r = groupOps g x.next r ++ (groupRowOps grow x g r).drop 5 := by
    unfold groupRowOps; split <;> simp [groupOps]
  have hi5 : CInv (x.does grow (groupOps g x.next r)).heap := does_CInv hi _
  obtain ⟨a5, b5⟩ := does_stays (grow := grow) hi5 (t := x.next) ((groupRowOps grow x g r).drop 5)
    (fun u hu => (own u (List.mem_of_mem_drop hu)).2 ha)
  obtain ⟨_, b0⟩ := does_stays (grow := grow) hi (t := x.next) (groupOps g x.next r) (by simp [groupOps])
  rw [← does_append, ← hop, ← groupRow_eq] at a5 b5
  rw [hz]
  exact ⟨a (a5 n1), by rw [b, b5, b0, hub]⟩

theorem groupRow_closed {x : Hist R V} (hi : CInv x.heap) {g : Nat} (hg : g < x.next) (r : GRow R V) :
    (groupRow grow x g r).heap.opn (x.next + 1) = false := by
  unfold groupRow
  split
  · obtain ⟨k1, k2, k3⟩ := groupKey_facts (grow := grow) hi hg r
    obtain ⟨a, _⟩ := reg_closed (grow := grow) k1 (t := x.next + 1) (by omega) k3 (groupCtx x.next r.ctx)
    have n1 := (does_keeps (grow := grow) k1 (groupCtx x.next r.ctx)).1
    exact (reg_closed (grow := grow) (does_CInv k1 _) (by omega) a _).1
  · obtain ⟨n0, _⟩ := group_new (grow := grow) hi hg r
    have hiy : CInv (groupStart grow x g r).heap := does_CInv hi _
    have n1 := work_next (grow := grow) hiy r.wh
    have hiw : CInv ((groupStart grow x g r).work grow r.wh).heap := does_CInv hiy _
    have n2 := (does_keeps (grow := grow) hiw [.close x.next]).1
    exact closes (x := ((groupStart grow x g r).work grow r.wh).does grow [.close x.next]) (does_CInv hiw _) (by omega)

/-- **C91, GROUP BY, at the end**: for every history, scope and rows, once the query is at its end the two scopes of every
row, accepted or not, are closed and exactly the destructors that were accepted for them have run; scopes there were before are
as they were. -/
theorem C91_group_done (grow : Nat → Nat) (ops : List (SOp R V)) (hsh : ShallowOps ops) (s : Nat)
    (hs : s < (Hist.run grow ops).next) (pre : List (GRow R V)) (r : GRow R V) (post : List (GRow R V))
    (ho : ∀ q ∈ pre ++ r :: post, GOwn q) (hd : ∀ q ∈ pre ++ r :: post, GShallow q) :
    let x := Hist.run grow ops
    let n := (pre.foldl (fun y r => groupRow grow y x.next r) (x.does grow [.copy s])).next
    let z := groupQuery grow x s (pre ++ r :: post)
    (∀ t, t = x.next ∨ t = n ∨ t = n + 1 → z.heap.opn t = false ∧ (ranOf z.ran t).Perm (regOf z.registered t)) ∧
    (∀ t, t < x.next → (x.heap.opn t = true → z.heap.opn t = true) ∧ ranOf z.ran t = ranOf x.ran t) := by
  have hi := run_heap_CInv (grow := grow) ops
  have hc := run_conserved (grow := grow) ops
  have ht := run_tidy (grow := grow) ops hsh
  generalize Hist.run grow ops = x at *
  intro x' n z
  obtain ⟨c1, c2, _⟩ := copied (grow := grow) hs
  have sa := fun t => does_stays (grow := grow) hi (t := t) [.copy s] (by simp)
  have hia := does_CInv (grow := grow) hi [.copy s]
  have hca := does_conserved (grow := grow) hi hc [.copy s]
  have hta := does_tidy (grow := grow) hi ht [.copy s] (by intro s d h; simp at h)
  have hn' : n = (pre.foldl (fun y r => groupRow grow y x.next r) (x.does grow [.copy s])).next := rfl
  have hz : z = ((pre ++ r :: post).foldl (fun y r => groupRow grow y x.next r) (x.does grow [.copy s])).does grow
    [.close x.next] := rfl
  generalize x.does grow [.copy s] = A at *
  have hpre : ∀ q ∈ pre, GOwn q := fun q h => ho q (List.mem_append_left _ h)
  have hrr : GOwn r := ho r (List.mem_append_right _ List.mem_cons_self)
  have hpost : ∀ q ∈ post, GOwn q := fun q h => ho q (List.mem_append_right _ (List.mem_cons_of_mem _ h))
  -- all rows
  obtain ⟨l, e, l1, l2⟩ := rows_ops (grow := grow) hia (g := x.next) (by omega) (pre ++ r :: post) ho
  have hsl := l2 hd
  have hie := does_CInv (grow := grow) hia l
  have hce := does_conserved (grow := grow) hia hca l
  have hte := does_tidy (grow := grow) hia hta l hsl
  have hke := does_keeps (grow := grow) hia l
  have hse := fun t (h : t < A.next) => does_stays (grow := grow) hia (t := t) l (fun u hu => by have := l1 u hu; omega)
  -- up to this row
  obtain ⟨p, ep, p1, _⟩ := rows_ops (grow := grow) hia (g := x.next) (by omega) pre hpre
  have hip := does_CInv (grow := grow) hia p
  have hkp := does_keeps (grow := grow) hia p
  rw [← ep] at hip hkp
  rw [← e] at hie hce hte hke hse
  -- this row and those that follow
  have efold : (pre ++ r :: post).foldl (fun y r => groupRow grow y x.next r) A =
      post.foldl (fun y r => groupRow grow y x.next r)
        (groupRow grow (pre.foldl (fun y r => groupRow grow y x.next r) A) x.next r) := by
    rw [List.foldl_append, List.foldl_cons]
  have hnext : n = (pre.foldl (fun y r => groupRow grow y x.next r) A).next := hn'
  clear_value n z
  subst hz hnext
  rw [efold] at hie hce hte hke hse ⊢
  generalize pre.foldl (fun y r => groupRow grow y x.next r) A = B at *
  have hgB : x.next < B.next := by omega
  obtain ⟨g0, g1, g2, g3, g4⟩ := group_new (grow := grow) hip hgB r
  have hop : groupRowOps grow B x.next r = groupOps x.next B.next r ++ (groupRowOps grow B x.next r).drop 5 := by
    unfold groupRowOps; split <;> simp [groupOps]
  have hi5 : CInv (groupStart grow B x.next r).heap := does_CInv hip _
  have erow : groupRow grow B x.next r =
      (groupStart grow B x.next r).does grow ((groupRowOps grow B x.next r).drop 5) := by
    rw [groupRow_eq, hop, does_append]; rfl
  have k5 := does_keeps (grow := grow) hi5 ((groupRowOps grow B x.next r).drop 5)
  rw [← erow] at k5
  have hir : CInv (groupRow grow B x.next r).heap := by rw [erow]; exact does_CInv hi5 _
  obtain ⟨q, eq, q1, _⟩ := rows_ops (grow := grow) hir (g := x.next) (by omega) post hpost
  have kq := does_keeps (grow := grow) hir q
  rw [← eq] at kq
  generalize hF : post.foldl (fun y r => groupRow grow y x.next r) (groupRow grow B x.next r) = F at *
  -- the end
  have sh := step_shape (grow := grow) F.heap hie (.close x.next)
  have heapz : (F.does grow [.close x.next]).heap = F.heap.step grow (.close x.next) := by rw [does_heap]; rfl
  have hcz := does_conserved (grow := grow) hie hce [.close x.next]
  have htz := does_tidy (grow := grow) hie hte [.close x.next] (by intro s d h; simp at h)
  have hxn : (F.does grow [.close x.next]).heap.opn x.next = false := closes hie (by omega)
  have pn : F.heap.par B.next = some x.next := by rw [kq.2.1 _ (by omega), k5.2.1 _ (by omega)]; exact g3
  have pn1 : F.heap.par (B.next + 1) = some B.next := by rw [kq.2.1 _ (by omega), k5.2.1 _ (by omega)]; exact g4
  have hBn : (F.does grow [.close x.next]).heap.opn B.next = false := by
    rw [heapz]
    cases eo : F.heap.opn B.next with
    | true => exact sh.closed x.next rfl (by unfold Hist.next at *; omega) _ (.kid _ _ .self pn eo)
    | false =>
      cases e2 : (F.heap.step grow (.close x.next)).opn B.next with
      | false => rfl
      | true =>
        rw [sh.opn_of _ (by unfold Hist.next at *; omega) e2] at eo; cases eo
  have hB1 : F.heap.opn (B.next + 1) = false := by
    cases e2 : F.heap.opn (B.next + 1) with
    | false => rfl
    | true =>
      have h := kq.2.2 _ (by omega) e2
      rw [groupRow_closed hip hgB r] at h; cases h
  have hB1' : (F.does grow [.close x.next]).heap.opn (B.next + 1) = false := by
    rw [heapz]
    cases e2 : (F.heap.step grow (.close x.next)).opn (B.next + 1) with
    | false => rfl
    | true =>
      rw [sh.opn_of _ (by unfold Hist.next at *; omega) e2] at hB1; cases hB1
  refine ⟨fun t h => ?_, fun t h => ?_⟩
  · have : (F.does grow [.close x.next]).heap.opn t = false := by rcases h with rfl | rfl | rfl <;> assumption
    exact ⟨this, all_ran hcz htz this⟩
  · change t < x.next at h
    obtain ⟨a, b⟩ := hse t (by omega)
    obtain ⟨a', b'⟩ := does_stays (grow := grow) hie (t := t) [.close x.next]
      (fun u hu => by simp at hu; omega)
    exact ⟨fun h => a' (a ((sa t).1 h)), by rw [b', b, (sa t).2]⟩

/-- Two rows, the second rejected by WHERE.  WHERE attaches destructor 5 to the row's scope, the group key 6 to the scope of
the columns: 6 runs before the columns are evaluated; the 5 of the rejected row runs with the row, the other one at the end. -/
example :
    let row (n : Nat) (a : Bool) : GRow Unit Unit := ⟨(), (), fun _ => [.addDtor n (.mk 5 [])], a,
      fun _ => [.addDtor (n + 1) (.mk 6 [])], none, fun _ => []⟩
    (groupQuery (fun n => n) (Hist.run (fun n => n) [.new ()]) 0 [row 2 true, row 4 false]).ran = [(3, 6), (4, 5), (2, 5)] := by
  decide

/-- **C91, refuted for the columns of GROUP BY**: a column that attaches a destructor to its scope: accepted, and run with the
row, in a SELECT; refused, so never run, with GROUP BY. -/
theorem C91_group_refuted : ∃ (ops : List (SOp Unit Unit)) (cols : Work Unit Unit), Own cols ∧
    (selectRow (fun n => n) (Hist.run (fun n => n) ops) 0 () () none cols).registered = [(2, .mk 7 [])] ∧
    (selectRow (fun n => n) (Hist.run (fun n => n) ops) 0 () () none cols).ran = [(2, 7)] ∧
    ∃ cols' : Work Unit Unit, Own cols' ∧
    (groupQuery (fun n => n) (Hist.run (fun n => n) ops) 0
      [⟨(), (), fun _ => [], true, fun _ => [], none, cols'⟩]).registered = [] :=
  ⟨[.new ()], fun _ => [.addDtor 2 (.mk 7 [])], by intro h u hu; simp at hu, rfl, by decide,
    fun _ => [.addDtor 3 (.mk 7 [])], by intro h u hu; simp at hu, by decide⟩

/-- **C91, refuted for the rows of GROUP BY**: what WHERE attaches to the scope of a row has not run when that row, and the next
one, have been processed. -/
theorem C91_held_refuted : ∃ (ops : List (SOp Unit Unit)) (a b : GRow Unit Unit), GOwn a ∧ GOwn b ∧
    let z := groupRow (fun n => n) (groupRow (fun n => n) (Hist.run (fun n => n) ops) 1 a) 1 b
    z.registered = [(2, .mk 7 [])] ∧ z.ran = [] := by
  refine ⟨[.new (), .copy 0], ⟨(), (), fun _ => [.addDtor 2 (.mk 7 [])], true, fun _ => [], none, fun _ => []⟩,
    ⟨(), (), fun _ => [], true, fun _ => [], none, fun _ => []⟩, ⟨?_, ?_, ?_⟩, ⟨?_, ?_, ?_⟩, rfl, by decide⟩ <;>
  · intro h u hu; simp at hu

/-- **C91, refuted for copies made too late**: a column of GROUP BY copies its scope, which is closed, and attaches a destructor
to the copy.  It is accepted and does not run, not even when the scope of the query and the root are closed. -/
theorem C91_copies_refuted : ∃ (ops : List (SOp Unit Unit)) (r : GRow Unit Unit), GOwn r ∧
    let z := groupQuery (fun n => n) (Hist.run (fun n => n) ops) 0 [r]
    z.registered = [(4, .mk 7 [])] ∧ (z.does (fun n => n) [.close 0]).ran = [] := by
  refine ⟨[.new ()], ⟨(), (), fun _ => [], true, fun _ => [], none, fun h => [.copy 3, .addDtor h.scopes.length (.mk 7 [])]⟩,
    ⟨?_, ?_, ?_⟩, rfl, by decide⟩ <;>
  · intro h u hu; simp at hu

end
end Vfilter.RowScopes
