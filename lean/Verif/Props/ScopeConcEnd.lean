import Verif.Props.ScopeConc
/-!
# C80 Every Close ends; what closing from several goroutines does not give
-/
set_option linter.all false

namespace Vfilter.ScopeConc

/-! ## No call is stuck -/

/-- A goroutine in `AddDestructor` is in no other call. -/
def AddAlone (σ : CSt) : Prop := ∀ st ∈ σ.threads, ∀ s, .adding s ∈ st → st = [.adding s]

theorem addAlone_put {σ σ' : CSt} {i : Nat} {old new st : List Frame} (ha : AddAlone σ)
    (h : σ.threads[i]? = some (old ++ st)) (ht : σ'.threads = σ.threads.set i (new ++ st))
    (hn : ∀ s, .adding s ∈ new → new ++ st = [.adding s]) (ho : old ≠ []) : AddAlone σ' := by
  intro t hm s hs
  rw [ht] at hm
  rcases List.mem_or_eq_of_mem_set hm with hm | rfl
  · exact ha t hm s hs
  · rcases List.mem_append.1 hs with hs | hs
    · exact hn s hs
    · have e := ha _ (List.mem_of_getElem? h) s (List.mem_append_right _ hs)
      cases old with
      | nil => exact absurd rfl ho
      | cons a old =>
        simp only [List.cons_append, List.cons.injEq, List.append_eq_nil_iff] at e
        rw [e.2.2] at hs
        cases hs

theorem addAlone_step (σ σ' : CSt) (b : Bool) (ha : AddAlone σ) (h : Eff σ b σ') : AddAlone σ' := by
  cases h with
  | root => exact ha
  | spawn =>
    intro t hm s hs
    rcases List.mem_append.1 hm with hm | hm
    · exact ha t hm s hs
    · rw [List.mem_singleton.1 hm] at hs; cases hs
  | copy _ => exact ha
  | refuse _ _ => exact ha
  | check h _ _ =>
    intro t hm s hs
    rcases List.mem_or_eq_of_mem_set hm with hm | rfl
    · exact ha t hm s hs
    · rw [List.mem_singleton.1 hs]
  | close h _ =>
    intro t hm s hs
    rcases List.mem_or_eq_of_mem_set hm with hm | rfl
    · exact ha t hm s hs
    · simp at hs
  | append h => exact addAlone_put (old := [_]) (new := []) ha h rfl (by simp) (by simp)
  | child h _ => exact addAlone_put (old := [_]) (new := [_, _]) ha h rfl (by simp) (by simp)
  | leave h => exact addAlone_put (old := [_]) (new := [_]) ha h rfl (by simp) (by simp)
  | unlink h => exact addAlone_put (old := [_]) (new := [_]) ha h rfl (by simp) (by simp)
  | remove h _ _ _ => exact addAlone_put (old := [_]) (new := [_]) ha h rfl (by simp) (by simp)
  | empty h _ _ => exact addAlone_put (old := [_]) (new := [_]) ha h rfl (by simp) (by simp)
  | start h => exact addAlone_put (old := [_]) (new := [_]) ha h rfl (by simp) (by simp)
  | finish _ _ => exact ha
  | wake h _ => exact addAlone_put (old := [_]) (new := [_]) ha h rfl (by simp) (by simp)
  | late h => exact addAlone_put (old := [_]) (new := [_]) ha h rfl (by simp) (by simp)
  | next h => exact addAlone_put (old := [_]) (new := [_]) ha h rfl (by simp) (by simp)
  | ret h => exact addAlone_put (old := [_]) (new := []) ha h rfl (by simp) (by simp)

/-- Children are younger than their parents, and they exist; tries are counted to 10. -/
structure Ordered (σ : CSt) : Prop where
  kids : ∀ s c, c ∈ σ.kidsOf s → s < c ∧ c < σ.scopes.length
  todo : ∀ s todo, σ.has (.kids s todo) → ∀ c ∈ todo, s < c ∧ c < σ.scopes.length
  tries : ∀ s n, σ.has (.tries s n) → n ≤ 10
  batch : ∀ s n l, σ.has (.batch s n l) → n < 10
  wait : ∀ s n r l, σ.has (.wait s n r l) → n < 10

theorem kidsOf_lt {σ : CSt} {s c : Nat} (h : c ∈ σ.kidsOf s) : s < σ.scopes.length := by
  unfold CSt.kidsOf at h
  cases hx : σ.scopes[s]? with
  | none => rw [hx] at h; cases h
  | some x => exact lt_of_get hx

theorem Eff.copied {σ σ' : CSt} {b : Bool} (h : Eff σ b σ') {s c : Nat} (hm : σ'.log = σ.log ++ [.copied s c]) :
    s < c ∧ c < σ'.scopes.length := by
  cases h <;> simp only [CSt.say, CSt.put, CSt.onSc, CSt.count, List.append_cancel_left_eq, List.cons.injEq, reduceCtorEq, false_and,
    Ev.copied.injEq, and_true, List.self_eq_append_right, List.cons_ne_self] at hm
  case copy x h =>
    obtain ⟨rfl, rfl⟩ := hm
    exact ⟨lt_of_get h, by simp [CSt.say]⟩

theorem ordered_step (σ σ' : CSt) (b : Bool) (hr : Reach σ) (ho : Ordered σ) (h : Eff σ b σ') : Ordered σ' := by
  have hg := h.grow
  have hc := fun s c => h.copied (s := s) (c := c)
  obtain ⟨old, new, es, ⟨hd, _⟩, hsh⟩ := h.move (reach_wf hr)
  have lift : ∀ {s c : Nat}, s < c ∧ c < σ.scopes.length → s < c ∧ c < σ'.scopes.length :=
    fun h => ⟨h.1, Nat.lt_of_lt_of_le h.2 hg⟩
  have kids : ∀ s c, c ∈ σ'.kidsOf s → s < c ∧ c < σ'.scopes.length := by
    intro s c hm
    cases hsh with
    | @copy k d _ _ _ e h3 h4 =>
      by_cases ek : s = k
      · subst ek
        rw [h3, List.mem_append] at hm
        rcases hm with hm | hm
        · exact lift (ho.kids s c hm)
        · rw [List.mem_singleton.1 hm]
          exact hc s d hd.log
      · rw [h4 s ek] at hm
        exact lift (ho.kids s c hm)
    | unlink _ _ _ _ h4 => exact lift (ho.kids s c ((h4 s).subset hm))
    | append _ _ _ _ h4 => rw [h4] at hm; exact lift (ho.kids s c hm)
    | remove _ _ _ _ _ h4 => rw [h4] at hm; exact lift (ho.kids s c hm)
    | ret _ _ _ _ _ h4 => rw [h4] at hm; exact lift (ho.kids s c hm)
    | idle h => rw [h.kids] at hm; exact lift (ho.kids s c hm)
    | refuse h => rw [h.kids] at hm; exact lift (ho.kids s c hm)
    | check h => rw [h.kids] at hm; exact lift (ho.kids s c hm)
    | close h => rw [h.kids] at hm; exact lift (ho.kids s c hm)
    | child h => rw [h.kids] at hm; exact lift (ho.kids s c hm)
    | empty h => rw [h.kids] at hm; exact lift (ho.kids s c hm)
    | start h => rw [h.kids] at hm; exact lift (ho.kids s c hm)
    | finish h => rw [h.kids] at hm; exact lift (ho.kids s c hm)
    | wake h => rw [h.kids] at hm; exact lift (ho.kids s c hm)
    | late h => rw [h.kids] at hm; exact lift (ho.kids s c hm)
    | next h => rw [h.kids] at hm; exact lift (ho.kids s c hm)
  refine ⟨kids, ?_, ?_, ?_, ?_⟩
  · intro s todo hf c hm
    rcases hd.fwd _ hf with h1 | h1
    · cases hsh <;> simp only [List.mem_cons, List.not_mem_nil, or_false, reduceCtorEq, Frame.kids.injEq, false_or] at h1
      case close =>
        obtain ⟨rfl, rfl⟩ := h1
        exact lift (ho.kids _ c hm)
      case child k d t h hlt =>
        rcases h1 with ⟨rfl, rfl⟩ | ⟨rfl, rfl⟩
        · exact lift (ho.kids _ c hm)
        · exact lift (ho.todo _ _ (hd.was _ (List.mem_singleton_self _)) c (List.mem_cons_of_mem _ hm))
    · exact lift (ho.todo s todo h1 c hm)
  · intro s n hf
    rcases hd.fwd _ hf with h1 | h1
    · cases hsh <;> simp only [List.mem_cons, List.not_mem_nil, or_false, reduceCtorEq, Frame.tries.injEq, false_or] at h1
      case unlink => omega
      case next k m h =>
        have := ho.batch _ _ _ (hd.was _ (List.mem_singleton_self _))
        omega
    · exact ho.tries s n h1
  · intro s n l hf
    rcases hd.fwd _ hf with h1 | h1
    · cases hsh <;> simp only [List.mem_cons, List.not_mem_nil, or_false, reduceCtorEq, Frame.batch.injEq, false_or] at h1
      case remove => omega
      case wake k m r rest h hl =>
        have := ho.wait _ _ _ _ (hd.was _ (List.mem_singleton_self _))
        omega
      case late k m r rest h =>
        have := ho.wait _ _ _ _ (hd.was _ (List.mem_singleton_self _))
        omega
    · exact ho.batch s n l h1
  · intro s n r l hf
    rcases hd.fwd _ hf with h1 | h1
    · cases hsh <;> simp only [List.mem_cons, List.not_mem_nil, or_false, reduceCtorEq, Frame.wait.injEq, false_or] at h1
      case start k m q rest h =>
        have := ho.batch _ _ _ (hd.was _ (List.mem_singleton_self _))
        omega
    · exact ho.wait s n r l h1

theorem init_has (f : Frame) : ¬ CSt.init.has f := by rintro ⟨st, hst, _⟩; cases hst

theorem reach_ordered {σ : CSt} (h : Reach σ) : Ordered σ := by
  obtain ⟨as, h⟩ := h
  refine run_inv_reach (P := Ordered) (fun σ σ' b hr hp he => ordered_step σ σ' b hr hp he) as _ _ ⟨[], rfl⟩ ?_ h
  refine ⟨?_, fun _ _ h => absurd h (init_has _), fun _ _ h => absurd h (init_has _), fun _ _ _ h => absurd h (init_has _),
    fun _ _ _ _ h => absurd h (init_has _)⟩
  intro s c h
  simp [CSt.init, CSt.kidsOf] at h

theorem reach_addAlone {σ : CSt} (h : Reach σ) : AddAlone σ :=
  reach_inv (P := AddAlone) (by intro st h; cases h) addAlone_step h

/-- **C80** No call waits for ever for another one: as long as a call is in progress, some call can go on. -/
theorem C80_progress {σ : CSt} (h : Reach σ) (hq : ¬ σ.quiet) : ∃ a σ', a.goesOn = true ∧ step σ a = some σ' := by
  have hw := reach_wf h
  have hord := reach_ordered h
  have hal := reach_addAlone h
  by_cases hadd : ∃ st ∈ σ.threads, ∃ s, Frame.adding s ∈ st
  · obtain ⟨st, hst, s, hs⟩ := hadd
    obtain ⟨i, hi⟩ := List.mem_iff_getElem?.1 hst
    rw [hal st hst s hs] at hi
    exact ⟨.append i, _, rfl, by simp only [step, hi]; rfl⟩
  · have hfree : ∀ s, σ.free s = true := by
      intro s
      unfold CSt.free
      rw [List.all_eq_true]
      intro st hst
      have hn : Frame.adding s ∉ st := fun hm => hadd ⟨st, hst, s, hm⟩
      simpa using hn
    have hne : ∃ st ∈ σ.threads, st ≠ [] := by
      refine Classical.byContradiction (fun hn => hq (fun st hst => ?_))
      exact Classical.byContradiction (fun he => hn ⟨st, hst, he⟩)
    obtain ⟨st, hst, hn⟩ := hne
    obtain ⟨i, hi⟩ := List.mem_iff_getElem?.1 hst
    cases st with
    | nil => exact absurd rfl hn
    | cons f rest =>
      have hf : σ.has f := has_top hi (by simp)
      have hlt : f.scope < σ.scopes.length := hw f hf
      obtain ⟨x, hx⟩ : ∃ x, σ.scopes[f.scope]? = some x := ⟨_, List.getElem?_eq_getElem hlt⟩
      cases f with
      | adding s => exact absurd ⟨_, hst, s, by simp⟩ hadd
      | kids s todo =>
        cases todo with
        | nil =>
          simp only [Frame.scope] at hx
          cases hp : x.parent with
          | none => exact ⟨.unlink i, _, rfl, by simp only [step, hi, hx, hp]; rfl⟩
          | some p => exact ⟨.unlink i, _, rfl, by simp only [step, hi, hx, hp, hfree, if_true]; rfl⟩
        | cons c todo =>
          have hc := (hord.todo _ _ hf c (by simp)).2
          obtain ⟨y, hy⟩ : ∃ y, σ.scopes[c]? = some y := ⟨_, List.getElem?_eq_getElem hc⟩
          exact ⟨.child i, _, rfl, by simp only [step, hi, hy, hfree, if_true]; rfl⟩
      | tries s n =>
        simp only [Frame.scope] at hx
        by_cases e : n < 10 ∧ x.fn ≠ []
        · exact ⟨.remove i, _, rfl, by simp only [step, hi, hx]; rw [if_pos e]⟩
        · exact ⟨.remove i, _, rfl, by simp only [step, hi, hx]; rw [if_neg e]⟩
      | batch s n l =>
        cases l with
        | nil => exact ⟨.next i, _, rfl, by simp only [step, hi]; rfl⟩
        | cons r l => exact ⟨.start i, _, rfl, by simp only [step, hi]; rfl⟩
      | wait s n r l => exact ⟨.late i, _, rfl, by simp only [step, hi]; rfl⟩
      | done s => exact ⟨.ret i, _, rfl, by simp only [step, hi]; rfl⟩

/-! ## Every call ends -/

/-- What closing `c` may cost, without its destructors. -/
def kost (σ : CSt) : Nat → Nat → Nat
  | 0, _ => 31
  | f + 1, c => 31 + ((σ.kidsOf c).map (kost σ f)).sum

theorem sum_le {α : Type} {f g : α → Nat} : ∀ {l : List α}, (∀ x ∈ l, f x ≤ g x) → (l.map f).sum ≤ (l.map g).sum
  | [], _ => Nat.le_refl _
  | x :: l, h => by
    have h1 := h x (by simp)
    have h2 := sum_le (f := f) (g := g) (l := l) (fun y hy => h y (by simp [hy]))
    simp only [List.map_cons, List.sum_cons]
    omega

theorem sum_sublist {l l' : List Nat} (f : Nat → Nat) (h : l.Sublist l') : (l.map f).sum ≤ (l'.map f).sum := by
  induction h with
  | slnil => exact Nat.le_refl _
  | cons a _ ih => simp only [List.map_cons, List.sum_cons]; omega
  | cons_cons a _ ih => simp only [List.map_cons, List.sum_cons]; omega

theorem kost_ge (σ : CSt) (f c : Nat) : 31 ≤ kost σ f c := by
  cases f with
  | zero => exact Nat.le_refl _
  | succ f => simp only [kost]; omega

theorem kost_up (σ : CSt) : ∀ (f c : Nat), kost σ f c ≤ kost σ (f + 1) c
  | 0, c => kost_ge σ 1 c
  | f + 1, c => by
    have := sum_le (l := σ.kidsOf c) (f := kost σ f) (g := kost σ (f + 1)) (fun d _ => kost_up σ f d)
    rw [kost, kost]
    omega

theorem kost_mono (σ : CSt) (c : Nat) {f g : Nat} (h : f ≤ g) : kost σ f c ≤ kost σ g c := by
  induction h with
  | refl => exact Nat.le_refl _
  | step _ ih => exact Nat.le_trans ih (kost_up σ _ c)

theorem kost_sub {σ σ' : CSt} (h : ∀ p, (σ'.kidsOf p).Sublist (σ.kidsOf p)) : ∀ (f c : Nat), kost σ' f c ≤ kost σ f c
  | 0, c => Nat.le_refl _
  | f + 1, c => by
    have h1 := sum_le (l := σ'.kidsOf c) (f := kost σ' f) (g := kost σ f) (fun d _ => kost_sub h f d)
    have h2 := sum_sublist (kost σ f) (h c)
    rw [kost, kost]
    omega

/-- What a call may still cost. -/
def cost (σ : CSt) : Frame → Nat
  | .adding _ => 5
  | .kids _ todo => 30 + (todo.map (fun c => kost σ (σ.scopes.length - c) c)).sum
  | .tries _ n => 2 * (11 - n) + 1
  | .batch _ n l => 2 * (11 - n) + 4 * l.length
  | .wait _ n _ l => 2 * (11 - n) + 4 * l.length + 1
  | .done _ => 1

/-- Destructors that are waiting. -/
def waiting (σ : CSt) : Nat := ((List.range σ.scopes.length).map (fun s => (σ.fnOf s).length)).sum

/-- Destructors that are running. -/
def running (l : List Ev) : Nat :=
  l.countP (fun e => match e with | .started _ r => decide (.finished r ∉ l) | _ => false)

def CSt.left (σ : CSt) : Nat := 4 * waiting σ + σ.total (cost σ) + running σ.log

theorem sum_range {f g : Nat → Nat} {s : Nat} (h : ∀ k, k ≠ s → g k = f k) : ∀ {n : Nat}, s < n →
    ((List.range n).map g).sum + f s = ((List.range n).map f).sum + g s
  | n + 1, hs => by
    simp only [List.range_succ, List.map_append, List.sum_append, List.map_cons, List.map_nil, List.sum_cons, List.sum_nil]
    by_cases e : s = n
    · subst e
      have : (List.range s).map g = (List.range s).map f :=
        List.map_congr_left (fun k hk => h k (Nat.ne_of_lt (List.mem_range.1 hk)))
      rw [this]; omega
    · have := sum_range h (n := n) (by omega)
      have := h n (fun e' => e e'.symm)
      omega

theorem running_say {l : List Ev} {e : Ev} (he : ∀ r, e ≠ .finished r) (hs : ∀ s r, e ≠ .started s r) :
    running (l ++ [e]) = running l := by
  unfold running
  rw [List.countP_append]
  have h1 : ∀ l' : List Ev, l'.countP (fun e' => match e' with | .started _ r => decide (.finished r ∉ l ++ [e]) | _ => false) =
      l'.countP (fun e' => match e' with | Ev.started _ r => decide (.finished r ∉ l) | _ => false) := by
    intro l'
    congr 1
    funext e'
    cases e' <;> try rfl
    simp [Ne.symm (he _)]
  rw [h1, List.countP_singleton]
  cases e <;> simp_all

theorem running_start {l : List Ev} {s r : Nat} : running (l ++ [.started s r]) ≤ running l + 1 := by
  unfold running
  rw [List.countP_append]
  have h1 : ∀ l' : List Ev, l'.countP (fun e' => match e' with | .started _ q => decide (.finished q ∉ l ++ [Ev.started s r]) | _ => false) =
      l'.countP (fun e' => match e' with | Ev.started _ q => decide (.finished q ∉ l) | _ => false) := by
    intro l'
    congr 1
    funext e'
    cases e' <;> try rfl
    simp
  rw [h1]
  have := List.countP_le_length (l := [Ev.started s r]) (p := fun e' => match e' with | .started _ q => decide (.finished q ∉ l) | _ => false)
  rw [List.length_singleton] at this
  rw [h1]
  omega

theorem countP_lt {α : Type} {p q : α → Bool} (hpq : ∀ x, p x = true → q x = true) : ∀ {l : List α} {a : α}, a ∈ l →
    q a = true → p a = false → l.countP p < l.countP q
  | x :: l, a, ha, hq, hp => by
    rw [List.countP_cons, List.countP_cons]
    have hle : l.countP p ≤ l.countP q := List.countP_mono_left (fun x _ => hpq x)
    rcases List.mem_cons.1 ha with rfl | ha
    · rw [hq, hp]; simp; omega
    · have := countP_lt hpq ha hq hp
      have := hpq x
      split <;> split <;> simp_all <;> omega

theorem running_finish {l : List Ev} {s r : Nat} (hl : .started s r ∈ l) (hn : .finished r ∉ l) :
    running (l ++ [.finished r]) < running l := by
  unfold running
  rw [List.countP_append]
  simp only [List.countP_singleton]
  refine countP_lt ?_ hl (by simpa using hn) (by simp)
  intro e
  cases e <;> simp
  intro h1 h2
  exact h1

theorem Eff.len {σ σ' : CSt} (h : Eff σ true σ') : σ'.scopes.length = σ.scopes.length := by
  cases h <;> simp [CSt.say, CSt.put, CSt.onSc, CSt.count]

theorem cost_le {σ σ' : CSt} (hl : σ'.scopes.length = σ.scopes.length) (h : ∀ p, (σ'.kidsOf p).Sublist (σ.kidsOf p)) (f : Frame) :
    cost σ' f ≤ cost σ f := by
  cases f <;> simp only [cost, Nat.le_refl]
  rw [hl]
  have := sum_le (fun c (_ : c ∈ (by assumption : List Nat)) => kost_sub h (σ.scopes.length - c) c)
  omega

theorem total_le {σ : CSt} {f g : Frame → Nat} (h : ∀ x, f x ≤ g x) : σ.total f ≤ σ.total g :=
  sum_le (fun st _ => sum_le (fun x _ => h x))

theorem waiting_same {σ σ' : CSt} (hl : σ'.scopes.length = σ.scopes.length) (h : ∀ k, σ'.fnOf k = σ.fnOf k) :
    waiting σ' = waiting σ := by
  unfold waiting
  rw [hl]
  simp only [h]

/-- Every step that continues something leaves less to do. -/
theorem left_lt {σ σ' : CSt} (hr : Reach σ) (h : Eff σ true σ') : σ'.left < σ.left := by
  have hl := h.len
  have hord := reach_ordered hr
  have hw := reach_wf hr
  obtain ⟨old, new, es, ⟨hd, hb⟩, hsh⟩ := h.move hw
  have hb := hb rfl
  have htot := hd.tot (cost σ)
  have hlog := hd.log
  have key : (∀ p, (σ'.kidsOf p).Sublist (σ.kidsOf p)) → σ'.total (cost σ') ≤ σ'.total (cost σ) :=
    fun hk => total_le (cost_le hl hk)
  have hrun0 : es = [] → running σ'.log = running σ.log := by
    intro e; rw [hlog, e, List.append_nil]
  unfold CSt.left
  cases hsh with
  | idle h => simp at hb
  | copy => simp at hb
  | refuse => simp at hb
  | check => simp at hb
  | close => simp at hb
  | @append s hx h1 h2 h3 h4 =>
    have k := key (fun p => by rw [h4]; exact List.Sublist.refl _)
    have hs : s < σ.scopes.length := hw _ (hd.was _ (List.mem_singleton_self _))
    have hsum := sum_range (f := fun s => (σ.fnOf s).length) (g := fun s => (σ'.fnOf s).length) (s := s)
      (fun k hk => by rw [h2 k hk]) hs
    have hru := running_say (l := σ.log) (e := .accepted s σ.next) (by simp) (by simp)
    rw [← hlog] at hru
    simp only [h1, List.length_append, List.length_singleton] at hsum
    simp only [cost, List.map_cons, List.map_nil, List.sum_cons, List.sum_nil] at htot
    unfold waiting
    rw [hl]
    omega
  | @child s c todo h hc =>
    have k := key (fun p => by rw [h.kids]; exact List.Sublist.refl _)
    have hru := running_say (l := σ.log) (e := .closing c) (by simp) (by simp)
    rw [← hlog] at hru
    have hwt := waiting_same hl h.fn
    have hk : 31 + ((σ.kidsOf c).map (fun d => kost σ (σ.scopes.length - d) d)).sum ≤ kost σ (σ.scopes.length - c) c := by
      obtain ⟨f, hf⟩ : ∃ f, σ.scopes.length - c = f + 1 := ⟨σ.scopes.length - c - 1, by omega⟩
      rw [hf, kost]
      have := sum_le (l := σ.kidsOf c) (f := fun d => kost σ (σ.scopes.length - d) d) (g := kost σ f) (fun d hd => by
        have := hord.kids c d hd
        exact kost_mono σ d (by omega))
      omega
    simp only [cost, List.map_cons, List.map_nil, List.sum_cons, List.sum_nil] at htot
    omega
  | unlink hx h1 h2 h3 h4 =>
    have k := key h4
    have hru := hrun0 rfl
    have hwt := waiting_same hl h1
    simp only [cost, List.map_cons, List.map_nil, List.sum_cons, List.sum_nil] at htot
    omega
  | @remove s n hx hn h1 h2 h3 h4 =>
    have k := key (fun p => by rw [h4]; exact List.Sublist.refl _)
    have hs : s < σ.scopes.length := hw _ (hd.was _ (List.mem_singleton_self _))
    have hsum := sum_range (f := fun s => (σ.fnOf s).length) (g := fun s => (σ'.fnOf s).length) (s := s)
      (fun k hk => by rw [h2 k hk]) hs
    have hru := hrun0 rfl
    simp only [h1, List.length_nil] at hsum
    simp only [cost, List.map_cons, List.map_nil, List.sum_cons, List.sum_nil, List.length_reverse] at htot
    unfold waiting
    rw [hl]
    omega
  | @empty s n h hf =>
    have k := key (fun p => by rw [h.kids]; exact List.Sublist.refl _)
    have hru := hrun0 rfl
    have hwt := waiting_same hl h.fn
    have := hord.tries s n (hd.was _ (List.mem_singleton_self _))
    simp only [cost, List.map_cons, List.map_nil, List.sum_cons, List.sum_nil] at htot
    omega
  | @start s n r rest h =>
    have k := key (fun p => by rw [h.kids]; exact List.Sublist.refl _)
    have hru := running_start (l := σ.log) (s := s) (r := r)
    rw [← hlog] at hru
    have hwt := waiting_same hl h.fn
    simp only [cost, List.map_cons, List.map_nil, List.sum_cons, List.sum_nil, List.length_cons] at htot
    omega
  | finish h hl' hn =>
    have k := key (fun p => by rw [h.kids]; exact List.Sublist.refl _)
    have hru := running_finish hl' hn
    rw [← hlog] at hru
    have hwt := waiting_same hl h.fn
    simp only [List.map_nil, List.sum_nil] at htot
    omega
  | wake h =>
    have k := key (fun p => by rw [h.kids]; exact List.Sublist.refl _)
    have hru := hrun0 rfl
    have hwt := waiting_same hl h.fn
    simp only [cost, List.map_cons, List.map_nil, List.sum_cons, List.sum_nil] at htot
    omega
  | @late s n r rest h =>
    have k := key (fun p => by rw [h.kids]; exact List.Sublist.refl _)
    have hru := running_say (l := σ.log) (e := .late r) (by simp) (by simp)
    rw [← hlog] at hru
    have hwt := waiting_same hl h.fn
    simp only [cost, List.map_cons, List.map_nil, List.sum_cons, List.sum_nil] at htot
    omega
  | @next s n h =>
    have k := key (fun p => by rw [h.kids]; exact List.Sublist.refl _)
    have hru := hrun0 rfl
    have hwt := waiting_same hl h.fn
    have := hord.batch s n _ (hd.was _ (List.mem_singleton_self _))
    simp only [cost, List.map_cons, List.map_nil, List.sum_cons, List.sum_nil, List.length_nil] at htot
    omega
  | @ret s hx h1 h2 h3 h5 h4 =>
    have k := key (fun p => by rw [h4]; exact List.Sublist.refl _)
    have hru := running_say (l := σ.log) (e := .closed s) (by simp) (by simp)
    rw [← hlog] at hru
    have hwt := waiting_same hl h1
    simp only [cost, List.map_cons, List.map_nil, List.sum_cons, List.sum_nil] at htot
    omega

theorem reach_step {σ σ' : CSt} {a : Act} (h : Reach σ) (hs : step σ a = some σ') : Reach σ' := by
  obtain ⟨as, h⟩ := h
  exact ⟨as ++ [a], by rw [run_append, h]; simp [run, hs]⟩

theorem ends : ∀ (as : List Act) (σ σ' : CSt), Reach σ → (∀ a ∈ as, a.goesOn = true) → run σ as = some σ' →
    as.length + σ'.left ≤ σ.left
  | [], σ, σ', _, _, h => by cases h; simp
  | a :: as, σ, σ', hr, hg, h => by
    simp only [run] at h
    split at h
    next τ hs =>
      have he := step_eff hs
      rw [hg a (by simp)] at he
      have := left_lt hr he
      have := ends as τ σ' (reach_step hr hs) (fun b hb => hg b (by simp [hb])) h
      simp only [List.length_cons]
      omega
    next => cases h

/-- **C80** Calls in progress end: if no new call is begun, then, whoever is scheduled, only so many steps are possible,
and when no step is possible any more every call has returned. -/
theorem C80_ends {σ : CSt} (h : Reach σ) : ∃ n, ∀ as σ', (∀ a ∈ as, a.goesOn = true) → run σ as = some σ' →
    as.length ≤ n ∧ ((∀ a, a.goesOn = true → step σ' a = none) → σ'.quiet) := by
  refine ⟨σ.left, fun as σ' hg hrun => ⟨?_, ?_⟩⟩
  · have := ends as σ σ' h hg hrun
    omega
  · intro hn
    refine Classical.byContradiction (fun hq => ?_)
    have hr : Reach σ' := by
      obtain ⟨bs, hb⟩ := h
      exact ⟨bs ++ as, by rw [run_append, hb]; exact hrun⟩
    obtain ⟨a, τ, ha, hs⟩ := C80_progress hr hq
    rw [hn a ha] at hs
    cases hs

/-! ## A closed scope takes nothing -/

theorem reach_inv_reach {P : CSt → Prop} (h0 : P .init) (hs : ∀ σ σ' b, Reach σ → P σ → Eff σ b σ' → P σ') {σ : CSt} (h : Reach σ) :
    P σ := by
  obtain ⟨as, h⟩ := h
  exact run_inv_reach (fun σ σ' b hr hp he => hs σ σ' b hr hp he) as _ _ ⟨[], rfl⟩ h0 h

theorem dead_stays {σ σ' : CSt} {old new : List Frame} {es : List Ev} (hsh : Shape σ σ' old new es) {k : Nat}
    (h : σ.dead k = true) : σ'.dead k = true := by
  cases hsh with
  | idle h' => rw [h'.dead]; exact h
  | copy _ _ h' => rw [h']; exact h
  | refuse h' => rw [h'.dead]; exact h
  | check h' => rw [h'.dead]; exact h
  | append _ _ _ h' => rw [h']; exact h
  | close h' => rw [h'.dead]; exact h
  | child h' => rw [h'.dead]; exact h
  | unlink _ _ h' => rw [h']; exact h
  | remove _ _ _ _ h' => rw [h']; exact h
  | empty h' => rw [h'.dead]; exact h
  | start h' => rw [h'.dead]; exact h
  | finish h' => rw [h'.dead]; exact h
  | wake h' => rw [h'.dead]; exact h
  | late h' => rw [h'.dead]; exact h
  | next h' => rw [h'.dead]; exact h
  | ret _ _ _ h3 => exact h3 k h

/-- Every later event of a scope that is closed is no `accepted`. -/
theorem refuses_step {σ σ' : CSt} {b : Bool} (hr : Reach σ) (h : Eff σ b σ') {s : Nat} (hd : σ.dead s = true)
    (hn : ¬ σ.has (.adding s)) : σ'.dead s = true ∧ ¬ σ'.has (.adding s) ∧ ∀ r, .accepted s r ∈ σ'.log → .accepted s r ∈ σ.log := by
  obtain ⟨old, new, es, ⟨hm, _⟩, hsh⟩ := h.move (reach_wf hr)
  refine ⟨dead_stays hsh hd, ?_, ?_⟩
  · intro hf
    rcases hm.fwd _ hf with h1 | h1
    · cases hsh <;> simp only [List.mem_cons, List.not_mem_nil, or_false, reduceCtorEq, Frame.adding.injEq, false_or] at h1
      case check k h2 h3 h4 =>
        subst h1
        rw [hd] at h3
        cases h3
    · exact hn h1
  · intro r hr'
    rw [hm.log, List.mem_append] at hr'
    refine hr'.resolve_right (fun h1 => ?_)
    cases hsh <;> simp only [List.mem_cons, List.not_mem_nil, or_false, reduceCtorEq, Ev.accepted.injEq, false_or] at h1
    case append k _ _ _ _ _ =>
      rw [h1.1] at hn
      exact hn (hm.was _ (List.mem_singleton_self _))

/-- **C80** A scope that was closed takes no destructor: calls of `AddDestructor` that begin after `Close` has returned are
refused, whatever else happens. -/
theorem C80_closed_refuses {σ : CSt} (h : Reach σ) {s : Nat} (hd : σ.dead s = true) (hn : ¬ σ.has (.adding s)) :
    ∀ (as : List Act) (σ' : CSt), run σ as = some σ' → ∀ r, .accepted s r ∈ σ'.log → .accepted s r ∈ σ.log := by
  intro as
  induction as generalizing σ with
  | nil => intro σ' hr r; cases hr; exact id
  | cons a as ih =>
    intro σ' hr r hm
    simp only [run] at hr
    split at hr
    next τ hs =>
      obtain ⟨h1, h2, h3⟩ := refuses_step h (step_eff hs) hd hn
      exact h3 r (ih (reach_step h hs) h1 h2 σ' hr r hm)
    next => cases hr

/-- **C80** What `closed` in the log means: the scope is closed from then on. -/
theorem C80_closed {σ : CSt} (h : Reach σ) {s : Nat} (hc : .closed s ∈ σ.log) : σ.dead s = true := by
  revert hc
  refine reach_inv_reach (P := fun σ => .closed s ∈ σ.log → σ.dead s = true) (by intro h; cases h) ?_ h
  intro σ σ' b hr hp he hm
  obtain ⟨old, new, es, ⟨hd, _⟩, hsh⟩ := he.move (reach_wf hr)
  rw [hd.log, List.mem_append] at hm
  rcases hm with hm | hm
  · exact dead_stays hsh (hp hm)
  · cases hsh <;> simp only [List.mem_cons, List.not_mem_nil, or_false, reduceCtorEq, Ev.closed.injEq] at hm
    case ret k h2 _ _ _ _ => rw [hm]; assumption

/-! ## What is not so -/

theorem reach_of {as : List Act} {P : CSt → Prop} (h : ∃ σ, run .init as = some σ ∧ P σ) : ∃ σ, Reach σ ∧ P σ := by
  obtain ⟨σ, h1, h2⟩ := h
  exact ⟨σ, ⟨as, h1⟩, h2⟩

def final (as : List Act) : CSt := (run .init as).getD .init

theorem reach_final {as : List Act} (h : (run .init as).isSome = true) : Reach (final as) := by
  cases e : run .init as with
  | none => rw [e] at h; cases h
  | some σ => exact ⟨as, by rw [final, e]; rfl⟩

instance (σ : CSt) : Decidable σ.quiet := by unfold CSt.quiet; infer_instance

/-- The scope is closed by one goroutine; another one registers a destructor between the last look for
destructors and the return of `Close`. -/
def lostRun : List Act :=
  [.root, .spawn, .spawn, .close 0 0, .unlink 0, .remove 0, .check 1 0, .append 1, .ret 0]

/-- **C80** An accepted destructor can be lost: it was accepted before `Close` returned, the scope is closed, all calls
have returned, and it has not been started and is not refused either. -/
theorem C80_lost_refuted : ∃ σ, Reach σ ∧ σ.quiet ∧ σ.dead 0 = true ∧ Before σ.log (.accepted 0 0) (.closed 0) ∧
    .started 0 0 ∉ σ.log ∧ .refused 0 ∉ σ.log := by
  have e : (final lostRun).log = [.closing 0, .accepted 0 0] ++ .closed 0 :: [] := by decide
  exact ⟨final lostRun, reach_final (by decide), by decide, by decide, ⟨_, _, e, by decide⟩, by decide, by decide⟩

/-- Two goroutines close the scope. -/
def twoRun : List Act :=
  [.root, .spawn, .spawn, .check 0 0, .append 0, .close 0 0, .unlink 0, .remove 0, .close 1 0, .unlink 1, .remove 1, .ret 1]

/-- **C80** `Close` may return, and the scope be closed, before a destructor registered earlier was started: another
`Close` has taken it. -/
theorem C80_returns_early_refuted : ∃ σ, Reach σ ∧ σ.dead 0 = true ∧ Before σ.log (.accepted 0 0) (.closing 0) ∧
    .closed 0 ∈ σ.log ∧ .started 0 0 ∉ σ.log := by
  have e : (final twoRun).log = [.accepted 0 0] ++ .closing 0 :: [.closing 0, .closed 0] := by decide
  exact ⟨final twoRun, reach_final (by decide), by decide, ⟨_, _, e, by decide⟩, by decide, by decide⟩

/-- A copy is made while `Close` is running. -/
def missedRun : List Act := [.root, .spawn, .close 0 0, .copy 0, .unlink 0, .remove 0, .ret 0]

/-- **C80** A scope copied before `Close` of its parent returned may stay open. -/
theorem C80_copy_missed_refuted : ∃ σ, Reach σ ∧ σ.quiet ∧ σ.dead 0 = true ∧ Before σ.log (.copied 0 1) (.closed 0) ∧
    σ.dead 1 = false := by
  have e : (final missedRun).log = [.closing 0, .copied 0 1] ++ .closed 0 :: [] := by decide
  exact ⟨final missedRun, reach_final (by decide), by decide, by decide, ⟨_, _, e, by decide⟩, by decide⟩

/-- The child is being closed by one goroutine when another one closes the parent. -/
def orphanRun : List Act :=
  [.root, .copy 0, .spawn, .spawn, .check 0 1, .append 0, .check 0 0, .append 0, .close 0 1, .unlink 0, .close 1 0, .unlink 1,
   .remove 1, .start 1]

/-- **C80** A destructor of the parent may be started before one of the child: a child that another goroutine is
closing is not waited for. -/
theorem C80_child_first_refuted : ∃ σ, Reach σ ∧ Before σ.log (.copied 0 1) (.closing 0) ∧
    Before σ.log (.accepted 1 0) (.closing 0) ∧ .started 0 1 ∈ σ.log ∧ .started 1 0 ∉ σ.log := by
  have e : (final orphanRun).log = [.copied 0 1, .accepted 1 0, .accepted 0 1, .closing 1] ++ .closing 0 :: [.started 0 1] := by
    decide
  exact ⟨final orphanRun, reach_final (by decide), ⟨_, _, e, by decide⟩, ⟨_, _, e, by decide⟩, by decide, by decide⟩

/-! ## Examples -/

/-- Two goroutines close a scope with a child; one of the destructors takes too long. -/
def fullRun : List Act :=
  [.root, .copy 0, .spawn, .spawn, .check 0 0, .append 0, .check 0 0, .append 0, .check 0 1, .append 0, .close 0 0, .close 1 0,
   .child 0, .child 1, .unlink 0, .unlink 1, .remove 0, .remove 1, .start 0, .ret 1, .unlink 1, .finish 1 2, .wake 0, .next 0,
   .remove 0, .ret 0, .unlink 0, .remove 0, .start 0, .finish 0 1, .wake 0, .start 0, .late 0, .next 0, .remove 0, .ret 0,
   .remove 1, .ret 1, .finish 0 0]

/-- The hypotheses of `C80_child`, `C80_all_run_partial` and `C80_reverse_partial` are met by a run of two goroutines. -/
example : Reach (final fullRun) ∧ (final fullRun).quiet ∧ Before (final fullRun).log (.copied 0 1) (.closing 0) ∧
    (final fullRun).dead 1 = true ∧ InOrder (final fullRun).log 0 0 1 ∧ .started 0 0 ∈ (final fullRun).log ∧
    .late 0 ∈ (final fullRun).log ∧ Descends (final fullRun).log 0 1 := by
  have e : ∃ l, (final fullRun).log = [.copied 0 1, .accepted 0 0] ++ .accepted 0 1 :: l := ⟨(final fullRun).log.drop 3, by decide⟩
  have e' : ∃ l, (final fullRun).log = [.copied 0 1, .accepted 0 0, .accepted 0 1, .accepted 1 2] ++ .closing 0 :: l := ⟨(final fullRun).log.drop 5, by decide⟩
  have e'' : ∃ l, (final fullRun).log = [] ++ .copied 0 1 :: l := ⟨(final fullRun).log.drop 1, by decide⟩
  obtain ⟨l, e⟩ := e
  obtain ⟨l', e'⟩ := e'
  obtain ⟨l'', e''⟩ := e''
  exact ⟨reach_final (by decide), by decide, ⟨_, _, e', by decide⟩, by decide, ⟨_, _, e, by decide, by decide⟩, by decide,
    by decide, .copy .self ⟨_, _, e'', by decide⟩⟩

/-- A closed scope, no call of `AddDestructor` in progress (`C80_closed_refuses`). -/
example : .closed 0 ∈ (final missedRun).log ∧ (final missedRun).dead 0 = true ∧ ¬ (final missedRun).has (.adding 0) :=
  ⟨by decide, by decide, quiet_has (by decide) _⟩

/-- A state in which calls are in progress (`C80_progress`). -/
example : Reach (final twoRun) ∧ ¬ (final twoRun).quiet := ⟨reach_final (by decide), by decide⟩

end Vfilter.ScopeConc
