import Verif.ScopeConc
/-!
# C80 Closing scopes from several goroutines
-/
set_option linter.all false

namespace Vfilter.ScopeConc

/-! ## The steps as a relation -/

/-- What a step does; the flag tells whether it goes on with a call. -/
inductive Eff (σ : CSt) : Bool → CSt → Prop where
  | root : Eff σ false { σ with scopes := σ.scopes ++ [Sc.mk none [] 0 [] false] }
  | spawn : Eff σ false { σ with threads := σ.threads ++ [[]] }
  | copy {s x} (h : σ.scopes[s]? = some x) :
      Eff σ false (CSt.say { σ with scopes := σ.scopes.modify s (link σ.scopes.length) ++ [Sc.mk (some s) [] 0 [] false] }
        (.copied s σ.scopes.length))
  | refuse {s x} (h : σ.scopes[s]? = some x) (hd : x.destroyed = true) : Eff σ false (σ.say (.refused s))
  | check {i s x} (h : σ.threads[i]? = some []) (h2 : σ.scopes[s]? = some x) (hd : x.destroyed = false) : Eff σ false (σ.put i [.adding s])
  | append {i s st} (h : σ.threads[i]? = some (.adding s :: st)) :
      Eff σ true ((((σ.put i st).onSc s (fun x => { x with fn := x.fn ++ [σ.next] })).say (.accepted s σ.next)).count)
  | close {i s x} (h : σ.threads[i]? = some []) (h2 : σ.scopes[s]? = some x) :
      Eff σ false ((σ.put i [.kids s (x.children.filterMap id)]).say (.closing s))
  | child {i s c todo st x} (h : σ.threads[i]? = some (.kids s (c :: todo) :: st)) (h2 : σ.scopes[c]? = some x) :
      Eff σ true ((σ.put i (.kids c (x.children.filterMap id) :: .kids s todo :: st)).say (.closing c))
  | leave {i s st} (h : σ.threads[i]? = some (.kids s [] :: st)) : Eff σ true (σ.put i (.tries s 0 :: st))
  | unlink {i s st p} (h : σ.threads[i]? = some (.kids s [] :: st)) :
      Eff σ true ((σ.put i (.tries s 0 :: st)).onSc p (clear s))
  | remove {i s n st x} (h : σ.threads[i]? = some (.tries s n :: st)) (h2 : σ.scopes[s]? = some x) (hn : n < 10)
      (hf : x.fn ≠ []) :
      Eff σ true ((σ.put i (.batch s n x.fn.reverse :: st)).onSc s (fun x => { x with fn := [] }))
  | empty {i s n st x} (h : σ.threads[i]? = some (.tries s n :: st)) (h2 : σ.scopes[s]? = some x)
      (hf : ¬(n < 10 ∧ x.fn ≠ [])) : Eff σ true (σ.put i (.done s :: st))
  | start {i s n r rest st} (h : σ.threads[i]? = some (.batch s n (r :: rest) :: st)) :
      Eff σ true ((σ.put i (.wait s n r rest :: st)).say (.started s r))
  | finish {s r} (h : .started s r ∈ σ.log) (hn : .finished r ∉ σ.log) : Eff σ true (σ.say (.finished r))
  | wake {i s n r rest st} (h : σ.threads[i]? = some (.wait s n r rest :: st)) (hf : .finished r ∈ σ.log) :
      Eff σ true (σ.put i (.batch s n rest :: st))
  | late {i s n r rest st} (h : σ.threads[i]? = some (.wait s n r rest :: st)) :
      Eff σ true ((σ.put i (.batch s n rest :: st)).say (.late r))
  | next {i s n st} (h : σ.threads[i]? = some (.batch s n [] :: st)) : Eff σ true (σ.put i (.tries s (n + 1) :: st))
  | ret {i s st} (h : σ.threads[i]? = some (.done s :: st)) :
      Eff σ true (((σ.put i st).onSc s (fun x => { x with destroyed := true })).say (.closed s))

theorem step_eff {σ σ' : CSt} {a : Act} (h : step σ a = some σ') : Eff σ a.goesOn σ' := by
  cases a with
  | root => cases h; exact .root
  | spawn => cases h; exact .spawn
  | copy s =>
    simp only [step] at h
    split at h
    · rename_i x hx
      split at h
      · cases h; exact .copy hx
      · cases h
    · cases h
  | refuse s =>
    simp only [step] at h
    split at h
    · rename_i x hx
      split at h
      · rename_i hc
        cases h; exact .refuse hx (by simp_all)
      · cases h
    · cases h
  | check i s =>
    simp only [step] at h
    split at h
    · rename_i x h1 h2
      split at h
      next hd =>
        cases h
        refine .check h1 h2 ?_
        rw [Bool.and_eq_true] at hd
        simpa using hd.1
      · cases h
    · cases h
  | append i =>
    simp only [step] at h
    split at h
    · rename_i s st h1
      cases h; exact .append h1
    · cases h
  | close i s =>
    simp only [step] at h
    split at h
    · rename_i x h1 h2
      split at h
      · cases h; exact .close h1 h2
      · cases h
    · cases h
  | child i =>
    simp only [step] at h
    split at h
    · rename_i s c todo st h1
      split at h
      · rename_i x h2
        split at h
        · cases h; exact .child h1 h2
        · cases h
      · cases h
    · cases h
  | unlink i =>
    simp only [step] at h
    split at h
    · rename_i s st h1
      split at h
      · rename_i x h2
        split at h
        · cases h; exact .leave h1
        · split at h
          · cases h; exact .unlink h1
          · cases h
      · cases h
    · cases h
  | remove i =>
    simp only [step] at h
    split at h
    · rename_i s n st h1
      split at h
      · rename_i x h2
        split at h
        · rename_i hc
          cases h; exact .remove h1 h2 hc.1 hc.2
        · rename_i hc
          cases h; exact .empty h1 h2 hc
      · cases h
    · cases h
  | start i =>
    simp only [step] at h
    split at h
    · rename_i h1
      cases h; exact .start h1
    · cases h
  | finish s r =>
    simp only [step] at h
    split at h
    · rename_i hc
      cases h; exact .finish hc.1 hc.2
    · cases h
  | wake i =>
    simp only [step] at h
    split at h
    · rename_i h1
      split at h
      · rename_i hc
        cases h; exact .wake h1 hc
      · cases h
    · cases h
  | late i =>
    simp only [step] at h
    split at h
    · rename_i h1
      cases h; exact .late h1
    · cases h
  | next i =>
    simp only [step] at h
    split at h
    · rename_i h1
      cases h; exact .next h1
    · cases h
  | ret i =>
    simp only [step] at h
    split at h
    · rename_i h1
      cases h; exact .ret h1
    · cases h

theorem run_inv {P : CSt → Prop} (hs : ∀ σ σ' b, P σ → Eff σ b σ' → P σ') : ∀ (as : List Act) (σ σ' : CSt), P σ →
    run σ as = some σ' → P σ'
  | [], σ, σ', h, hr => by cases hr; exact h
  | a :: as, σ, σ', h, hr => by
    simp only [run] at hr
    split at hr
    · rename_i σ1 h1
      exact run_inv hs as σ1 σ' (hs _ _ _ h (step_eff h1)) hr
    · cases hr

/-- What holds at the beginning and is kept by every step holds in every state that can be reached. -/
theorem reach_inv {P : CSt → Prop} (h0 : P .init) (hs : ∀ σ σ' b, P σ → Eff σ b σ' → P σ') {σ : CSt} (h : Reach σ) :
    P σ := by
  obtain ⟨as, h⟩ := h
  exact run_inv hs as _ _ h0 h

/-! ## Reading the state -/

/-- The scope of the call. -/
def Frame.scope : Frame → Nat
  | .adding s | .kids s _ | .tries s _ | .batch s _ _ | .wait s _ _ _ | .done s => s

/-- The call is a `Close`. -/
def Frame.closes : Frame → Bool
  | .adding _ => false
  | _ => true

/-- The destructors the call has taken and not started. -/
def Frame.held : Frame → List Nat
  | .batch _ _ l | .wait _ _ _ l => l
  | _ => []

/-- Some goroutine is in the call. -/
def CSt.has (σ : CSt) (f : Frame) : Prop := ∃ st ∈ σ.threads, f ∈ st

theorem has_top {σ : CSt} {i : Nat} {st : List Frame} {f : Frame} (h : σ.threads[i]? = some st) (hf : f ∈ st) :
    σ.has f := ⟨st, List.mem_of_getElem? h, hf⟩

/-- Calls after goroutine `i` has changed its own. -/
theorem has_set {σ : CSt} {i : Nat} {st st' : List Frame} {f : Frame} (h : σ.threads[i]? = some st) :
    (∃ t ∈ σ.threads.set i st', f ∈ t) ↔ f ∈ st' ∨ ∃ j t, j ≠ i ∧ σ.threads[j]? = some t ∧ f ∈ t := by
  have hi : i < σ.threads.length := (List.getElem?_eq_some_iff.1 h).1
  constructor
  · rintro ⟨t, ht, hf⟩
    obtain ⟨j, hj⟩ := List.mem_iff_getElem?.1 ht
    rw [List.getElem?_set] at hj
    split at hj
    · simp only [hi, if_true, Option.some.injEq] at hj
      subst hj; exact .inl hf
    · rename_i hne
      exact .inr ⟨j, t, fun e => hne e.symm, hj, hf⟩
  · rintro (hf | ⟨j, t, hne, hj, hf⟩)
    · exact ⟨st', List.mem_of_getElem? (by simp [hi] : (σ.threads.set i st')[i]? = some st'), hf⟩
    · refine ⟨t, List.mem_of_getElem? (i := j) ?_, hf⟩
      rw [List.getElem?_set_ne (fun e => hne e.symm)]
      exact hj

theorem has_split {σ : CSt} {i : Nat} {st : List Frame} {f : Frame} (h : σ.threads[i]? = some st) :
    σ.has f ↔ f ∈ st ∨ ∃ j t, j ≠ i ∧ σ.threads[j]? = some t ∧ f ∈ t := by
  constructor
  · rintro ⟨t, ht, hf⟩
    obtain ⟨j, hj⟩ := List.mem_iff_getElem?.1 ht
    by_cases e : j = i
    · subst e
      rw [hj] at h
      cases h
      exact .inl hf
    · exact .inr ⟨j, t, e, hj, hf⟩
  · rintro (hf | ⟨j, t, _, hj, hf⟩)
    · exact has_top h hf
    · exact has_top hj hf

/-- Goroutine `i` replaces its calls `old` by `new` and goes on with `st`: the calls of the others stay. -/
theorem has_put {σ : CSt} {i : Nat} {f : Frame} {old new st : List Frame} (h : σ.threads[i]? = some (old ++ st)) :
    ((σ.put i (new ++ st)).has f → f ∈ new ∨ σ.has f) ∧ (σ.has f → f ∈ old ∨ (σ.put i (new ++ st)).has f) := by
  constructor
  · intro hf
    rcases (has_set h).1 hf with h1 | h1
    · rcases List.mem_append.1 h1 with h1 | h1
      · exact .inl h1
      · exact .inr (has_top h (List.mem_append_right _ h1))
    · exact .inr ((has_split h).2 (.inr h1))
  · intro hf
    rcases (has_split h).1 hf with h1 | h1
    · rcases List.mem_append.1 h1 with h1 | h1
      · exact .inl h1
      · exact .inr ((has_set h).2 (.inl (List.mem_append_right _ h1)))
    · exact .inr ((has_set h).2 (.inr h1))

theorem has_new {σ : CSt} {i : Nat} {f : Frame} {st st' : List Frame} (h : σ.threads[i]? = some st) (hf : f ∈ st') :
    (σ.put i st').has f := (has_set h).2 (.inl hf)

/-- The sum of a measure over all calls. -/
def CSt.total (σ : CSt) (w : Frame → Nat) : Nat := (σ.threads.map (fun st => (st.map w).sum)).sum

theorem total_set (w : Frame → Nat) {old new st : List Frame} : ∀ (l : List (List Frame)) (i : Nat), l[i]? = some (old ++ st) →
    ((l.set i (new ++ st)).map (fun st => (st.map w).sum)).sum + (old.map w).sum =
      (l.map (fun st => (st.map w).sum)).sum + (new.map w).sum
  | [], i, h => by simp at h
  | a :: l, 0, h => by
    simp only [List.getElem?_cons_zero, Option.some.injEq] at h
    subst h
    simp only [List.set_cons_zero, List.map_cons, List.sum_cons, List.map_append, List.sum_append]
    omega
  | a :: l, i + 1, h => by
    have := total_set (new := new) w l i (by simpa using h)
    simp only [List.set_cons_succ, List.map_cons, List.sum_cons]
    omega

/-! ## One summary of all steps -/

/-- The destructors registered and not taken. -/
def CSt.fnOf (σ : CSt) (s : Nat) : List Nat := match σ.scopes[s]? with | some x => x.fn | none => []
/-- `IsClosed` (scope/scope.go:484-489). -/
def CSt.dead (σ : CSt) (s : Nat) : Bool := match σ.scopes[s]? with | some x => x.destroyed | none => false
/-- The children a `Close` beginning now closes. -/
def CSt.kidsOf (σ : CSt) (s : Nat) : List Nat :=
  match σ.scopes[s]? with | some x => x.children.filterMap id | none => []

/-- The scopes have the same destructors and children and are closed as before. -/
structure Same (σ σ' : CSt) : Prop where
  next : σ'.next = σ.next
  fn : ∀ k, σ'.fnOf k = σ.fnOf k
  dead : ∀ k, σ'.dead k = σ.dead k
  kids : ∀ k, σ'.kidsOf k = σ.kidsOf k

/-- What changes in a step, as far as calls and the log are concerned. -/
structure Delta (σ σ' : CSt) (old new : List Frame) (es : List Ev) : Prop where
  log : σ'.log = σ.log ++ es
  fwd : ∀ f, σ'.has f → f ∈ new ∨ σ.has f
  bwd : ∀ f, σ.has f → f ∈ old ∨ σ'.has f
  now : ∀ f ∈ new, σ'.has f
  was : ∀ f ∈ old, σ.has f
  tot : ∀ w : Frame → Nat, σ'.total w + (old.map w).sum = σ.total w + (new.map w).sum

/-- What changes in the scopes. -/
inductive Shape (σ σ' : CSt) : List Frame → List Frame → List Ev → Prop where
  | idle (h : Same σ σ') : Shape σ σ' [] [] []
  | copy {s c} (hx : σ'.next = σ.next) (h1 : ∀ k, σ'.fnOf k = σ.fnOf k) (h2 : ∀ k, σ'.dead k = σ.dead k) (hc : c = σ.scopes.length)
      (h3 : σ'.kidsOf s = σ.kidsOf s ++ [c]) (h4 : ∀ k, k ≠ s → σ'.kidsOf k = σ.kidsOf k) : Shape σ σ' [] [] [.copied s c]
  | refuse {s} (h : Same σ σ') (hd : σ.dead s = true) : Shape σ σ' [] [] [.refused s]
  | check {s} (h : Same σ σ') (hs : s < σ.scopes.length) (ho : σ.dead s = false) : Shape σ σ' [] [.adding s] []
  | append {s} (hx : σ'.next = σ.next + 1) (h1 : σ'.fnOf s = σ.fnOf s ++ [σ.next]) (h2 : ∀ k, k ≠ s → σ'.fnOf k = σ.fnOf k)
      (h3 : ∀ k, σ'.dead k = σ.dead k) (h4 : ∀ k, σ'.kidsOf k = σ.kidsOf k) :
      Shape σ σ' [.adding s] [] [.accepted s σ.next]
  | close {s} (h : Same σ σ') (hs : s < σ.scopes.length) : Shape σ σ' [] [.kids s (σ.kidsOf s)] [.closing s]
  | child {s c todo} (h : Same σ σ') (hc : c < σ.scopes.length) :
      Shape σ σ' [.kids s (c :: todo)] [.kids c (σ.kidsOf c), .kids s todo] [.closing c]
  | unlink {s} (hx : σ'.next = σ.next) (h1 : ∀ k, σ'.fnOf k = σ.fnOf k) (h2 : ∀ k, σ'.dead k = σ.dead k)
      (h3 : ∀ p c, c ≠ s → c ∈ σ.kidsOf p → c ∈ σ'.kidsOf p) (h4 : ∀ p, (σ'.kidsOf p).Sublist (σ.kidsOf p)) : Shape σ σ' [.kids s []] [.tries s 0] []
  | remove {s n} (hx : σ'.next = σ.next) (hn : n < 10) (h1 : σ'.fnOf s = []) (h2 : ∀ k, k ≠ s → σ'.fnOf k = σ.fnOf k) (h3 : ∀ k, σ'.dead k = σ.dead k)
      (h4 : ∀ k, σ'.kidsOf k = σ.kidsOf k) : Shape σ σ' [.tries s n] [.batch s n (σ.fnOf s).reverse] []
  | empty {s n} (h : Same σ σ') (hf : ¬(n < 10 ∧ σ.fnOf s ≠ [])) : Shape σ σ' [.tries s n] [.done s] []
  | start {s n r rest} (h : Same σ σ') : Shape σ σ' [.batch s n (r :: rest)] [.wait s n r rest] [.started s r]
  | finish {s r} (h : Same σ σ') (hl : .started s r ∈ σ.log) (hn : .finished r ∉ σ.log) : Shape σ σ' [] [] [.finished r]
  | wake {s n r rest} (h : Same σ σ') (hl : .finished r ∈ σ.log) : Shape σ σ' [.wait s n r rest] [.batch s n rest] []
  | late {s n r rest} (h : Same σ σ') : Shape σ σ' [.wait s n r rest] [.batch s n rest] [.late r]
  | next {s n} (h : Same σ σ') : Shape σ σ' [.batch s n []] [.tries s (n + 1)] []
  | ret {s} (hx : σ'.next = σ.next) (h1 : ∀ k, σ'.fnOf k = σ.fnOf k) (h2 : σ'.dead s = true) (h3 : ∀ k, σ.dead k = true → σ'.dead k = true)
      (h5 : ∀ k, k ≠ s → σ'.dead k = σ.dead k) (h4 : ∀ k, σ'.kidsOf k = σ.kidsOf k) : Shape σ σ' [.done s] [] [.closed s]

/-! ### Scopes of the changed state -/

theorem getElem?_onSc (σ : CSt) (p k : Nat) (f : Sc → Sc) :
    (σ.onSc p f).scopes[k]? = if p = k then (σ.scopes[k]?).map f else σ.scopes[k]? := by
  simp only [CSt.onSc, List.getElem?_modify]
  split <;> cases σ.scopes[k]? <;> rfl

theorem fnOf_onSc {σ : CSt} {p : Nat} {f : Sc → Sc} (h : ∀ x, (f x).fn = x.fn) (k : Nat) :
    (σ.onSc p f).fnOf k = σ.fnOf k := by
  unfold CSt.fnOf
  rw [getElem?_onSc]
  by_cases e : p = k
  · rw [if_pos e]
    cases σ.scopes[k]? <;> simp [h]
  · rw [if_neg e]

theorem dead_onSc {σ : CSt} {p : Nat} {f : Sc → Sc} (h : ∀ x, (f x).destroyed = x.destroyed) (k : Nat) :
    (σ.onSc p f).dead k = σ.dead k := by
  unfold CSt.dead
  rw [getElem?_onSc]
  by_cases e : p = k
  · rw [if_pos e]
    cases σ.scopes[k]? <;> simp [h]
  · rw [if_neg e]

theorem kidsOf_onSc {σ : CSt} {p : Nat} {f : Sc → Sc} (h : ∀ x, (f x).children = x.children) (k : Nat) :
    (σ.onSc p f).kidsOf k = σ.kidsOf k := by
  unfold CSt.kidsOf
  rw [getElem?_onSc]
  by_cases e : p = k
  · rw [if_pos e]
    cases σ.scopes[k]? <;> simp [h]
  · rw [if_neg e]

theorem onSc_ne {σ : CSt} {p : Nat} {f : Sc → Sc} {k : Nat} (h : k ≠ p) :
    (σ.onSc p f).fnOf k = σ.fnOf k ∧ (σ.onSc p f).dead k = σ.dead k ∧ (σ.onSc p f).kidsOf k = σ.kidsOf k := by
  unfold CSt.fnOf CSt.dead CSt.kidsOf
  rw [getElem?_onSc, if_neg (fun e => h e.symm)]
  exact ⟨rfl, rfl, rfl⟩

theorem same_of_scopes {σ σ' : CSt} (h : σ'.scopes = σ.scopes) (hx : σ'.next = σ.next) : Same σ σ' :=
  ⟨hx, fun k => by simp only [CSt.fnOf, h], fun k => by simp only [CSt.dead, h], fun k => by simp only [CSt.kidsOf, h]⟩

theorem same_push (σ : CSt) (p : Option Nat) (l : List Sc) (k : Nat) :
    (match (l ++ [Sc.mk p [] 0 [] false])[k]? with | some x => x.fn | none => []) =
        (match l[k]? with | some x => x.fn | none => []) ∧
    (match (l ++ [Sc.mk p [] 0 [] false])[k]? with | some x => x.destroyed | none => false) =
        (match l[k]? with | some x => x.destroyed | none => false) ∧
    (match (l ++ [Sc.mk p [] 0 [] false])[k]? with | some x => x.children.filterMap id | none => []) =
        (match l[k]? with | some x => x.children.filterMap id | none => []) := by
  rcases Nat.lt_trichotomy k l.length with h | h | h
  · rw [List.getElem?_append_left h]; exact ⟨rfl, rfl, rfl⟩
  · subst h
    simp
  · rw [List.getElem?_eq_none (by simp; omega), List.getElem?_eq_none (by omega)]
    exact ⟨rfl, rfl, rfl⟩

theorem kids_link (c : Nat) (x : Sc) : (link c x).children.filterMap id = x.children.filterMap id ++ [c] := by
  have h : ∀ l : List (Option Nat), (l.filter (·.isSome)).filterMap id = l.filterMap id := by
    intro l
    induction l with
    | nil => rfl
    | cons a l ih => cases a <;> simp [ih]
  unfold link compact
  split <;> simp [h]

theorem kids_clear {c s : Nat} {x : Sc} (h : c ≠ s) (hc : c ∈ x.children.filterMap id) :
    c ∈ (clear s x).children.filterMap id := by
  simp only [List.mem_filterMap, id_eq, exists_eq_right] at hc ⊢
  unfold clear
  simp only [List.mem_map]
  exact ⟨some c, hc, by simp [h]⟩

theorem kids_clear_sub (s : Nat) (x : Sc) :
    ((clear s x).children.filterMap id).Sublist (x.children.filterMap id) := by
  show ((x.children.map (fun k => if k = some s then none else k)).filterMap id).Sublist _
  induction x.children with
  | nil => exact List.Sublist.refl _
  | cons a l ih =>
    by_cases e : a = some s
    · subst e
      simpa using ih.trans (List.sublist_cons_self _ _)
    · cases a with
      | none => simpa using ih
      | some k =>
        simp only [List.map_cons, if_neg e, List.filterMap_cons, id_eq]
        exact ih.cons_cons k

/-! ### Every step is one of these -/

/-- Calls are about scopes that exist. -/
def WF (σ : CSt) : Prop := ∀ f, σ.has f → f.scope < σ.scopes.length

theorem lt_of_get {α : Type} {l : List α} {i : Nat} {x : α} (h : l[i]? = some x) : i < l.length :=
  (List.getElem?_eq_some_iff.1 h).1

theorem Delta.put {σ : CSt} {i : Nat} {old new st : List Frame} (h : σ.threads[i]? = some (old ++ st)) (σ' : CSt)
    (es : List Ev) (ht : σ'.threads = (σ.put i (new ++ st)).threads) (hl : σ'.log = σ.log ++ es) :
    Delta σ σ' old new es := by
  have e : ∀ f, σ'.has f ↔ (σ.put i (new ++ st)).has f := fun f => by unfold CSt.has; rw [ht]
  exact ⟨hl, fun f hf => (has_put h).1 ((e f).1 hf), fun f hf => ((has_put h).2 hf).imp id (e f).2,
    fun f hf => (e f).2 (has_new h (List.mem_append_left _ hf)), fun f hf => has_top h (List.mem_append_left _ hf), fun w => by
      unfold CSt.total; rw [ht]; exact total_set w _ _ h⟩

theorem Delta.stay {σ : CSt} (σ' : CSt) (es : List Ev) (ht : ∀ f, σ'.has f ↔ σ.has f)
    (hs : ∀ w, σ'.total w = σ.total w) (hl : σ'.log = σ.log ++ es) : Delta σ σ' [] [] es :=
  ⟨hl, fun f hf => .inr ((ht f).1 hf), fun f hf => .inr ((ht f).2 hf), (by intro f hf; cases hf), (by intro f hf; cases hf),
    fun w => by simp [hs]⟩

theorem dput {σ : CSt} {i : Nat} {old new st : List Frame} {b : Bool} (h : σ.threads[i]? = some (old ++ st)) (σ' : CSt)
    (es : List Ev) (ht : σ'.threads = (σ.put i (new ++ st)).threads) (hl : σ'.log = σ.log ++ es)
    (hb : b = true → old ≠ [] ∨ ∃ r, es = [.finished r] := by simp) :
    Delta σ σ' old new es ∧ (b = true → old ≠ [] ∨ ∃ r, es = [.finished r]) := ⟨.put h σ' es ht hl, hb⟩

theorem dstay {σ : CSt} {b : Bool} (σ' : CSt) (es : List Ev) (ht : ∀ f, σ'.has f ↔ σ.has f)
    (hs : ∀ w, σ'.total w = σ.total w) (hl : σ'.log = σ.log ++ es)
    (hb : b = true → ([] : List Frame) ≠ [] ∨ ∃ r, es = [.finished r] := by simp) :
    Delta σ σ' [] [] es ∧ (b = true → ([] : List Frame) ≠ [] ∨ ∃ r, es = [.finished r]) := ⟨.stay σ' es ht hs hl, hb⟩

theorem Eff.move {σ σ' : CSt} {b : Bool} (hw : WF σ) (h : Eff σ b σ') : ∃ old new es, (Delta σ σ' old new es ∧ (b = true → old ≠ [] ∨ ∃ r, es = [.finished r])) ∧ Shape σ σ' old new es := by
  cases h with
  | root =>
    refine ⟨[], [], [], dstay _ [] (fun _ => Iff.rfl) (fun _ => rfl) (by simp), .idle ⟨rfl, fun k => ?_, fun k => ?_, fun k => ?_⟩⟩
    · exact (same_push σ none σ.scopes k).1
    · exact (same_push σ none σ.scopes k).2.1
    · exact (same_push σ none σ.scopes k).2.2
  | spawn =>
    refine ⟨[], [], [], dstay _ [] (fun f => ?_) (fun w => by simp [CSt.total]) (by simp), .idle (same_of_scopes rfl rfl)⟩
    unfold CSt.has
    simp
  | @copy s x h =>
    refine ⟨[], [], _, dstay _ [_] (fun f => Iff.rfl) (fun _ => rfl) rfl, ?_⟩
    have hm : ∀ k, k ≠ s → (σ.scopes.modify s (link σ.scopes.length))[k]? = σ.scopes[k]? := by
      intro k hk
      rw [List.getElem?_modify]
      cases σ.scopes[k]? <;> simp [Ne.symm hk]
    have hs : (σ.scopes.modify s (link σ.scopes.length))[s]? = some (link σ.scopes.length x) := by
      rw [List.getElem?_modify, h]; simp
    refine .copy rfl (fun k => ?_) (fun k => ?_) rfl ?_ (fun k hk => ?_)
    · refine ((same_push σ (some s) _ k).1).trans ?_
      by_cases e : k = s
      · subst e; rw [hs]; unfold CSt.fnOf; rw [h]; show (link _ x).fn = _; unfold link compact; dsimp only; split <;> rfl
      · rw [hm k e]; rfl
    · refine ((same_push σ (some s) _ k).2.1).trans ?_
      by_cases e : k = s
      · subst e; rw [hs]; unfold CSt.dead; rw [h]; show (link _ x).destroyed = _; unfold link compact; dsimp only; split <;> rfl
      · rw [hm k e]; rfl
    · refine ((same_push σ (some s) _ s).2.2).trans ?_
      rw [hs]; unfold CSt.kidsOf; rw [h]
      exact kids_link _ _
    · refine ((same_push σ (some s) _ k).2.2).trans ?_
      rw [hm k hk]; rfl
  | @refuse s x h hd =>
    exact ⟨[], [], _, dstay _ [_] (fun f => Iff.rfl) (fun _ => rfl) rfl, .refuse (same_of_scopes rfl rfl) (by unfold CSt.dead; rw [h]; exact hd)⟩
  | check h h2 hd =>
    exact ⟨[], [_], [], dput (new := [_]) (st := []) h _ [] rfl (by simp [CSt.put]),
      .check (same_of_scopes rfl rfl) (lt_of_get h2) (by unfold CSt.dead; rw [h2]; exact hd)⟩
  | @append i s st h =>
    refine ⟨[.adding s], [], _, dput (old := [_]) (new := []) h _ [_] rfl rfl, ?_⟩
    obtain ⟨x, hx⟩ : ∃ x, σ.scopes[s]? = some x :=
      ⟨_, List.getElem?_eq_getElem (hw (.adding s) (has_top h (by simp)) : s < σ.scopes.length)⟩
    refine .append rfl ?_ (fun k hk => (onSc_ne (σ := σ.put i st) hk).1) (fun k => dead_onSc (σ := σ.put i st) (p := s) (f := fun x => { x with fn := x.fn ++ [σ.next] }) (fun _ => rfl) k)
      (fun k => kidsOf_onSc (σ := σ.put i st) (p := s) (f := fun x => { x with fn := x.fn ++ [σ.next] }) (fun _ => rfl) k)
    show (match ((σ.put i st).onSc s _).scopes[s]? with | some x => x.fn | none => []) = _
    rw [getElem?_onSc, if_pos rfl]
    unfold CSt.fnOf
    rw [show (σ.put i st).scopes = σ.scopes from rfl, hx]
    rfl
  | @close i s x h h2 =>
    have e : σ.kidsOf s = x.children.filterMap id := by unfold CSt.kidsOf; rw [h2]
    refine ⟨[], [_], [_], dput (new := [_]) (st := []) h _ [_] rfl rfl, ?_⟩
    rw [← e]
    exact .close (same_of_scopes rfl rfl) (lt_of_get h2)
  | @child i s c todo st x h h2 =>
    have e : σ.kidsOf c = x.children.filterMap id := by unfold CSt.kidsOf; rw [h2]
    refine ⟨[_], [_, _], [_], dput (old := [_]) (new := [_, _]) h _ [_] rfl rfl, ?_⟩
    rw [← e]
    exact .child (same_of_scopes rfl rfl) (lt_of_get h2)
  | leave h =>
    exact ⟨[_], [_], [], dput (old := [_]) (new := [_]) h _ [] rfl (by simp [CSt.put]),
      .unlink rfl (fun _ => rfl) (fun _ => rfl) (fun _ _ _ h => h) (fun _ => List.Sublist.refl _)⟩
  | @unlink i s st p h =>
    refine ⟨[_], [_], [], dput (old := [_]) (new := [_]) h _ [] rfl (by simp [CSt.put, CSt.onSc]), ?_⟩
    refine .unlink rfl (fun k => fnOf_onSc (σ := σ.put i (.tries s 0 :: st)) (p := p) (f := clear s) (fun _ => rfl) k)
      (fun k => dead_onSc (σ := σ.put i (.tries s 0 :: st)) (p := p) (f := clear s) (fun _ => rfl) k) (fun q c hc hm => ?_)
      (fun q => ?_)
    rotate_left
    · by_cases e : q = p
      · subst e
        unfold CSt.kidsOf
        rw [getElem?_onSc, if_pos rfl]
        rw [show (σ.put i (.tries s 0 :: st)).scopes = σ.scopes from rfl]
        cases hx : σ.scopes[q]? with
        | none => exact List.Sublist.refl _
        | some x => exact kids_clear_sub s x
      · rw [(onSc_ne (σ := σ.put i (.tries s 0 :: st)) e).2.2]
        exact List.Sublist.refl _
    by_cases e : q = p
    · subst e
      unfold CSt.kidsOf at hm ⊢
      rw [getElem?_onSc, if_pos rfl]
      rw [show (σ.put i (.tries s 0 :: st)).scopes = σ.scopes from rfl]
      cases hx : σ.scopes[q]? with
      | none => rw [hx] at hm; exact hm
      | some x =>
        rw [hx] at hm
        exact kids_clear hc hm
    · rw [(onSc_ne (σ := σ.put i (.tries s 0 :: st)) e).2.2]
      exact hm
  | @remove i s n st x h h2 hn hf =>
    have e : σ.fnOf s = x.fn := by unfold CSt.fnOf; rw [h2]
    refine ⟨[_], [_], [], dput (old := [_]) (new := [_]) h _ [] rfl (by simp [CSt.put, CSt.onSc]), ?_⟩
    rw [← e]
    refine .remove rfl hn ?_ (fun k hk => (onSc_ne (σ := σ.put i _) hk).1) (fun k => dead_onSc (σ := σ.put i _) (p := s) (f := fun x => { x with fn := [] }) (fun _ => rfl) k)
      (fun k => kidsOf_onSc (σ := σ.put i _) (p := s) (f := fun x => { x with fn := [] }) (fun _ => rfl) k)
    unfold CSt.fnOf
    rw [getElem?_onSc, if_pos rfl]
    cases ((σ.put i _).scopes[s]?) <;> rfl
  | @empty i s n st x h h2 hf =>
    have e : σ.fnOf s = x.fn := by unfold CSt.fnOf; rw [h2]
    exact ⟨[_], [_], [], dput (old := [_]) (new := [_]) h _ [] rfl (by simp [CSt.put]),
      .empty (same_of_scopes rfl rfl) (by rw [e]; exact hf)⟩
  | start h => exact ⟨[_], [_], [_], dput (old := [_]) (new := [_]) h _ [_] rfl rfl, .start (same_of_scopes rfl rfl)⟩
  | finish h hn => exact ⟨[], [], [_], dstay _ [_] (fun f => Iff.rfl) (fun _ => rfl) rfl, .finish (same_of_scopes rfl rfl) h hn⟩
  | wake h hf =>
    exact ⟨[_], [_], [], dput (old := [_]) (new := [_]) h _ [] rfl (by simp [CSt.put]), .wake (same_of_scopes rfl rfl) hf⟩
  | late h => exact ⟨[_], [_], [_], dput (old := [_]) (new := [_]) h _ [_] rfl rfl, .late (same_of_scopes rfl rfl)⟩
  | next h => exact ⟨[_], [_], [], dput (old := [_]) (new := [_]) h _ [] rfl (by simp [CSt.put]), .next (same_of_scopes rfl rfl)⟩
  | @ret i s st h =>
    refine ⟨[_], [], [_], dput (old := [_]) (new := []) h _ [_] rfl rfl, ?_⟩
    obtain ⟨x, hx⟩ : ∃ x, σ.scopes[s]? = some x :=
      ⟨_, List.getElem?_eq_getElem (hw (.done s) (has_top h (by simp)) : s < σ.scopes.length)⟩
    have hs : ((σ.put i st).onSc s (fun x => { x with destroyed := true })).dead s = true := by
      unfold CSt.dead
      rw [getElem?_onSc, if_pos rfl, show (σ.put i st).scopes = σ.scopes from rfl, hx]
      rfl
    refine .ret rfl (fun k => fnOf_onSc (σ := σ.put i st) (p := s) (f := fun x => { x with destroyed := true }) (fun _ => rfl) k) hs (fun k hk => ?_)
      (fun k hk => (onSc_ne (σ := σ.put i st) hk).2.1) (fun k => kidsOf_onSc (σ := σ.put i st) (p := s) (f := fun x => { x with destroyed := true }) (fun _ => rfl) k)
    by_cases e : k = s
    · subst e; exact hs
    · exact ((onSc_ne (σ := σ.put i st) e).2.1).trans hk

theorem Eff.grow {σ σ' : CSt} {b : Bool} (h : Eff σ b σ') : σ.scopes.length ≤ σ'.scopes.length := by
  cases h <;> simp [CSt.put, CSt.say, CSt.onSc, CSt.count] <;> omega

theorem wf_step (σ σ' : CSt) (b : Bool) (hw : WF σ) (h : Eff σ b σ') : WF σ' := by
  have hg := h.grow
  obtain ⟨old, new, es, ⟨hd, _⟩, hsh⟩ := h.move hw
  intro f hf
  refine Nat.lt_of_lt_of_le ?_ hg
  rcases hd.fwd f hf with h1 | h1
  · have hold : ∀ g ∈ old, g.scope < σ.scopes.length := fun g hg' => hw g (hd.was g hg')
    cases hsh <;> simp only [List.mem_cons, List.not_mem_nil, or_false, forall_eq] at h1 hold <;>
      first
        | exact h1.elim
        | (subst h1; assumption)
        | (rcases h1 with rfl | rfl <;> assumption)
  · exact hw f h1

theorem reach_wf {σ : CSt} (h : Reach σ) : WF σ :=
  reach_inv (P := WF) (by rintro f ⟨st, hst, _⟩; cases hst) wf_step h

/-- What holds at the beginning and is kept by every step holds in every state that can be reached. -/
theorem reach_move {P : CSt → Prop} (h0 : P .init)
    (hs : ∀ σ σ' old new es, P σ → Delta σ σ' old new es → Shape σ σ' old new es → P σ') {σ : CSt} (h : Reach σ) : P σ :=
  (reach_inv (P := fun σ => WF σ ∧ P σ) ⟨(by rintro f ⟨st, hst, _⟩; cases hst), h0⟩
    (fun σ σ' b hp he => by
      obtain ⟨old, new, es, ⟨hd, _⟩, hsh⟩ := he.move hp.1
      exact ⟨wf_step σ σ' b hp.1 he, hs _ _ _ _ _ hp.2 hd hsh⟩) h).2

/-! ## Where a registration is -/

/-- How often the call holds registration `r` of scope `s`. -/
def holds (s r : Nat) (f : Frame) : Nat := if f.scope = s then f.held.count r else 0

/-- Every accepted registration is waiting in its scope, held by a `Close` of it, or started: one of these, once. -/
theorem conserved {σ : CSt} (h : Reach σ) (s r : Nat) :
    (σ.fnOf s).count r + σ.total (holds s r) + σ.log.count (.started s r) = σ.log.count (.accepted s r) := by
  refine reach_move (P := fun σ => (σ.fnOf s).count r + σ.total (holds s r) + σ.log.count (.started s r) =
    σ.log.count (.accepted s r)) (by simp [CSt.init, CSt.fnOf, CSt.total]) ?_ h
  intro σ σ' old new es hp hd hsh
  have ht := hd.tot (holds s r)
  rw [hd.log, List.count_append, List.count_append]
  cases hsh with
  | idle h => rw [h.fn]; simp [List.count_nil] at ht ⊢; omega
  | copy hx h1 h2 hc h3 h4 => rw [h1]; simp at ht ⊢; omega
  | refuse h => rw [h.fn]; simp at ht ⊢; omega
  | check h => rw [h.fn]; simp [holds, Frame.held] at ht ⊢; omega
  | @append k hx h1 h2 h3 h4 =>
    simp [holds, Frame.held] at ht
    by_cases e : s = k
    · subst e
      rw [h1, List.count_append]
      by_cases e2 : σ.next = r
      · subst e2; simp at hp ⊢; omega
      · have e3 : List.count r [σ.next] = 0 := by simp [e2]
        have e4 : List.count (Ev.accepted s r) [Ev.accepted s σ.next] = 0 := by simp [e2]
        have e5 : List.count (Ev.started s r) [Ev.accepted s σ.next] = 0 := by simp
        omega
    · rw [h2 s e]
      have e' : k ≠ s := fun e' => e e'.symm
      have e4 : List.count (Ev.accepted s r) [Ev.accepted k σ.next] = 0 := by simp [e']
      have e5 : List.count (Ev.started s r) [Ev.accepted k σ.next] = 0 := by simp
      omega
  | close h => rw [h.fn]; simp [holds, Frame.held] at ht ⊢; omega
  | child h => rw [h.fn]; simp [holds, Frame.held] at ht ⊢; omega
  | unlink hx h1 => rw [h1]; simp [holds, Frame.held] at ht ⊢; omega
  | @remove k n hx _ h1 h2 h3 h4 =>
    by_cases e : k = s
    · subst e
      rw [h1]
      simp [holds, Frame.held, Frame.scope] at ht ⊢; omega
    · rw [h2 s (fun e' => e e'.symm)]
      simp [holds, Frame.held, Frame.scope, e] at ht ⊢; omega
  | empty h => rw [h.fn]; simp [holds, Frame.held] at ht ⊢; omega
  | @start k n q rest h =>
    rw [h.fn]
    by_cases e : k = s
    · subst e
      by_cases e2 : q = r
      · subst e2; simp [holds, Frame.held, Frame.scope] at ht ⊢; omega
      · simp [holds, Frame.held, Frame.scope, e2] at ht ⊢; omega
    · simp [holds, Frame.held, Frame.scope, e] at ht ⊢; omega
  | finish h => rw [h.fn]; simp at ht ⊢; omega
  | @wake k n q rest h =>
    have e : holds s r (.wait k n q rest) = holds s r (.batch k n rest) := rfl
    rw [h.fn]
    simp [e] at ht ⊢
    omega
  | @late k n q rest h =>
    have e : holds s r (.wait k n q rest) = holds s r (.batch k n rest) := rfl
    rw [h.fn]
    simp [e] at ht ⊢
    omega
  | next h => rw [h.fn]; simp [holds, Frame.held] at ht ⊢; omega
  | ret hx h1 => rw [h1]; simp [holds, Frame.held] at ht ⊢; omega

/-- Registrations have different numbers. -/
theorem accepted_once {σ : CSt} (h : Reach σ) :
    (∀ s r, .accepted s r ∈ σ.log → r < σ.next) ∧ ∀ s r, σ.log.count (.accepted s r) ≤ 1 := by
  refine reach_move (P := fun σ => (∀ s r, .accepted s r ∈ σ.log → r < σ.next) ∧ ∀ s r, σ.log.count (.accepted s r) ≤ 1)
    (by simp [CSt.init]) ?_ h
  intro σ σ' old new es ⟨p1, p2⟩ hd hsh
  have plain : σ'.next = σ.next → (∀ s r, .accepted s r ∉ es) →
      (∀ s r, .accepted s r ∈ σ'.log → r < σ'.next) ∧ ∀ s r, σ'.log.count (.accepted s r) ≤ 1 := by
    intro hx hn
    constructor
    · intro s r hm
      rw [hd.log, List.mem_append] at hm
      rw [hx]
      exact p1 s r (hm.resolve_right (hn s r))
    · intro s r
      rw [hd.log, List.count_append, List.count_eq_zero.2 (hn s r)]
      exact p2 s r
  cases hsh with
  | @append k hx h1 h2 h3 h4 =>
    constructor
    · intro s r hm
      rw [hd.log, List.mem_append] at hm
      rw [hx]
      rcases hm with hm | hm
      · exact Nat.lt_succ_of_lt (p1 s r hm)
      · simp at hm; omega
    · intro s r
      rw [hd.log, List.count_append]
      by_cases e : (Ev.accepted k σ.next) = .accepted s r
      · have : σ.log.count (.accepted s r) = 0 := List.count_eq_zero.2 (fun hm => by
          have := p1 s r hm
          cases e
          omega)
        rw [this, ← e]
        simp
      · rw [List.count_eq_zero.2 (by simpa using fun e1 e2 => e (by rw [e1, e2]) : Ev.accepted s r ∉ [Ev.accepted k σ.next])]
        exact p2 s r
  | idle h => exact plain h.next (by simp)
  | copy hx => exact plain hx (by simp)
  | refuse h => exact plain h.next (by simp)
  | check h => exact plain h.next (by simp)
  | close h => exact plain h.next (by simp)
  | child h => exact plain h.next (by simp)
  | unlink hx => exact plain hx (by simp)
  | remove hx => exact plain hx (by simp)
  | empty h => exact plain h.next (by simp)
  | start h => exact plain h.next (by simp)
  | finish h => exact plain h.next (by simp)
  | wake h => exact plain h.next (by simp)
  | late h => exact plain h.next (by simp)
  | next h => exact plain h.next (by simp)
  | ret hx => exact plain hx (by simp)

theorem total_zero {σ : CSt} (h : σ.quiet) (w : Frame → Nat) : σ.total w = 0 := by
  unfold CSt.total
  rw [List.sum_eq_zero_iff_forall_eq_nat]
  intro x hx
  obtain ⟨st, hst, rfl⟩ := List.mem_map.1 hx
  rw [h st hst]
  rfl

/-- **C80** A destructor is started at most once, however many goroutines close its scope, its ancestors and
so on, and only if its registration was accepted. -/
theorem C80_once {σ : CSt} (h : Reach σ) (s r : Nat) :
    σ.log.count (.started s r) ≤ 1 ∧ (.started s r ∈ σ.log → .accepted s r ∈ σ.log) := by
  have h1 := conserved h s r
  have h2 := (accepted_once h).2 s r
  refine ⟨by omega, fun hm => ?_⟩
  have h3 := List.count_pos_iff.2 hm
  exact List.count_pos_iff.1 (by omega)

/-- **C80** No registration is lost: when no call is in progress, an accepted destructor has been started or
is still waiting in its scope. -/
theorem C80_kept {σ : CSt} (h : Reach σ) (hq : σ.quiet) {s r : Nat} (ha : .accepted s r ∈ σ.log) :
    .started s r ∈ σ.log ∨ r ∈ σ.fnOf s := by
  have h1 := conserved h s r
  have h3 := List.count_pos_iff.2 ha
  rw [total_zero hq] at h1
  by_cases e : r ∈ σ.fnOf s
  · exact .inr e
  · rw [List.count_eq_zero.2 e] at h1
    exact .inl (List.count_pos_iff.1 (by omega))

/-! ## Closing reaches the scopes copied before -/

/-- Some goroutine is closing the scope. -/
def CSt.isClosing (σ : CSt) (s : Nat) : Prop := ∃ f, σ.has f ∧ f.closes = true ∧ f.scope = s

/-- `a` happened before `b`. -/
def Before (l : List Ev) (a b : Ev) : Prop := ∃ l1 l2, l = l1 ++ b :: l2 ∧ a ∈ l1

theorem before_append {l es : List Ev} {a b : Ev} (h : Before l a b) : Before (l ++ es) a b := by
  obtain ⟨l1, l2, rfl, h⟩ := h
  exact ⟨l1, l2 ++ es, by simp, h⟩

theorem before_snoc {l : List Ev} {a b e : Ev} (h : Before (l ++ [e]) a b) : Before l a b ∨ (e = b ∧ a ∈ l) := by
  obtain ⟨l1, l2, h, ha⟩ := h
  rcases List.eq_nil_or_concat l2 with rfl | ⟨l3, x, rfl⟩
  · obtain ⟨h1, h2⟩ := List.append_inj' h rfl
    simp only [List.cons.injEq, and_true] at h2
    exact .inr ⟨h2, h1 ▸ ha⟩
  · have h' : l ++ [e] = (l1 ++ b :: l3) ++ [x] := by simpa using h
    obtain ⟨h1, h2⟩ := List.append_inj' h' rfl
    exact .inl ⟨l1, l3, h1, ha⟩

/-- A scope that is being closed or is closed has a `Close` that has begun. -/
theorem closing_began {σ : CSt} (h : Reach σ) (s : Nat) :
    (σ.isClosing s → .closing s ∈ σ.log) ∧ (σ.dead s = true → .closing s ∈ σ.log) := by
  refine reach_move (P := fun σ => (σ.isClosing s → .closing s ∈ σ.log) ∧ (σ.dead s = true → .closing s ∈ σ.log)) ?_ ?_ h
  · refine ⟨?_, by simp [CSt.init, CSt.dead]⟩
    rintro ⟨f, ⟨st, hst, _⟩, _⟩
    cases hst
  intro σ σ' old new es ⟨p1, p2⟩ hd hsh
  have mono : .closing s ∈ σ.log → .closing s ∈ σ'.log := fun hm => by rw [hd.log]; exact List.mem_append_left _ hm
  have dead : (σ'.dead s = true → σ.dead s = true ∨ σ.isClosing s) := by
    cases hsh with
    | idle h => rw [h.dead]; exact .inl
    | copy _ _ h => rw [h]; exact .inl
    | refuse h => rw [h.dead]; exact .inl
    | check h => rw [h.dead]; exact .inl
    | append _ _ _ h => rw [h]; exact .inl
    | close h => rw [h.dead]; exact .inl
    | child h => rw [h.dead]; exact .inl
    | unlink _ _ h => rw [h]; exact .inl
    | remove _ _ _ _ h => rw [h]; exact .inl
    | empty h => rw [h.dead]; exact .inl
    | start h => rw [h.dead]; exact .inl
    | finish h => rw [h.dead]; exact .inl
    | wake h => rw [h.dead]; exact .inl
    | late h => rw [h.dead]; exact .inl
    | next h => rw [h.dead]; exact .inl
    | @ret k _ _ _ _ h5 _ =>
      intro hx
      by_cases e : s = k
      · subst e; exact .inr ⟨.done s, hd.was _ (by simp), rfl, rfl⟩
      · rw [h5 s e] at hx; exact .inl hx
  refine ⟨?_, fun hx => mono ((dead hx).elim p2 p1)⟩
  rintro ⟨f, hf, hc, hs⟩
  rcases hd.fwd f hf with hn | ho
  · have old' : (∃ g ∈ old, g.closes = true ∧ g.scope = s) → .closing s ∈ σ'.log :=
      fun ⟨g, hg, h1, h2⟩ => mono (p1 ⟨g, hd.was g hg, h1, h2⟩)
    have es' : .closing s ∈ es → .closing s ∈ σ'.log := fun hm => by rw [hd.log]; exact List.mem_append_right _ hm
    cases hsh <;> simp only [List.mem_cons, List.not_mem_nil, or_false] at hn <;>
      first
        | exact hn.elim
        | (subst hn; cases hc; done)
        | (subst hn; subst hs; exact old' ⟨_, List.mem_singleton_self _, rfl, rfl⟩)
        | (subst hn; subst hs; exact es' (by simp [Frame.scope]))
        | (rcases hn with rfl | rfl
           · subst hs; exact es' (by simp [Frame.scope])
           · subst hs; exact old' ⟨_, List.mem_singleton_self _, rfl, rfl⟩)
  · exact mono (p1 ⟨f, ho, hc, hs⟩)

/-- A scope that is being closed goes on being closed until it is closed; a closed scope stays closed. -/
theorem closing_goes_on {σ σ' : CSt} {old new : List Frame} {es : List Ev} (hd : Delta σ σ' old new es)
    (hsh : Shape σ σ' old new es) {c : Nat} (h : σ.isClosing c ∨ σ.dead c = true) : σ'.isClosing c ∨ σ'.dead c = true := by
  rcases h with ⟨f, hf, hc, hs⟩ | h
  · rcases hd.bwd f hf with ho | hn
    · have new' : (∃ g ∈ new, g.closes = true ∧ g.scope = c) → σ'.isClosing c :=
        fun ⟨g, hg, h1, h2⟩ => ⟨g, hd.now g hg, h1, h2⟩
      cases hsh <;> simp only [List.mem_cons, List.not_mem_nil, or_false] at ho <;>
        first
          | exact ho.elim
          | (subst ho; cases hc; done)
          | (subst ho; subst hs; exact .inl (new' ⟨_, List.mem_singleton_self _, rfl, rfl⟩))
          | (subst ho; subst hs; exact .inl (new' ⟨_, List.mem_cons_of_mem _ (List.mem_singleton_self _), rfl, rfl⟩))
          | (subst ho; subst hs; exact .inr (by assumption))
    · exact .inl ⟨f, hn, hc, hs⟩
  · right
    cases hsh with
    | idle h' => rw [h'.dead]; exact h
    | copy _ _ h' => rw [h']; exact h
    | refuse h' => rw [h'.dead]; exact h
    | check h' => rw [h'.dead]; exact h
    | append _ _ _ h' => rw [h']; exact h
    | close h' => rw [h'.dead]; exact h
    | child h' => rw [h'.dead]; exact h
    | unlink _ _ h' => rw [h']; exact h
    | remove _ _ _ _ h' => rw [h']; exact h
    | empty h' => rw [h'.dead]; exact h
    | start h' => rw [h'.dead]; exact h
    | finish h' => rw [h'.dead]; exact h
    | wake h' => rw [h'.dead]; exact h
    | late h' => rw [h'.dead]; exact h
    | next h' => rw [h'.dead]; exact h
    | ret _ _ _ h3 => exact h3 c h

/-- A copy is listed as a child, or it is being closed, or it is closed. -/
theorem child_listed {σ : CSt} (h : Reach σ) {s c : Nat} (hc : .copied s c ∈ σ.log) :
    c ∈ σ.kidsOf s ∨ σ.isClosing c ∨ σ.dead c = true := by
  revert hc
  refine reach_move (P := fun σ => .copied s c ∈ σ.log → c ∈ σ.kidsOf s ∨ σ.isClosing c ∨ σ.dead c = true)
    (by simp [CSt.init]) ?_ h
  intro σ σ' old new es hp hd hsh hm
  rw [hd.log, List.mem_append] at hm
  have key : (.copied s c ∈ σ.log → c ∈ σ.kidsOf s → c ∈ σ'.kidsOf s ∨ σ'.isClosing c) →
      .copied s c ∈ σ.log → c ∈ σ'.kidsOf s ∨ σ'.isClosing c ∨ σ'.dead c = true := by
    intro hk hm
    rcases hp hm with h1 | h1
    · rcases hk hm h1 with h2 | h2
      · exact .inl h2
      · exact .inr (.inl h2)
    · exact .inr (closing_goes_on hd hsh h1)
  cases hsh with
  | idle h => exact key (fun _ hx => .inl (by rw [h.kids]; exact hx)) (by simpa using hm)
  | @copy k d _ _ _ _ h3 h4 =>
    rcases hm with hm | hm
    · refine key (fun _ hx => .inl ?_) hm
      by_cases e : s = k
      · subst e; rw [h3]; exact List.mem_append_left _ hx
      · rw [h4 s e]; exact hx
    · simp only [List.mem_singleton, Ev.copied.injEq] at hm
      obtain ⟨rfl, rfl⟩ := hm
      exact .inl (by rw [h3]; simp)
  | refuse h => exact key (fun _ hx => .inl (by rw [h.kids]; exact hx)) (by simpa using hm)
  | check h => exact key (fun _ hx => .inl (by rw [h.kids]; exact hx)) (by simpa using hm)
  | append _ _ _ _ h4 => exact key (fun _ hx => .inl (by rw [h4]; exact hx)) (by simpa using hm)
  | close h => exact key (fun _ hx => .inl (by rw [h.kids]; exact hx)) (by simpa using hm)
  | child h => exact key (fun _ hx => .inl (by rw [h.kids]; exact hx)) (by simpa using hm)
  | @unlink k _ _ _ h3 _ =>
    refine key (fun _ hx => ?_) (by simpa using hm)
    by_cases e : c = k
    · subst e
      exact .inr ⟨.tries c 0, hd.now _ (by simp), rfl, rfl⟩
    · exact .inl (h3 s c e hx)
  | remove _ _ _ _ _ h4 => exact key (fun _ hx => .inl (by rw [h4]; exact hx)) (by simpa using hm)
  | empty h => exact key (fun _ hx => .inl (by rw [h.kids]; exact hx)) (by simpa using hm)
  | start h => exact key (fun _ hx => .inl (by rw [h.kids]; exact hx)) (by simpa using hm)
  | finish h => exact key (fun _ hx => .inl (by rw [h.kids]; exact hx)) (by simpa using hm)
  | wake h => exact key (fun _ hx => .inl (by rw [h.kids]; exact hx)) (by simpa using hm)
  | late h => exact key (fun _ hx => .inl (by rw [h.kids]; exact hx)) (by simpa using hm)
  | next h => exact key (fun _ hx => .inl (by rw [h.kids]; exact hx)) (by simpa using hm)
  | ret _ _ _ _ _ h4 => exact key (fun _ hx => .inl (by rw [h4]; exact hx)) (by simpa using hm)

/-- The child of a scope that a `Close` of the scope still has to close. -/
def CSt.listed (σ : CSt) (s c : Nat) : Prop := ∃ todo, σ.has (.kids s todo) ∧ c ∈ todo

theorem run_append : ∀ (as bs : List Act) (σ : CSt), run σ (as ++ bs) = (run σ as).bind (fun τ => run τ bs)
  | [], bs, σ => rfl
  | a :: as, bs, σ => by
    simp only [List.cons_append, run]
    cases step σ a with
    | none => rfl
    | some τ => exact run_append as bs τ

theorem run_inv_reach {P : CSt → Prop} (hs : ∀ σ σ' b, Reach σ → P σ → Eff σ b σ' → P σ') :
    ∀ (as : List Act) (σ σ' : CSt), Reach σ → P σ → run σ as = some σ' → P σ'
  | [], σ, σ', _, h, hr => by cases hr; exact h
  | a :: as, σ, σ', hre, h, hr => by
    simp only [run] at hr
    split at hr
    · rename_i σ1 h1
      refine run_inv_reach hs as σ1 σ' ?_ (hs _ _ _ hre h (step_eff h1)) hr
      obtain ⟨bs, hb⟩ := hre
      refine ⟨bs ++ [a], ?_⟩
      rw [run_append, hb]
      simp [run, h1]
    · cases hr

/-- As `reach_move`, knowing that the state before the step can be reached. -/
theorem reach_move' {P : CSt → Prop} (h0 : P .init)
    (hs : ∀ σ σ' old new es, Reach σ → P σ → Delta σ σ' old new es → Shape σ σ' old new es → P σ') {σ : CSt}
    (h : Reach σ) : P σ := by
  obtain ⟨as, h⟩ := h
  refine run_inv_reach (fun σ σ' b hr hp he => ?_) as _ _ ⟨[], rfl⟩ h0 h
  obtain ⟨old, new, es, ⟨hd, _⟩, hsh⟩ := he.move (reach_wf hr)
  exact hs _ _ _ _ _ hr hp hd hsh

/-- A copy made before a `Close` of its parent begins is on the list of a `Close`, or being closed, or closed. -/
theorem child_taken {σ : CSt} (h : Reach σ) {s c : Nat} (hb : Before σ.log (.copied s c) (.closing s)) :
    σ.listed s c ∨ σ.isClosing c ∨ σ.dead c = true := by
  revert hb
  refine reach_move' (P := fun σ => Before σ.log (.copied s c) (.closing s) →
    σ.listed s c ∨ σ.isClosing c ∨ σ.dead c = true) ?_ ?_ h
  · rintro ⟨l1, l2, h, _⟩
    simp [CSt.init] at h
  intro σ σ' old new es hr hp hd hsh hb
  have go : σ.isClosing c ∨ σ.dead c = true → σ'.listed s c ∨ σ'.isClosing c ∨ σ'.dead c = true :=
    fun h => .inr (closing_goes_on hd hsh h)
  have key : Before σ.log (.copied s c) (.closing s) → σ'.listed s c ∨ σ'.isClosing c ∨ σ'.dead c = true := by
    intro hb
    rcases hp hb with ⟨todo, hf, hm⟩ | h1
    · rcases hd.bwd _ hf with ho | hn
      · cases hsh <;> simp only [List.mem_cons, List.not_mem_nil, or_false, reduceCtorEq, Frame.kids.injEq] at ho
        case child k d t h hlt =>
          obtain ⟨rfl, rfl⟩ := ho
          rcases List.mem_cons.1 hm with rfl | hm
          · exact .inr (.inl ⟨_, hd.now _ (List.mem_cons_self ..), rfl, rfl⟩)
          · exact .inl ⟨t, hd.now _ (by simp), hm⟩
        case unlink =>
          obtain ⟨_, rfl⟩ := ho
          cases hm
      · exact .inl ⟨todo, hn, hm⟩
    · exact go h1
  have fresh : ∀ e, es = [e] → e = .closing s → (∀ todo, todo = σ.kidsOf s → Frame.kids s todo ∈ new) →
      .copied s c ∈ σ.log → σ'.listed s c ∨ σ'.isClosing c ∨ σ'.dead c = true := by
    intro e he hs hn hm
    rcases child_listed hr hm with h1 | h1
    · exact .inl ⟨_, hd.now _ (hn _ rfl), h1⟩
    · exact go h1
  rw [hd.log] at hb
  cases hsh with
  | @close k h hlt =>
    rcases before_snoc hb with hb | ⟨he, hm⟩
    · exact key hb
    · simp only [Ev.closing.injEq] at he
      subst he
      exact fresh _ rfl rfl (by rintro _ rfl; simp) hm
  | @child k d t h hlt =>
    rcases before_snoc hb with hb | ⟨he, hm⟩
    · exact key hb
    · simp only [Ev.closing.injEq] at he
      subst he
      exact fresh _ rfl rfl (by rintro _ rfl; simp) hm
  | _ =>
    first
      | exact key (by simpa using hb)
      | exact key ((before_snoc hb).resolve_right (fun h => by cases h.1))

theorem quiet_has {σ : CSt} (h : σ.quiet) (f : Frame) : ¬ σ.has f := by
  rintro ⟨st, hst, hf⟩
  rw [h st hst] at hf
  cases hf

/-- **C80** When no call is in progress, a scope copied from another one before a `Close` of that one began is
closed, whatever other goroutines did meanwhile. -/
theorem C80_child {σ : CSt} (h : Reach σ) (hq : σ.quiet) {s c : Nat}
    (hb : Before σ.log (.copied s c) (.closing s)) : σ.dead c = true := by
  rcases child_taken h hb with ⟨_, hf, _⟩ | ⟨f, hf, _⟩ | h
  · exact absurd hf (quiet_has hq _)
  · exact absurd hf (quiet_has hq _)
  · exact h

/-- `c` was copied from `s` when no `Close` of `s` had begun. -/
def CopiedOpen (l : List Ev) (s c : Nat) : Prop := ∃ l1 l2, l = l1 ++ .copied s c :: l2 ∧ .closing s ∉ l1

theorem CopiedOpen.before {l : List Ev} {s c : Nat} (h : CopiedOpen l s c) (hc : .closing s ∈ l) :
    Before l (.copied s c) (.closing s) := by
  obtain ⟨l1, l2, rfl, hn⟩ := h
  rw [List.mem_append] at hc
  have hc := hc.resolve_left hn
  simp only [List.mem_cons, reduceCtorEq, false_or] at hc
  obtain ⟨a, b, rfl⟩ := List.append_of_mem hc
  exact ⟨l1 ++ .copied s c :: a, b, by simp, by simp⟩

/-- Copies of copies. -/
inductive Descends (l : List Ev) (s : Nat) : Nat → Prop where
  | self : Descends l s s
  | copy {c d} (h : Descends l s c) (h' : CopiedOpen l c d) : Descends l s d

/-- **C80** When no call is in progress, all descendants of a scope that was closed are closed, if each was copied
before a `Close` of the scope it was copied from had begun. -/
theorem C80_descendants_partial {σ : CSt} (h : Reach σ) (hq : σ.quiet) {s d : Nat} (hc : .closing s ∈ σ.log)
    (hd : Descends σ.log s d) : .closing d ∈ σ.log ∧ (d ≠ s → σ.dead d = true) := by
  induction hd with
  | self => exact ⟨hc, fun h => absurd rfl h⟩
  | copy _ h' ih =>
    have hx := C80_child h hq (h'.before ih.1)
    exact ⟨(closing_began h _).2 hx, fun _ => hx⟩

/-! ## A closed scope has run what it was given before -/

/-- The call is a `Close` that has not taken destructors. -/
def Frame.early : Frame → Bool
  | .kids _ _ | .tries _ 0 => true
  | _ => false

/-- Destructors that were accepted before any `Close` of the scope began and still wait: all `Close` calls of
the scope are at their beginning. -/
theorem early {σ : CSt} (h : Reach σ) {s r : Nat} (ha : ∃ l1 l2, σ.log = l1 ++ .accepted s r :: l2 ∧ .closing s ∉ l1)
    (hw : r ∈ σ.fnOf s) : σ.dead s = false ∧ ∀ f, σ.has f → f.closes = true → f.scope = s → f.early = true := by
  revert ha hw
  refine reach_move' (P := fun σ => (∃ l1 l2, σ.log = l1 ++ .accepted s r :: l2 ∧ .closing s ∉ l1) → r ∈ σ.fnOf s →
    σ.dead s = false ∧ ∀ f, σ.has f → f.closes = true → f.scope = s → f.early = true) ?_ ?_ h
  · rintro ⟨l1, l2, h, _⟩
    simp [CSt.init] at h
  intro σ σ' old new es hr hp hd hsh ⟨l1, l2, hl, hn⟩ hw
  rw [hd.log] at hl
  -- the registration was accepted before this step
  by_cases hx : es = [.accepted s r] ∧ l2 = []
  · obtain ⟨rfl, rfl⟩ := hx
    have e : σ.log = l1 := (List.append_inj' hl rfl).1
    subst e
    have hb := closing_began hr s
    have hdead : σ.dead s = false := by
      cases hdd : σ.dead s with
      | false => rfl
      | true => exact absurd (hb.2 hdd) hn
    cases hsh with
    | append hx h1 h2 h3 h4 =>
      refine ⟨by rw [h3]; exact hdead, fun f hf hc hs => ?_⟩
      rcases hd.fwd f hf with h' | h'
      · cases h'
      · exact absurd (hb.1 ⟨f, h', hc, hs⟩) hn
  · have hl' : ∃ l1 l2, σ.log = l1 ++ .accepted s r :: l2 ∧ .closing s ∉ l1 := by
      rcases (by cases hsh <;> first | exact .inl rfl | exact .inr ⟨_, rfl⟩ : es = [] ∨ ∃ e, es = [e]) with rfl | ⟨e, rfl⟩
      · exact ⟨l1, l2, by simpa using hl, hn⟩
      · rcases List.eq_nil_or_concat l2 with rfl | ⟨l3, x, rfl⟩
        · exfalso
          obtain ⟨_, h2⟩ := List.append_inj' hl rfl
          exact hx ⟨h2, rfl⟩
        · have h' : σ.log ++ [e] = (l1 ++ .accepted s r :: l3) ++ [x] := by simpa using hl
          exact ⟨l1, l3, (List.append_inj' h' rfl).1, hn⟩
    have hm : .accepted s r ∈ σ.log := by
      obtain ⟨a, b, e, _⟩ := hl'
      rw [e]; simp
    have hlt := (accepted_once hr).1 s r hm
    have same : σ'.fnOf s = σ.fnOf s → (σ'.dead s = σ.dead s) →
        (∀ f ∈ new, f.closes = true → f.scope = s → f.early = true ∨ f.early = false ∧ ∃ g ∈ old, g.closes = true ∧
          g.scope = s ∧ g.early = false) →
        σ'.dead s = false ∧ ∀ f, σ'.has f → f.closes = true → f.scope = s → f.early = true := by
      intro e1 e2 hnew
      rw [e1] at hw
      obtain ⟨q1, q2⟩ := hp hl' hw
      refine ⟨by rw [e2]; exact q1, fun f hf hc hs => ?_⟩
      rcases hd.fwd f hf with h1 | h1
      · rcases hnew f h1 hc hs with h2 | ⟨_, g, hg, g1, g2, g3⟩
        · exact h2
        · rw [q2 g (hd.was g hg) g1 g2] at g3; cases g3
      · exact q2 f h1 hc hs
    cases hsh with
    | idle h => exact same (h.fn s) (h.dead s) (by simp)
    | copy _ h1 h2 => exact same (h1 s) (h2 s) (by simp)
    | refuse h => exact same (h.fn s) (h.dead s) (by simp)
    | check h => exact same (h.fn s) (h.dead s) (by simp [Frame.closes])
    | @append k hx h1 h2 h3 h4 =>
      have hw' : r ∈ σ.fnOf s := by
        by_cases e : s = k
        · subst e
          rw [h1, List.mem_append] at hw
          refine hw.resolve_right (fun h => ?_)
          simp at h; omega
        · rw [h2 s e] at hw; exact hw
      obtain ⟨q1, q2⟩ := hp hl' hw'
      refine ⟨by rw [h3]; exact q1, fun f hf hc hs => ?_⟩
      rcases hd.fwd f hf with h' | h'
      · cases h'
      · exact q2 f h' hc hs
    | close h => exact same (h.fn s) (h.dead s) (by simp [Frame.early])
    | child h => exact same (h.fn s) (h.dead s) (by simp [Frame.early])
    | unlink hx h1 h2 => exact same (h1 s) (h2 s) (by simp [Frame.early])
    | @remove k n hx _ h1 h2 h3 h4 =>
      have e : s ≠ k := by rintro rfl; rw [h1] at hw; cases hw
      exact same (h2 s e) (h3 s) (by
        intro f hf _ hs
        rw [List.mem_singleton.1 hf] at hs
        exact absurd hs (fun h => e h.symm))
    | @empty k n h hf =>
      refine same (h.fn s) (h.dead s) ?_
      intro f hm _ hs
      rw [List.mem_singleton.1 hm] at hs ⊢
      have hs : k = s := hs
      subst hs
      right
      refine ⟨rfl, _, List.mem_singleton_self _, rfl, rfl, ?_⟩
      cases n with
      | succ n => rfl
      | zero =>
        exfalso
        rw [h.fn] at hw
        exact hf ⟨by omega, by intro h; rw [h] at hw; cases hw⟩
    | start h =>
      refine same (h.fn s) (h.dead s) ?_
      intro f hm _ hs
      rw [List.mem_singleton.1 hm] at hs ⊢
      exact .inr ⟨rfl, _, List.mem_singleton_self _, rfl, hs, rfl⟩
    | finish h => exact same (h.fn s) (h.dead s) (by simp)
    | wake h =>
      refine same (h.fn s) (h.dead s) ?_
      intro f hm _ hs
      rw [List.mem_singleton.1 hm] at hs ⊢
      exact .inr ⟨rfl, _, List.mem_singleton_self _, rfl, hs, rfl⟩
    | late h =>
      refine same (h.fn s) (h.dead s) ?_
      intro f hm _ hs
      rw [List.mem_singleton.1 hm] at hs ⊢
      exact .inr ⟨rfl, _, List.mem_singleton_self _, rfl, hs, rfl⟩
    | next h =>
      refine same (h.fn s) (h.dead s) ?_
      intro f hm _ hs
      rw [List.mem_singleton.1 hm] at hs ⊢
      exact .inr ⟨rfl, _, List.mem_singleton_self _, rfl, hs, rfl⟩
    | @ret k hx h1 h2 h3 h5 h4 =>
      have hw' : r ∈ σ.fnOf s := by rw [← h1]; exact hw
      obtain ⟨q1, q2⟩ := hp hl' hw'
      have e : s ≠ k := by
        rintro rfl
        have := q2 (.done s) (hd.was _ (by simp)) rfl rfl
        cases this
      exact same (h1 s) (h5 s e) (by simp)

/-- A scope whose `Close` has begun is being closed or is closed. -/
theorem began_closing {σ : CSt} (h : Reach σ) {s : Nat} (hc : .closing s ∈ σ.log) : σ.isClosing s ∨ σ.dead s = true := by
  revert hc
  refine reach_move (P := fun σ => .closing s ∈ σ.log → σ.isClosing s ∨ σ.dead s = true) (by simp [CSt.init]) ?_ h
  intro σ σ' old new es hp hd hsh hm
  rw [hd.log, List.mem_append] at hm
  rcases hm with hm | hm
  · exact closing_goes_on hd hsh (hp hm)
  · cases hsh <;> simp only [List.mem_cons, List.not_mem_nil, or_false, reduceCtorEq, Ev.closing.injEq] at hm
    · subst hm; exact .inl ⟨_, hd.now _ (List.mem_singleton_self _), rfl, rfl⟩
    · subst hm; exact .inl ⟨_, hd.now _ (List.mem_cons_self ..), rfl, rfl⟩

/-- **C80** A destructor that was accepted before any `Close` of its scope began has been started when the scope
was closed and no call is in progress, whoever closes the scope and however often. -/
theorem C80_all_run_partial {σ : CSt} (h : Reach σ) (hq : σ.quiet) {s r : Nat}
    (ha : ∃ l1 l2, σ.log = l1 ++ .accepted s r :: l2 ∧ .closing s ∉ l1) (hc : .closing s ∈ σ.log) :
    .started s r ∈ σ.log := by
  have hm : .accepted s r ∈ σ.log := by
    obtain ⟨a, b, e, _⟩ := ha
    rw [e]; simp
  refine (C80_kept h hq hm).resolve_right (fun hw => ?_)
  have h1 := (early h ha hw).1
  rcases began_closing h hc with ⟨f, hf, _⟩ | h2
  · exact quiet_has hq f hf
  · rw [h1] at h2; cases h2

/-! ## The order of destructors -/

theorem sum_pos_mem {α : Type} (w : α → Nat) {l : List α} (h : 0 < (l.map w).sum) : ∃ x ∈ l, 0 < w x := by
  induction l with
  | nil => simp at h
  | cons a l ih =>
    simp only [List.map_cons, List.sum_cons] at h
    by_cases e : 0 < w a
    · exact ⟨a, by simp, e⟩
    · obtain ⟨x, hx, hw⟩ := ih (by omega)
      exact ⟨x, by simp [hx], hw⟩

theorem sum_mem_pos {α : Type} (w : α → Nat) {l : List α} {x : α} (hx : x ∈ l) (h : 0 < w x) : 0 < (l.map w).sum := by
  induction l with
  | nil => cases hx
  | cons a l ih =>
    simp only [List.map_cons, List.sum_cons]
    rcases List.mem_cons.1 hx with rfl | hx
    · omega
    · have := ih hx; omega

theorem total_pos {σ : CSt} {w : Frame → Nat} : 0 < σ.total w ↔ ∃ f, σ.has f ∧ 0 < w f := by
  constructor
  · intro h
    obtain ⟨st, hst, h⟩ := sum_pos_mem _ h
    obtain ⟨f, hf, h⟩ := sum_pos_mem _ h
    exact ⟨f, ⟨st, hst, hf⟩, h⟩
  · rintro ⟨f, ⟨st, hst, hf⟩, h⟩
    exact sum_mem_pos _ hst (sum_mem_pos _ hf h)

theorem held_not_started {σ : CSt} (h : Reach σ) {s r : Nat} {f : Frame} (hf : σ.has f) (hs : f.scope = s)
    (hr : r ∈ f.held) : .started s r ∉ σ.log := by
  have h1 := conserved h s r
  have h2 := (accepted_once h).2 s r
  have h3 : 0 < σ.total (holds s r) :=
    total_pos.2 ⟨f, hf, by unfold holds; rw [if_pos hs]; exact List.count_pos_iff.2 hr⟩
  intro hm
  have := List.count_pos_iff.2 hm
  omega

theorem waiting_not_started {σ : CSt} (h : Reach σ) {s r : Nat} (hr : r ∈ σ.fnOf s) : .started s r ∉ σ.log := by
  have h1 := conserved h s r
  have h2 := (accepted_once h).2 s r
  have h3 := List.count_pos_iff.2 hr
  intro hm
  have := List.count_pos_iff.2 hm
  omega

/-- Destructors are started by a `Close` of their scope. -/
theorem started_closing {σ : CSt} (h : Reach σ) {s r : Nat} (hm : .started s r ∈ σ.log) : .closing s ∈ σ.log := by
  revert hm
  refine reach_move' (P := fun σ => .started s r ∈ σ.log → .closing s ∈ σ.log) (by simp [CSt.init]) ?_ h
  intro σ σ' old new es hr hp hd hsh hm
  rw [hd.log, List.mem_append] at hm
  rw [hd.log]
  refine List.mem_append_left _ ?_
  rcases hm with hm | hm
  · exact hp hm
  · cases hsh <;> simp only [List.mem_cons, List.not_mem_nil, or_false, reduceCtorEq, Ev.started.injEq] at hm
    obtain ⟨rfl, rfl⟩ := hm
    exact (closing_began hr _).1 ⟨_, hd.was _ (List.mem_singleton_self _), rfl, rfl⟩

theorem open_waiting {σ : CSt} (h : Reach σ) {s r : Nat} (ha : .accepted s r ∈ σ.log) (hn : .closing s ∉ σ.log) :
    r ∈ σ.fnOf s := by
  have h1 := conserved h s r
  have h2 := List.count_pos_iff.2 ha
  have h3 : σ.log.count (.started s r) = 0 := List.count_eq_zero.2 (fun hm => hn (started_closing h hm))
  have h4 : σ.total (holds s r) = 0 := by
    refine Nat.eq_zero_of_not_pos (fun hp => ?_)
    obtain ⟨f, hf, hw⟩ := total_pos.1 hp
    unfold holds at hw
    split at hw
    · rename_i hs
      refine hn ((closing_began h s).1 ⟨f, hf, ?_, hs⟩)
      cases f <;> simp_all [Frame.held, Frame.closes]
    · omega
  exact List.count_pos_iff.1 (by omega)

/-- `r1` was registered before `r2`, and that before any `Close` of `s` began. -/
def InOrder (l : List Ev) (s r1 r2 : Nat) : Prop :=
  ∃ l1 l2, l = l1 ++ .accepted s r2 :: l2 ∧ .closing s ∉ l1 ∧ .accepted s r1 ∈ l1

/-- Where two registrations are. -/
def Places (σ : CSt) (s r1 r2 : Nat) : Prop :=
  List.Sublist [r1, r2] (σ.fnOf s) ∨ (∃ f, σ.has f ∧ f.scope = s ∧ List.Sublist [r2, r1] f.held) ∨
  (∃ n rest, σ.has (.wait s n r2 rest) ∧ r1 ∈ rest) ∨ (.finished r2 ∈ σ.log ∨ .late r2 ∈ σ.log)

theorem places {σ : CSt} (h : Reach σ) {s r1 r2 : Nat} (ho : InOrder σ.log s r1 r2) : Places σ s r1 r2 := by
  revert ho
  refine reach_move' (P := fun σ => InOrder σ.log s r1 r2 → Places σ s r1 r2) ?_ ?_ h
  · rintro ⟨l1, l2, h, _⟩
    simp [CSt.init] at h
  intro σ σ' old new es hr hp hd hsh ⟨l1, l2, hl, hn, h1⟩
  rw [hd.log] at hl
  have hes : es = [] ∨ ∃ e, es = [e] := by cases hsh <;> first | exact .inl rfl | exact .inr ⟨_, rfl⟩
  by_cases hx : es = [.accepted s r2] ∧ l2 = []
  · obtain ⟨rfl, rfl⟩ := hx
    have e : σ.log = l1 := (List.append_inj' hl rfl).1
    subst e
    have hw := open_waiting hr h1 hn
    cases hsh with
    | append hx e1 e2 e3 e4 =>
      left
      rw [e1]
      obtain ⟨a, b, hab⟩ := List.append_of_mem hw
      rw [hab]
      have : List.Sublist ([r1] ++ [σ.next]) ((a ++ r1 :: b) ++ [σ.next]) :=
        List.Sublist.append (by simp) (List.Sublist.refl _)
      exact this
  · have ho : InOrder σ.log s r1 r2 := by
      rcases hes with rfl | ⟨e, rfl⟩
      · exact ⟨l1, l2, by simpa using hl, hn, h1⟩
      · rcases List.eq_nil_or_concat l2 with rfl | ⟨l3, x, rfl⟩
        · exfalso
          obtain ⟨_, h2⟩ := List.append_inj' hl rfl
          exact hx ⟨h2, rfl⟩
        · have h' : σ.log ++ [e] = (l1 ++ .accepted s r2 :: l3) ++ [x] := by simpa using hl
          exact ⟨l1, l3, (List.append_inj' h' rfl).1, hn, h1⟩
    rcases hp ho with hA | ⟨f, hf, hs, hB⟩ | ⟨n, rest, hf, hC⟩ | hD
    · have same : σ'.fnOf s = σ.fnOf s → Places σ' s r1 r2 := fun e => .inl (by rw [e]; exact hA)
      cases hsh with
      | @append k hx e1 e2 e3 e4 =>
        by_cases e : s = k
        · subst e
          exact .inl (by rw [e1]; exact hA.trans (List.sublist_append_left _ _))
        · exact same (e2 s e)
      | @remove k n hx _ e1 e2 e3 e4 =>
        by_cases e : s = k
        · subst e
          refine .inr (.inl ⟨_, hd.now _ (List.mem_singleton_self _), rfl, ?_⟩)
          exact hA.reverse
        · exact same (e2 s e)
      | idle h => exact same (h.fn s)
      | copy _ h => exact same (h s)
      | refuse h => exact same (h.fn s)
      | check h => exact same (h.fn s)
      | close h => exact same (h.fn s)
      | child h => exact same (h.fn s)
      | unlink _ h => exact same (h s)
      | empty h => exact same (h.fn s)
      | start h => exact same (h.fn s)
      | finish h => exact same (h.fn s)
      | wake h => exact same (h.fn s)
      | late h => exact same (h.fn s)
      | next h => exact same (h.fn s)
      | ret _ h => exact same (h s)
    · rcases hd.bwd f hf with ho | hn
      · cases hsh <;> simp only [List.mem_cons, List.not_mem_nil, or_false] at ho <;>
          first
            | exact ho.elim
            | (subst ho; simp [Frame.held] at hB; done)
            | skip
        case start k n q rest h =>
          subst ho
          have hs : k = s := hs
          subst hs
          have hB : List.Sublist [r2, r1] (q :: rest) := hB
          cases hB with
          | cons _ h' => exact .inr (.inl ⟨_, hd.now _ (List.mem_singleton_self _), rfl, h'⟩)
          | cons_cons _ h' => exact .inr (.inr (.inl ⟨_, _, hd.now _ (List.mem_singleton_self _), List.singleton_sublist.1 h'⟩))
        case wake =>
          subst ho
          exact .inr (.inl ⟨_, hd.now _ (List.mem_singleton_self _), hs, hB⟩)
        case late =>
          subst ho
          exact .inr (.inl ⟨_, hd.now _ (List.mem_singleton_self _), hs, hB⟩)
      · exact .inr (.inl ⟨f, hn, hs, hB⟩)
    · rcases hd.bwd _ hf with ho | hn
      · cases hsh <;> simp only [List.mem_cons, List.not_mem_nil, or_false, reduceCtorEq, Frame.wait.injEq] at ho
        case wake h hl =>
          obtain ⟨rfl, rfl, rfl, rfl⟩ := ho
          exact .inr (.inr (.inr (.inl (by rw [hd.log]; exact List.mem_append_left _ hl))))
        case late h =>
          obtain ⟨rfl, rfl, rfl, rfl⟩ := ho
          exact .inr (.inr (.inr (.inr (by rw [hd.log]; simp))))
      · exact .inr (.inr (.inl ⟨n, rest, hn, hC⟩))
    · refine .inr (.inr (.inr ?_))
      rw [hd.log]
      exact hD.imp (List.mem_append_left _) (List.mem_append_left _)

/-- **C80** Of two destructors registered on a scope before any `Close` of it began, the one registered first is
started only after the other has finished or has taken more than 60 seconds. -/
theorem C80_reverse_partial {σ : CSt} (h : Reach σ) {s r1 r2 : Nat} (ho : InOrder σ.log s r1 r2) {l1 l2 : List Ev}
    (hl : σ.log = l1 ++ .started s r1 :: l2) : .finished r2 ∈ l1 ∨ .late r2 ∈ l1 := by
  revert l1 l2
  suffices hh : InOrder σ.log s r1 r2 → ∀ l1 l2, σ.log = l1 ++ .started s r1 :: l2 → .finished r2 ∈ l1 ∨ .late r2 ∈ l1 from
    fun {l1 l2} => hh ho l1 l2
  clear ho
  obtain ⟨as, h⟩ := h
  have : ∀ (as : List Act) (σ σ' : CSt), Reach σ →
      (InOrder σ.log s r1 r2 → ∀ l1 l2, σ.log = l1 ++ .started s r1 :: l2 → .finished r2 ∈ l1 ∨ .late r2 ∈ l1) →
      run σ as = some σ' →
      (InOrder σ'.log s r1 r2 → ∀ l1 l2, σ'.log = l1 ++ .started s r1 :: l2 → .finished r2 ∈ l1 ∨ .late r2 ∈ l1) := by
    intro as
    induction as with
    | nil => intro σ σ' _ hp hr; cases hr; exact hp
    | cons a as ih =>
      intro σ σ' hre hp hr
      simp only [run] at hr
      split at hr
      · rename_i τ h1
        have hτ : Reach τ := by
          obtain ⟨bs, hb⟩ := hre
          refine ⟨bs ++ [a], ?_⟩
          rw [run_append, hb]
          simp [run, h1]
        refine ih τ σ' hτ ?_ hr
        intro ho l1 l2 hl
        obtain ⟨old, new, es, ⟨hd, _⟩, hsh⟩ := (step_eff h1).move (reach_wf hre)
        have hes : es = [] ∨ ∃ e, es = [e] := by cases hsh <;> first | exact .inl rfl | exact .inr ⟨_, rfl⟩
        have hm : .started s r1 ∈ τ.log := by rw [hl]; simp
        have hD : .finished r2 ∈ τ.log ∨ .late r2 ∈ τ.log := by
          rcases places hτ ho with hA | ⟨f, hf, hs, hB⟩ | ⟨n, rest, hf, hC⟩ | hD
          · exact absurd hm (waiting_not_started hτ (hA.subset (by simp)))
          · exact absurd hm (held_not_started hτ hf hs (hB.subset (by simp)))
          · exact absurd hm (held_not_started hτ hf rfl hC)
          · exact hD
        have hino : .started s r1 ∈ σ.log → InOrder σ.log s r1 r2 := by
          intro hm'
          obtain ⟨k1, k2, hk, hn, ha⟩ := ho
          have hc := started_closing hre hm'
          rw [hd.log] at hk
          rcases hes with rfl | ⟨e, rfl⟩
          · exact ⟨k1, k2, by simpa using hk, hn, ha⟩
          · rcases List.eq_nil_or_concat k2 with rfl | ⟨k3, x, rfl⟩
            · exact absurd ((List.append_inj' hk rfl).1 ▸ hc) hn
            · have h' : σ.log ++ [e] = (k1 ++ .accepted s r2 :: k3) ++ [x] := by simpa using hk
              exact ⟨k1, k3, (List.append_inj' h' rfl).1, hn, ha⟩
        rw [hd.log] at hl
        rcases hes with rfl | ⟨e, rfl⟩
        · rw [List.append_nil] at hl
          exact hp (hino (by rw [hl]; simp)) l1 l2 hl
        · rcases List.eq_nil_or_concat l2 with rfl | ⟨l3, x, rfl⟩
          · obtain ⟨e1, e2⟩ := List.append_inj' hl rfl
            simp only [List.cons.injEq, and_true] at e2
            subst e1 e2
            rw [hd.log] at hD
            simpa using hD
          · have h' : σ.log ++ [e] = (l1 ++ .started s r1 :: l3) ++ [x] := by simpa using hl
            have h2 := (List.append_inj' h' rfl).1
            exact hp (hino (by rw [h2]; simp)) l1 l3 h2
      · cases hr
  refine this as _ _ ⟨[], rfl⟩ ?_ h
  rintro ⟨l1, l2, h, _⟩
  simp [CSt.init] at h

end Vfilter.ScopeConc
