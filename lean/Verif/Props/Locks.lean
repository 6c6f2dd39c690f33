import Verif.Locks
/-!
# C93, C94: who waits for whom, and who uses the registries at the same time

C93: calls on scopes and dispatchers, from any number of goroutines and on any
schedule, all return.  True if the code that is called back with a mutex held
keeps to an order of the mutexes; otherwise goroutines can wait for ever.

C94: the maps of functions and plugins are never written while somebody else
uses them (which ends a Go program).  True for the calls that lock the
dispatcher; not true for the lookups, which do not.
-/

namespace Vfilter.Locks

/-! ## The order of the mutexes -/

/-- The place of a kind of mutex in the order in which they are taken. -/
def Lock.level : Lock → Nat
  | .cell _ => 0
  | .node _ => 1
  | .agg _ => 2
  | .scope _ => 3
  | .destr _ => 4
  | .disp _ => 5

/-- Its number. -/
def Lock.number : Lock → Nat
  | .cell n | .node n | .agg n | .scope n | .destr n | .disp n => n

/-- `l` may be taken while `h` is held: mutexes of a later kind, or of older
scopes. -/
def Before (h l : Lock) : Prop :=
  h.level < l.level ∨ (h.level = l.level ∧ l.number < h.number)

theorem Before.irrefl (l : Lock) : ¬ Before l l := by
  unfold Before; omega

theorem Before.trans {a b c : Lock} : Before a b → Before b c → Before a c := by
  unfold Before; omega

mutual
/-- The call, and everything that is called back, locks only mutexes of kind `k`
or later at its own level, and code called back with a mutex held only later
ones: with a dispatcher locked nothing is locked, with a scope locked only
dispatchers and lists of destructors, and so on.  Scopes are younger than their
parents. -/
def Call.Orderly (k : Nat) : Call → Prop
  | .touch _ => k ≤ 3
  | .isClosed _ => k ≤ 3
  | .addDestructor _ _ closed print => k ≤ 3 ∧ (closed = true → AllOrderly 4 print)
  | .close _ children _ rounds => k ≤ 3 ∧ AllOrderly k children ∧ AllOrderly k rounds
  | .aggregatorCtx chain => k ≤ 3 ∧ chain.Pairwise (· > ·)
  | .resolve _ _ look => k ≤ 3 ∧ AllOrderly k look
  | .printVars _ members => k ≤ 3 ∧ AllOrderly 4 members
  | .explainer _ _ _ => k ≤ 3
  | .newScope _ _ => k ≤ 3
  | .log _ print => k ≤ 5 ∧ AllOrderly k print
  | .settings _ => k ≤ 5
  | .append _ _ info => k ≤ 5 ∧ AllOrderly 6 info
  | .describe _ plugins functions => k ≤ 5 ∧ AllOrderly 6 plugins ∧ AllOrderly 6 functions
  | .info _ info => k ≤ 5 ∧ AllOrderly 6 info
  | .version _ _ info => k ≤ 5 ∧ AllOrderly k info
  | .similar _ => k ≤ 5
  | .find _ _ => True
  | .modify _ modifier => k ≤ 2 ∧ AllOrderly 3 modifier
  | .remember _ => k ≤ 1
  | .badNumber _ _ print => k ≤ 1 ∧ AllOrderly 2 print
  | .method _ run => k ≤ 0 ∧ AllOrderly 1 run

/-- The same for calls made one after the other. -/
def AllOrderly (k : Nat) : List Call → Prop
  | [] => True
  | c :: rest => c.Orderly k ∧ AllOrderly k rest
end

/-! ## Steps in order -/

/-- With `hs` held, the steps take mutexes in order and give back in the end what
they take, and only what they hold. -/
def Fine : List Lock → List Act → Prop
  | hs, [] => hs = []
  | hs, .lock l :: rest => (∀ h ∈ hs, Before h l) ∧ Fine (l :: hs) rest
  | hs, .unlock l :: rest => l ∈ hs ∧ Fine (hs.erase l) rest
  | hs, .enter _ _ :: rest => Fine hs rest
  | hs, .leave _ _ :: rest => Fine hs rest

/-- `body` is in order and leaves what is held, if all that is held comes before
kind `k`. -/
def Ok (k : Nat) (body : List Act) : Prop :=
  ∀ (hs : List Lock) (rest : List Act), (∀ h ∈ hs, h.level < k) → Fine hs rest →
    Fine hs (body ++ rest)

theorem Ok.nil {k : Nat} : Ok k [] := fun _ _ _ h => h

theorem Ok.append {k : Nat} {a b : List Act} (ha : Ok k a) (hb : Ok k b) : Ok k (a ++ b) := by
  intro hs rest h1 h2
  rw [List.append_assoc]
  exact ha hs _ h1 (hb hs rest h1 h2)

theorem Ok.mono {j k : Nat} {a : List Act} (h : Ok k a) (hjk : j ≤ k) : Ok j a :=
  fun hs rest h1 h2 => h hs rest (fun x hx => Nat.lt_of_lt_of_le (h1 x hx) hjk) h2

theorem Ok.enter {k : Nat} {t : Table} {w : Bool} : Ok k [.enter t w] := fun _ _ _ h => h
theorem Ok.leave {k : Nat} {t : Table} {w : Bool} : Ok k [.leave t w] := fun _ _ _ h => h

theorem Ok.access {k : Nat} {t : Table} {w : Bool} : Ok k (access t w) := fun _ _ _ h => h

theorem Ok.under {k : Nat} {l : Lock} {body : List Act} (hk : k ≤ l.level)
    (hb : Ok (l.level + 1) body) : Ok k (Locks.under l body) := by
  intro hs rest h1 h2
  have e : Locks.under l body ++ rest = .lock l :: (body ++ (.unlock l :: rest)) := by
    simp [Locks.under]
  rw [e]
  refine ⟨fun h hh => Or.inl (Nat.lt_of_lt_of_le (h1 h hh) hk), ?_⟩
  refine hb _ _ ?_ ?_
  · intro h hh
    rcases List.mem_cons.mp hh with rfl | hh
    · omega
    · have := h1 h hh; omega
  · exact ⟨by simp, by simpa using h2⟩

/-- A chain of scopes under scopes that are younger. -/
theorem nested_fine (chain : List Nat) (hc : chain.Pairwise (· > ·)) :
    ∀ (hs : List Lock) (rest : List Act),
      (∀ h ∈ hs, h.level < 3 ∨ (h.level = 3 ∧ ∀ s ∈ chain, s < h.number)) → Fine hs rest →
      Fine hs (nested chain ++ rest) := by
  induction chain with
  | nil => intro hs rest _ h; exact h
  | cons s t ih =>
    intro hs rest h1 h2
    have e : nested (s :: t) ++ rest = .lock (.scope s) :: (nested t ++ (.unlock (.scope s) :: rest)) := by
      simp [nested, under]
    rw [e]
    refine ⟨fun h hh => ?_, ?_⟩
    · rcases h1 h hh with h' | ⟨h', h''⟩
      · exact Or.inl h'
      · exact Or.inr ⟨h', h'' s (by simp)⟩
    · refine ih (List.pairwise_cons.mp hc).2 _ _ ?_ ⟨by simp, by simpa using h2⟩
      intro h hh
      rcases List.mem_cons.mp hh with rfl | hh
      · exact Or.inr ⟨rfl, (List.pairwise_cons.mp hc).1⟩
      · rcases h1 h hh with h' | ⟨h', h''⟩
        · exact Or.inl h'
        · exact Or.inr ⟨h', fun x hx => h'' x (by simp [hx])⟩

mutual
theorem acts_ok : ∀ (c : Call) (k : Nat), c.Orderly k → Ok k c.acts
  | .touch s, k, h => by
    simp only [Call.Orderly] at h; exact .under h .nil
  | .isClosed s, k, h => by
    simp only [Call.Orderly] at h; exact .under h (.under (by simp [Lock.level]) .nil)
  | .addDestructor s d true print, k, h => by
    simp only [Call.Orderly, true_implies] at h
    exact .under h.1 (.append (.append (.under (by simp [Lock.level]) .nil) (.under (by simp [Lock.level]) .nil))
      (all_ok print 4 h.2))
  | .addDestructor s d false print, k, h => by
    simp only [Call.Orderly] at h
    exact .under h.1 (.append (.under (by simp [Lock.level]) .nil) (.under (by simp [Lock.level]) .nil))
  | .close s children parent rounds, k, h => by
    simp only [Call.Orderly] at h
    obtain ⟨h1, h2, h3⟩ := h
    have hp : Ok k (match parent with | some p => Locks.under (.scope p) [] | none => []) := by
      cases parent
      · exact .nil
      · exact .under h1 .nil
    have hd : Ok k (Locks.under (.destr s) []) := .under (Nat.le_trans h1 (by simp [Lock.level])) .nil
    exact .append (.append (.append (.append (.append (.under h1 .nil)
      (all_ok children k h2)) hp) hd) (all_ok rounds k h3)) hd
  | .aggregatorCtx chain, k, h => by
    simp only [Call.Orderly] at h
    intro hs rest h1 h2
    exact nested_fine chain h.2 hs rest (fun x hx => Or.inl (Nat.lt_of_lt_of_le (h1 x hx) h.1)) h2
  | .resolve s deep look, k, h => by
    simp only [Call.Orderly] at h
    refine .append (.append (.under h.1 .nil) ?_) (all_ok look k h.2)
    cases deep
    · exact .under h.1 .nil
    · exact .nil
  | .printVars s members, k, h => by
    simp only [Call.Orderly] at h
    exact .under h.1 (all_ok members 4 h.2)
  | .explainer s d true, k, h => by
    simp only [Call.Orderly] at h; exact .under h (.under (by simp [Lock.level]) .nil)
  | .explainer s d false, k, h => by
    simp only [Call.Orderly] at h; exact .under h .nil
  | .newScope s d, k, h => by
    simp only [Call.Orderly] at h; exact .under h (.append .access .access)
  | .log d print, k, h => by
    simp only [Call.Orderly] at h
    exact .append (.under h.1 .nil) (all_ok print k h.2)
  | .settings d, k, h => by
    simp only [Call.Orderly] at h; exact .under h .nil
  | .append d plugin info, k, h => by
    simp only [Call.Orderly] at h
    exact .under h.1 (.append (all_ok info 6 h.2) .access)
  | .describe d plugins functions, k, h => by
    simp only [Call.Orderly] at h
    exact .under h.1 (.append (.append (.append .enter (all_ok plugins 6 h.2.1)) .leave)
      (.append (.append .enter (all_ok functions 6 h.2.2)) .leave))
  | .info d info, k, h => by
    simp only [Call.Orderly] at h
    exact .under h.1 (.append .access (all_ok info 6 h.2))
  | .version d plugin info, k, h => by
    simp only [Call.Orderly] at h
    exact .append (.under h.1 .access) (all_ok info k h.2)
  | .similar d, k, h => by
    simp only [Call.Orderly] at h; exact .under h .access
  | .find d plugin, k, h => Ok.access
  | .modify a modifier, k, h => by
    simp only [Call.Orderly] at h
    exact .under h.1 (all_ok modifier 3 h.2)
  | .remember n, k, h => by
    simp only [Call.Orderly] at h
    exact .append (.under h .nil) (.under h .nil)
  | .badNumber n d print, k, h => by
    simp only [Call.Orderly] at h
    exact .under h.1 (.append (.under (by simp [Lock.level]) .nil) (all_ok print 2 h.2))
  | .method c run, k, h => by
    simp only [Call.Orderly] at h
    exact .under h.1 (all_ok run 1 h.2)

theorem all_ok : ∀ (cs : List Call) (k : Nat), AllOrderly k cs → Ok k (allActs cs)
  | [], _, _ => .nil
  | c :: rest, k, h => by
    simp only [AllOrderly] at h
    exact .append (acts_ok c k h.1) (all_ok rest k h.2)
end

/-! ## Executions -/

/-- Nobody holds what another one holds, and what everybody still has to do is in
order. -/
structure Sound (gs : List Gor) : Prop where
  fine : ∀ (i : Nat) (g : Gor), gs[i]? = some g → Fine g.holds g.todo
  apart : ∀ (i j : Nat) (g h : Gor), gs[i]? = some g → gs[j]? = some h → i ≠ j →
    ∀ l ∈ g.holds, l ∉ h.holds

theorem set_get {α : Type} {l : List α} {i j : Nat} {x y : α} (h : (l.set i x)[j]? = some y) :
    (j = i ∧ y = x) ∨ (j ≠ i ∧ l[j]? = some y) := by
  rw [List.getElem?_set] at h
  split at h
  · rename_i e
    split at h
    · exact Or.inl ⟨e.symm, (Option.some.inj h).symm⟩
    · cases h
  · rename_i e
    exact Or.inr ⟨fun e' => e e'.symm, h⟩

/-- A change of one goroutine that takes only what nobody holds. -/
theorem Sound.set {gs : List Gor} (s : Sound gs) {i : Nat} {g : Gor} (hg : gs[i]? = some g)
    {g' : Gor} (hf : Fine g'.holds g'.todo)
    (hn : ∀ l ∈ g'.holds, l ∈ g.holds ∨ ∀ (j : Nat) (h : Gor), gs[j]? = some h → l ∉ h.holds) :
    Sound (gs.set i g') := by
  constructor
  · intro j x hx
    rcases set_get hx with ⟨_, rfl⟩ | ⟨_, hx⟩
    · exact hf
    · exact s.fine j x hx
  · intro j k x y hx hy hne l hl hl'
    rcases set_get hx with ⟨ej, ex⟩ | ⟨_, hx2⟩
    · rcases set_get hy with ⟨ek, _⟩ | ⟨_, hy2⟩
      · exact hne (ej.trans ek.symm)
      · rcases hn l (ex ▸ hl) with h | h
        · exact s.apart i k g y hg hy2 (ej ▸ hne) l h hl'
        · exact h k y hy2 hl'
    · rcases set_get hy with ⟨ek, ey⟩ | ⟨_, hy2⟩
      · rcases hn l (ey ▸ hl') with h | h
        · exact s.apart i j g x hg hx2 (ek ▸ Ne.symm hne) l h hl
        · exact h j x hx2 hl
      · exact s.apart j k x y hx2 hy2 hne l hl hl'

theorem Sound.step {gs gs' : List Gor} {i : Nat} (s : Sound gs) (h : step gs i = some gs') :
    Sound gs' := by
  unfold Locks.step at h
  split at h
  · cases h
  · rename_i g hg
    have hf := s.fine i g hg
    split at h
    · cases h
    · rename_i l rest e
      rw [e] at hf
      split at h
      · cases h
      · rename_i hfree
        cases h
        refine s.set hg hf.2 fun l' hl' => ?_
        rcases List.mem_cons.mp hl' with rfl | hl'
        · refine Or.inr fun j x hx hm => hfree ?_
          exact List.any_eq_true.mpr ⟨x, List.mem_of_getElem? hx, by simpa using hm⟩
        · exact Or.inl hl'
    · rename_i l rest e
      rw [e] at hf; cases h
      exact s.set hg hf.2 fun l' hl' => Or.inl (List.mem_of_mem_erase hl')
    · rename_i t w rest e
      rw [e] at hf; cases h
      exact s.set hg hf fun l' hl' => Or.inl hl'
    · rename_i t w rest e
      rw [e] at hf; cases h
      exact s.set hg hf fun l' hl' => Or.inl hl'

theorem Sound.run {is : List Nat} : ∀ {gs gs' : List Gor}, Sound gs → run gs is = some gs' →
    Sound gs' := by
  induction is with
  | nil => intro gs gs' s h; cases h; exact s
  | cons i is ih =>
    intro gs gs' s h
    unfold Locks.run at h
    split at h
    · rename_i e; exact ih (s.step e) h
    · cases h

theorem Sound.start {cs : List (List Call)} (h : ∀ c ∈ cs, AllOrderly 0 c) :
    Sound (cs.map Gor.start) := by
  constructor
  · intro i g hg
    obtain ⟨c, hc, rfl⟩ := List.mem_map.mp (List.mem_of_getElem? hg)
    have := all_ok c 0 (h c hc) [] [] (by simp) rfl
    simpa [Gor.start] using this
  · intro i j g g' hg _ _ l hl
    obtain ⟨c, _, rfl⟩ := List.mem_map.mp (List.mem_of_getElem? hg)
    simp [Gor.start] at hl

/-- A finite nonempty list has an element that is not before another one. -/
theorem exists_last {α : Type} {R : α → α → Prop} (irr : ∀ a, ¬ R a a)
    (tr : ∀ {a b c}, R a b → R b c → R a c) :
    ∀ l : List α, l ≠ [] → ∃ a ∈ l, ∀ b ∈ l, ¬ R a b := by
  intro l
  induction l with
  | nil => intro h; exact absurd rfl h
  | cons x t ih =>
    intro _
    by_cases ht : t = []
    · subst ht
      exact ⟨x, by simp, by simpa using irr x⟩
    · obtain ⟨m, hm, hmax⟩ := ih ht
      by_cases hx : R m x
      · refine ⟨x, by simp, fun b hb => ?_⟩
        rcases List.mem_cons.mp hb with rfl | hb
        · exact irr b
        · exact fun h => hmax b hb (tr hx h)
      · refine ⟨m, by simp [hm], fun b hb => ?_⟩
        rcases List.mem_cons.mp hb with rfl | hb
        · exact hx
        · exact hmax b hb

/-- The mutex a goroutine is about to take. -/
def wants (g : Gor) : Option Lock :=
  match g.todo with
  | .lock l :: _ => some l
  | _ => none

/-- If nobody can go on, everybody has finished. -/
theorem Sound.progress {gs : List Gor} (s : Sound gs) (hstuck : ∀ i, Locks.step gs i = none) :
    ∀ g ∈ gs, g.todo = [] ∧ g.holds = [] := by
  -- whoever is not done waits for a mutex that is held
  have waits : ∀ (i : Nat) (g : Gor), gs[i]? = some g → g.todo ≠ [] →
      ∃ l, wants g = some l ∧ (∀ h ∈ g.holds, Before h l) ∧
        ∃ (j : Nat) (x : Gor), gs[j]? = some x ∧ l ∈ x.holds := by
    intro i g hg hne
    have hs := hstuck i
    have hf := s.fine i g hg
    unfold Locks.step at hs
    rw [hg] at hs
    obtain ⟨todo, holds, inside⟩ := g
    cases todo with
    | nil => exact absurd rfl hne
    | cons a rest =>
      cases a with
      | lock l =>
        simp only at hs
        split at hs
        · rename_i hany
          obtain ⟨x, hx, hx'⟩ := List.any_eq_true.mp hany
          obtain ⟨j, hj⟩ := List.getElem?_of_mem hx
          exact ⟨l, rfl, hf.1, j, x, hj, by simpa using hx'⟩
        · cases hs
      | unlock l => simp at hs
      | enter t w => simp at hs
      | leave t w => simp at hs
  -- the mutexes that are waited for
  have none_left : (gs.filterMap wants) = [] := by
    refine Classical.byContradiction fun hne => ?_
    obtain ⟨l, hl, hmax⟩ := exists_last Before.irrefl (fun h h' => Before.trans h h')
      (gs.filterMap wants) hne
    obtain ⟨g, hg, hw⟩ := List.mem_filterMap.mp hl
    obtain ⟨i, hi⟩ := List.getElem?_of_mem hg
    have hne' : g.todo ≠ [] := by intro e; rw [wants, e] at hw; cases hw
    obtain ⟨l', hw', _, j, x, hj, hx⟩ := waits i g hi hne'
    rw [hw] at hw'; cases hw'
    -- its holder is not done either
    have hxne : x.todo ≠ [] := by
      intro e
      have := s.fine j x hj
      rw [e] at this
      have h0 : x.holds = [] := this
      rw [h0] at hx; cases hx
    obtain ⟨l2, hw2, hb, _⟩ := waits j x hj hxne
    exact hmax l2 (List.mem_filterMap.mpr ⟨x, List.mem_of_getElem? hj, hw2⟩) (hb l hx)
  intro g hg
  obtain ⟨i, hi⟩ := List.getElem?_of_mem hg
  have ht : g.todo = [] := by
    refine Classical.byContradiction fun hne => ?_
    obtain ⟨l, hw, _⟩ := waits i g hi hne
    have : l ∈ gs.filterMap wants := List.mem_filterMap.mpr ⟨g, hg, hw⟩
    rw [none_left] at this; cases this
  refine ⟨ht, ?_⟩
  have := s.fine i g hi
  rw [ht] at this
  exact this

/-- The steps before all goroutines. -/
def left (gs : List Gor) : Nat := (gs.map (fun g => g.todo.length)).sum

theorem sum_set {gs : List Gor} : ∀ {i : Nat} {g g' : Gor}, gs[i]? = some g →
    g'.todo.length + 1 = g.todo.length → left (gs.set i g') + 1 = left gs := by
  induction gs with
  | nil => intro i g g' h; cases h
  | cons x t ih =>
    intro i g g' h hl
    cases i with
    | zero =>
      simp at h; subst h
      simp [left]; omega
    | succ i =>
      simp at h
      have := ih h hl
      simp [left] at this ⊢; omega

theorem step_left {gs gs' : List Gor} {i : Nat} (h : step gs i = some gs') :
    left gs' + 1 = left gs := by
  unfold step at h
  split at h
  · cases h
  · rename_i g hg
    split at h
    · cases h
    · rename_i l rest e
      split at h
      · cases h
      · cases h; exact sum_set hg (by rw [e]; rfl)
    all_goals (rename_i e; cases h; exact sum_set hg (by rw [e]; rfl))

theorem run_left {is : List Nat} : ∀ {gs gs' : List Gor}, run gs is = some gs' →
    left gs' + is.length = left gs := by
  induction is with
  | nil => intro gs gs' h; cases h; rfl
  | cons i is ih =>
    intro gs gs' h
    unfold run at h
    split at h
    · rename_i e
      have h1 := ih h
      have h2 := step_left e
      simp; omega
    · cases h

/-- C93: any number of goroutines make calls that keep to the order of the
mutexes.  However they are scheduled: as long as one of the calls has not
returned, some goroutine can go on. -/
theorem C93_progress_partial (cs : List (List Call)) (horder : ∀ c ∈ cs, AllOrderly 0 c)
    (is : List Nat) (gs : List Gor) (hrun : run (cs.map Gor.start) is = some gs)
    (hopen : ∃ g ∈ gs, g.todo ≠ []) : ∃ i gs', step gs i = some gs' := by
  refine Classical.byContradiction fun hno => ?_
  have hst : ∀ i, step gs i = none := by
    intro i
    cases h : step gs i with
    | none => rfl
    | some gs' => exact absurd ⟨i, gs', h⟩ hno
  obtain ⟨g, hg, hne⟩ := hopen
  exact hne (((Sound.start horder).run hrun).progress hst g hg).1

/-- C93: and every execution that is not cut short ends, after as many steps as
the calls have, with all calls returned and no mutex held. -/
theorem C93_ends_partial (cs : List (List Call)) (horder : ∀ c ∈ cs, AllOrderly 0 c)
    (is : List Nat) (gs : List Gor) (hrun : run (cs.map Gor.start) is = some gs) :
    is.length ≤ (cs.map (fun c => (allActs c).length)).sum ∧
      ((∀ i, step gs i = none) ↔ is.length = (cs.map (fun c => (allActs c).length)).sum) ∧
      ((∀ i, step gs i = none) → ∀ g ∈ gs, g.todo = [] ∧ g.holds = []) := by
  have hl := run_left hrun
  have e : left (cs.map Gor.start) = (cs.map (fun c => (allActs c).length)).sum := by
    simp [left, Gor.start, Function.comp_def]
  rw [e] at hl
  have hp := ((Sound.start horder).run hrun).progress
  refine ⟨by omega, ⟨fun h => ?_, fun h i => ?_⟩, hp⟩
  · have h0 : left gs = 0 := by
      have : ∀ (l : List Gor), (∀ g ∈ l, g.todo = [] ∧ g.holds = []) → left l = 0 := by
        intro l
        induction l with
        | nil => intro _; rfl
        | cons x t ih =>
          intro hx
          have h1 := ih (fun g hg => hx g (by simp [hg]))
          have h2 := (hx x (by simp)).1
          simp [left] at h1 ⊢
          exact ⟨h2, h1⟩
      exact this gs (hp h)
    omega
  · have h0 : left gs = 0 := by omega
    cases hs : step gs i with
    | none => rfl
    | some gs' => have := step_left hs; omega

/-! ## Callbacks that call nothing -/

mutual
/-- No code of the application is called back that makes calls of its own with a
mutex held, and scopes are younger than their parents. -/
def Call.Plain : Call → Prop
  | .addDestructor _ _ closed print => closed = true → print = []
  | .close _ children _ rounds => AllPlain children ∧ AllPlain rounds
  | .aggregatorCtx chain => chain.Pairwise (· > ·)
  | .resolve _ _ look => AllPlain look
  | .printVars _ members => members = []
  | .log _ print => AllPlain print
  | .append _ _ info => info = []
  | .describe _ plugins functions => plugins = [] ∧ functions = []
  | .info _ info => info = []
  | .version _ _ info => AllPlain info
  | .modify _ modifier => modifier = []
  | .badNumber _ _ print => print = []
  | .method _ run => run = []
  | _ => True

/-- The same for calls made one after the other. -/
def AllPlain : List Call → Prop
  | [] => True
  | c :: rest => c.Plain ∧ AllPlain rest
end

mutual
theorem plain_orderly : ∀ c : Call, c.Plain → c.Orderly 0
  | .touch _, _ => by simp [Call.Orderly]
  | .isClosed _, _ => by simp [Call.Orderly]
  | .addDestructor _ _ closed print, h => by
    simp only [Call.Plain] at h
    simp only [Call.Orderly]
    exact ⟨by decide, fun hc => by rw [h hc]; simp [AllOrderly]⟩
  | .close _ children _ rounds, h => by
    simp only [Call.Plain] at h
    simp only [Call.Orderly]
    exact ⟨by decide, all_plain_orderly children h.1, all_plain_orderly rounds h.2⟩
  | .aggregatorCtx _, h => by
    simp only [Call.Plain] at h
    simp only [Call.Orderly]; exact ⟨by decide, h⟩
  | .resolve _ _ look, h => by
    simp only [Call.Plain] at h
    simp only [Call.Orderly]; exact ⟨by decide, all_plain_orderly look h⟩
  | .printVars _ members, h => by
    simp only [Call.Plain] at h
    simp [Call.Orderly, AllOrderly, h]
  | .explainer _ _ _, _ => by simp [Call.Orderly]
  | .newScope _ _, _ => by simp [Call.Orderly]
  | .log _ print, h => by
    simp only [Call.Plain] at h
    simp only [Call.Orderly]; exact ⟨by decide, all_plain_orderly print h⟩
  | .settings _, _ => by simp [Call.Orderly]
  | .append _ _ info, h => by
    simp only [Call.Plain] at h
    simp [Call.Orderly, AllOrderly, h]
  | .describe _ p f, h => by
    simp only [Call.Plain] at h
    simp [Call.Orderly, AllOrderly, h.1, h.2]
  | .info _ info, h => by
    simp only [Call.Plain] at h
    simp [Call.Orderly, AllOrderly, h]
  | .version _ _ info, h => by
    simp only [Call.Plain] at h
    simp only [Call.Orderly]; exact ⟨by decide, all_plain_orderly info h⟩
  | .similar _, _ => by simp [Call.Orderly]
  | .find _ _, _ => by simp [Call.Orderly]
  | .modify _ m, h => by
    simp only [Call.Plain] at h
    simp [Call.Orderly, AllOrderly, h]
  | .remember _, _ => by simp [Call.Orderly]
  | .badNumber _ _ p, h => by
    simp only [Call.Plain] at h
    simp [Call.Orderly, AllOrderly, h]
  | .method _ r, h => by
    simp only [Call.Plain] at h
    simp [Call.Orderly, AllOrderly, h]

theorem all_plain_orderly : ∀ cs : List Call, AllPlain cs → AllOrderly 0 cs
  | [], _ => by simp [AllOrderly]
  | c :: rest, h => by
    simp only [AllPlain] at h
    simp only [AllOrderly]
    exact ⟨plain_orderly c h.1, all_plain_orderly rest h.2⟩
end

/-- C93: so calls whose callbacks with a mutex held make no calls of their own
never wait for ever. -/
theorem C93_plain_partial (cs : List (List Call)) (hplain : ∀ c ∈ cs, AllPlain c)
    (is : List Nat) (gs : List Gor) (hrun : run (cs.map Gor.start) is = some gs)
    (hstuck : ∀ i, step gs i = none) : ∀ g ∈ gs, g.todo = [] ∧ g.holds = [] :=
  (C93_ends_partial cs (fun c hc => all_plain_orderly c (hplain c hc)) is gs hrun).2.2 hstuck

/-! ## Without the order -/

/-- Goroutines that wait for ever: somebody has not finished, and nobody can go
on. -/
def Deadlock (gs : List Gor) : Prop := (∃ g ∈ gs, g.todo ≠ []) ∧ ∀ i, step gs i = none

theorem deadlock_of {gs : List Gor} (h1 : gs.any (fun g => !g.todo.isEmpty) = true)
    (h2 : (List.range gs.length).all (fun i => (step gs i).isNone) = true) : Deadlock gs := by
  constructor
  · obtain ⟨g, hg, h⟩ := List.any_eq_true.mp h1
    exact ⟨g, hg, by simpa using h⟩
  · intro i
    by_cases hi : i < gs.length
    · have := List.all_eq_true.mp h2 i (by simpa using hi)
      simpa using this
    · unfold step
      rw [List.getElem?_eq_none (by omega)]

/-- One goroutine that comes to its end if it is let never waits for ever. -/
theorem solo : ∀ (n : Nat) (g g' : Gor), run [g] (List.replicate n 0) = some [g'] → g'.todo = [] →
    ∀ is gs, run [g] is = some gs → ¬ Deadlock gs := by
  intro n
  induction n with
  | zero =>
    intro g g' h hd is gs hr
    simp [run] at h; subst h
    have hno : ∀ i, step [g] i = none := by
      intro i
      cases i with
      | zero => simp [step, hd]
      | succ i => simp [step]
    cases is with
    | nil =>
      simp [run] at hr; subst hr
      rintro ⟨⟨x, hx, hx'⟩, _⟩
      simp at hx; subst hx; exact hx' hd
    | cons i is => simp [run, hno] at hr
  | succ n ih =>
    intro g g' h hd is gs hr
    rw [List.replicate_succ] at h
    unfold run at h
    cases h1 : step [g] 0 with
    | none => simp [h1] at h
    | some gs1 =>
      simp [h1] at h
      have hshape : ∃ g1, gs1 = [g1] := by
        unfold step at h1
        simp only [List.getElem?_cons_zero] at h1
        split at h1
        · cases h1
        · split at h1
          · cases h1
          · cases h1; exact ⟨_, rfl⟩
        all_goals (cases h1; exact ⟨_, rfl⟩)
      obtain ⟨g1, rfl⟩ := hshape
      cases is with
      | nil =>
        simp [run] at hr; subst hr
        rintro ⟨_, hx⟩
        rw [hx 0] at h1; cases h1
      | cons i is =>
        cases i with
        | zero =>
          simp [run, h1] at hr
          exact ih g1 g' h hd is gs hr
        | succ i => simp [run, step] at hr

/-- C93: registering a function or plugin whose `Info` logs something never
returns, even with one goroutine: the dispatcher is locked when `Info` is called,
and logging locks it again.  The same for `Describe` and `Info`. -/
theorem C93_info_logs_refuted (d : Disp) (plugin : Bool) :
    (∃ gs, run ([[Call.append d plugin [.log d []]]].map Gor.start) [0] = some gs ∧ Deadlock gs) ∧
      (∃ gs, run ([[Call.describe d [.log d []] []]].map Gor.start) [0, 0] = some gs ∧ Deadlock gs) ∧
      (∃ gs, run ([[Call.info d [.log d []]]].map Gor.start) [0, 0, 0] = some gs ∧ Deadlock gs) := by
  refine ⟨⟨_, rfl, deadlock_of ?_ ?_⟩, ⟨_, rfl, deadlock_of ?_ ?_⟩, ⟨_, rfl, deadlock_of ?_ ?_⟩⟩
  all_goals simp [step, Call.acts, allActs, under, access, Gor.start, List.range, List.range.loop]

/-- C93: if `Info` looks at a variable of the scope, describing the scope and
asking for its explainer deadlock when they run at the same time, although each
alone returns: one locks the dispatcher and then the scope, the other the scope
and then the dispatcher. -/
theorem C93_info_reads_refuted (s : Nat) (d : Disp) :
    (∃ gs, run ([[Call.describe d [.resolve s false []] []], [.explainer s d true]].map Gor.start)
      [0, 0, 1] = some gs ∧ Deadlock gs) ∧
    (∀ is gs, run ([[Call.describe d [.resolve s false []] []]].map Gor.start) is = some gs →
      ¬ Deadlock gs) ∧
    (∀ is gs, run ([[Call.explainer s d true]].map Gor.start) is = some gs → ¬ Deadlock gs) := by
  refine ⟨⟨[⟨[.lock (.scope s), .unlock (.scope s), .lock (.scope s), .unlock (.scope s),
      .leave (d.table true) false, .enter (d.table false) false, .leave (d.table false) false,
      .unlock (.disp d.mutex)], [.disp d.mutex], [(d.table true, false)]⟩,
    ⟨[.lock (.disp d.mutex), .unlock (.disp d.mutex), .unlock (.scope s)], [.scope s], []⟩],
    ?_, deadlock_of ?_ ?_⟩, ?_, ?_⟩
  · simp [run, step, Call.acts, allActs, under, Gor.start]
  · simp
  · simp [step, List.range, List.range.loop]
  · refine solo 10 _ ⟨[], [], []⟩ ?_ rfl
    simp [run, step, Call.acts, allActs, under, Gor.start, List.replicate]
  · refine solo 4 _ ⟨[], [], []⟩ ?_ rfl
    simp [run, step, Call.acts, allActs, under, Gor.start, List.replicate]

/-- C93: adding a destructor to a closed scope never returns if the logger looks
at the scope: the refusal is logged with the scope locked. -/
theorem C93_logger_refuted (s : Nat) (d : Disp) :
    ∃ is gs, run ([[Call.addDestructor s d true [.touch s]]].map Gor.start) is = some gs ∧
      Deadlock gs := by
  refine ⟨[0, 0, 0, 0, 0],
    [⟨[.lock (.scope s), .unlock (.scope s), .unlock (.scope s)], [.scope s], []⟩],
    by simp [run, step, Call.acts, allActs, under, Gor.start], deadlock_of ?_ ?_⟩
  all_goals simp [step, Call.acts, allActs, under, Gor.start, List.range, List.range.loop]

/-- C93: a name that is not found is reported with the names that are there; this
never returns if listing the members of one of the variables of the scope looks
at the scope. -/
theorem C93_members_refuted (s : Nat) :
    ∃ is gs, run ([[Call.printVars s [.touch s]]].map Gor.start) is = some gs ∧ Deadlock gs := by
  refine ⟨[0], _, rfl, deadlock_of ?_ ?_⟩
  all_goals simp [step, Call.acts, allActs, under, Gor.start, List.range, List.range.loop]

/-- One of the calls that keep to the order, in a list. -/
example : ∃ c : List Call, AllOrderly 0 c ∧ (allActs c).length = 18 ∧
    c = [.printVars 7 [.log ⟨0, 0⟩ []], .aggregatorCtx [7, 3], .modify 1 [.log ⟨0, 0⟩ []],
      .append ⟨0, 0⟩ false [], .find ⟨0, 0⟩ true] :=
  ⟨_, by simp [AllOrderly, Call.Orderly], by simp [allActs, Call.acts, under, nested, access], rfl⟩

/-- Two goroutines that use the same mutexes, with callbacks under them, from the
start to the end. -/
example : ∃ gs, run ([[Call.explainer 1 ⟨0, 0⟩ true], [.append ⟨0, 0⟩ false []]].map Gor.start)
    [1, 0, 1, 1, 1, 0, 0, 0] = some gs ∧ ∀ g ∈ gs, g.todo = [] ∧ g.holds = [] := by
  refine ⟨_, rfl, ?_⟩
  decide

/-! ## The maps -/

/-- The number of a map. -/
def Table.number : Table → Nat
  | .functions n | .plugins n => n

mutual
/-- The call and what it calls back look things up only through the calls that
lock the dispatcher (not `GetFunction`, `GetPlugin`, `NewScope`), and every map
belongs to one dispatcher mutex, `mx` (nobody has called `ClearContext`). -/
def Call.Locked (mx : Nat → Nat) : Call → Prop
  | .addDestructor _ _ _ print => AllLocked mx print
  | .close _ children _ rounds => AllLocked mx children ∧ AllLocked mx rounds
  | .resolve _ _ look => AllLocked mx look
  | .printVars _ members => AllLocked mx members
  | .log _ print => AllLocked mx print
  | .append d _ info => d.mutex = mx d.maps ∧ AllLocked mx info
  | .describe d plugins functions =>
    d.mutex = mx d.maps ∧ AllLocked mx plugins ∧ AllLocked mx functions
  | .info d info => d.mutex = mx d.maps ∧ AllLocked mx info
  | .version d _ info => d.mutex = mx d.maps ∧ AllLocked mx info
  | .similar d => d.mutex = mx d.maps
  | .modify _ modifier => AllLocked mx modifier
  | .badNumber _ _ print => AllLocked mx print
  | .method _ run => AllLocked mx run
  | .find _ _ => False
  | .newScope _ _ => False
  | _ => True

/-- The same for calls made one after the other. -/
def AllLocked (mx : Nat → Nat) : List Call → Prop
  | [] => True
  | c :: rest => c.Locked mx ∧ AllLocked mx rest
end

/-- With `hs` held and in the middle of the accesses `ins`, maps are only accessed
with their mutex held. -/
def Guard (mx : Nat → Nat) : List Lock → List (Table × Bool) → List Act → Prop
  | _, _, [] => True
  | hs, ins, .lock l :: rest => Guard mx (l :: hs) ins rest
  | hs, ins, .unlock l :: rest =>
    (∀ p ∈ ins, Lock.disp (mx p.1.number) ∈ hs.erase l) ∧ Guard mx (hs.erase l) ins rest
  | hs, ins, .enter t w :: rest =>
    Lock.disp (mx t.number) ∈ hs ∧ Guard mx hs ((t, w) :: ins) rest
  | hs, ins, .leave t w :: rest => Guard mx hs (ins.erase (t, w)) rest

/-- `body` does so if `need` is held, and leaves everything as it was. -/
def Guarded (mx : Nat → Nat) (need : List Lock) (body : List Act) : Prop :=
  ∀ hs ins rest, (∀ l ∈ need, l ∈ hs) → (∀ p ∈ ins, Lock.disp (mx p.1.number) ∈ hs) →
    Guard mx hs ins rest → Guard mx hs ins (body ++ rest)

section
variable {mx : Nat → Nat}

theorem Guarded.nil {need : List Lock} : Guarded mx need [] := fun _ _ _ _ _ h => h

theorem Guarded.append {need : List Lock} {a b : List Act} (ha : Guarded mx need a)
    (hb : Guarded mx need b) : Guarded mx need (a ++ b) := by
  intro hs ins rest h1 h2 h3
  rw [List.append_assoc]
  exact ha hs ins _ h1 h2 (hb hs ins rest h1 h2 h3)

theorem Guarded.more {need : List Lock} {a : List Act} (h : Guarded mx [] a) : Guarded mx need a :=
  fun hs ins rest _ h2 h3 => h hs ins rest (by simp) h2 h3

theorem Guarded.under {need : List Lock} {l : Lock} {body : List Act}
    (h : Guarded mx [l] body) : Guarded mx need (Locks.under l body) := by
  intro hs ins rest _ h2 h3
  have e : Locks.under l body ++ rest = .lock l :: (body ++ (.unlock l :: rest)) := by
    simp [Locks.under]
  rw [e]
  exact h (l :: hs) ins _ (by simp) (fun p hp => List.mem_cons_of_mem _ (h2 p hp))
    ⟨by simpa using h2, by simpa using h3⟩

/-- An access around calls, with the mutex held. -/
theorem Guarded.visit {d : Disp} (hd : d.mutex = mx d.maps) {b w : Bool} {body : List Act}
    (h : Guarded mx [] body) :
    Guarded mx [.disp d.mutex] ([.enter (d.table b) w] ++ body ++ [.leave (d.table b) w]) := by
  intro hs ins rest h1 h2 h3
  have e : ([Act.enter (d.table b) w] ++ body ++ [.leave (d.table b) w]) ++ rest =
      .enter (d.table b) w :: (body ++ (.leave (d.table b) w :: rest)) := by simp
  have hn : (d.table b).number = d.maps := by cases b <;> rfl
  have hm : Lock.disp (mx (d.table b).number) ∈ hs := by
    rw [hn, ← hd]; exact h1 _ (by simp)
  rw [e]
  refine ⟨hm, h hs _ _ (by simp) ?_ ?_⟩
  · intro p hp
    rcases List.mem_cons.mp hp with rfl | hp
    · exact hm
    · exact h2 p hp
  · change Guard mx hs ((_ :: ins).erase _) rest
    simpa using h3

theorem Guarded.access {d : Disp} (hd : d.mutex = mx d.maps) {b w : Bool} :
    Guarded mx [.disp d.mutex] (access (d.table b) w) := by
  simpa [Locks.access] using Guarded.visit hd (b := b) (w := w) (body := []) .nil

theorem nested_guarded (chain : List Nat) : Guarded mx [] (nested chain) := by
  induction chain with
  | nil => exact .nil
  | cons s t ih => exact .under (.more ih)

mutual
theorem acts_guarded : ∀ c : Call, c.Locked mx → Guarded mx [] c.acts
  | .touch s, _ => .under .nil
  | .isClosed s, _ => .under (.under .nil)
  | .addDestructor s d true print, h => by
    simp only [Call.Locked] at h
    exact .under (.append (.append (.under .nil) (.under .nil)) (.more (all_guarded print h)))
  | .addDestructor s d false print, _ => .under (.append (.under .nil) (.under .nil))
  | .close s children parent rounds, h => by
    simp only [Call.Locked] at h
    have hp : Guarded mx [] (match parent with | some p => Locks.under (.scope p) [] | none => []) := by
      cases parent
      · exact .nil
      · exact .under .nil
    exact .append (.append (.append (.append (.append (.under .nil)
      (all_guarded children h.1)) hp) (.under .nil)) (all_guarded rounds h.2)) (.under .nil)
  | .aggregatorCtx chain, _ => nested_guarded chain
  | .resolve s deep look, h => by
    simp only [Call.Locked] at h
    refine .append (.append (.under .nil) ?_) (all_guarded look h)
    cases deep
    · exact .under .nil
    · exact .nil
  | .printVars s members, h => by
    simp only [Call.Locked] at h
    exact .under (.more (all_guarded members h))
  | .explainer s d true, _ => .under (.under .nil)
  | .explainer s d false, _ => .under .nil
  | .newScope s d, h => by simp [Call.Locked] at h
  | .log d print, h => by
    simp only [Call.Locked] at h
    exact .append (.under .nil) (all_guarded print h)
  | .settings d, _ => .under .nil
  | .append d plugin info, h => by
    simp only [Call.Locked] at h
    exact .under (.append (.more (all_guarded info h.2)) (.access h.1))
  | .describe d plugins functions, h => by
    simp only [Call.Locked] at h
    exact .under (.append (.visit h.1 (all_guarded plugins h.2.1))
      (.visit h.1 (all_guarded functions h.2.2)))
  | .info d info, h => by
    simp only [Call.Locked] at h
    exact .under (.append (.access h.1) (.more (all_guarded info h.2)))
  | .version d plugin info, h => by
    simp only [Call.Locked] at h
    exact .append (.under (.access h.1)) (all_guarded info h.2)
  | .similar d, h => by
    simp only [Call.Locked] at h; exact .under (.access h)
  | .find d plugin, h => by simp [Call.Locked] at h
  | .modify a modifier, h => by
    simp only [Call.Locked] at h
    exact .under (.more (all_guarded modifier h))
  | .remember n, _ => .append (.under .nil) (.under .nil)
  | .badNumber n d print, h => by
    simp only [Call.Locked] at h
    exact .under (.append (.under .nil) (.more (all_guarded print h)))
  | .method c run, h => by
    simp only [Call.Locked] at h
    exact .under (.more (all_guarded run h))

theorem all_guarded : ∀ cs : List Call, AllLocked mx cs → Guarded mx [] (allActs cs)
  | [], _ => .nil
  | c :: rest, h => by
    simp only [AllLocked] at h
    exact .append (acts_guarded c h.1) (all_guarded rest h.2)
end

/-- Nobody holds what another one holds, and maps are accessed with their mutex
held. -/
structure Safe (mx : Nat → Nat) (gs : List Gor) : Prop where
  guard : ∀ (i : Nat) (g : Gor), gs[i]? = some g → Guard mx g.holds g.inside g.todo
  held : ∀ (i : Nat) (g : Gor), gs[i]? = some g → ∀ p ∈ g.inside, Lock.disp (mx p.1.number) ∈ g.holds
  apart : ∀ (i j : Nat) (g h : Gor), gs[i]? = some g → gs[j]? = some h → i ≠ j →
    ∀ l ∈ g.holds, l ∉ h.holds

theorem Safe.set {gs : List Gor} (s : Safe mx gs) {i : Nat} {g : Gor} (hg : gs[i]? = some g)
    {g' : Gor} (hf : Guard mx g'.holds g'.inside g'.todo)
    (hi : ∀ p ∈ g'.inside, Lock.disp (mx p.1.number) ∈ g'.holds)
    (hn : ∀ l ∈ g'.holds, l ∈ g.holds ∨ ∀ (j : Nat) (h : Gor), gs[j]? = some h → l ∉ h.holds) :
    Safe mx (gs.set i g') := by
  constructor
  · intro j x hx
    rcases set_get hx with ⟨_, rfl⟩ | ⟨_, hx⟩
    · exact hf
    · exact s.guard j x hx
  · intro j x hx
    rcases set_get hx with ⟨_, rfl⟩ | ⟨_, hx⟩
    · exact hi
    · exact s.held j x hx
  · intro j k x y hx hy hne l hl hl'
    rcases set_get hx with ⟨ej, ex⟩ | ⟨_, hx2⟩
    · rcases set_get hy with ⟨ek, _⟩ | ⟨_, hy2⟩
      · exact hne (ej.trans ek.symm)
      · rcases hn l (ex ▸ hl) with h | h
        · exact s.apart i k g y hg hy2 (ej ▸ hne) l h hl'
        · exact h k y hy2 hl'
    · rcases set_get hy with ⟨ek, ey⟩ | ⟨_, hy2⟩
      · rcases hn l (ey ▸ hl') with h | h
        · exact s.apart i j g x hg hx2 (ek ▸ Ne.symm hne) l h hl
        · exact h j x hx2 hl
      · exact s.apart j k x y hx2 hy2 hne l hl hl'

theorem Safe.step {gs gs' : List Gor} {i : Nat} (s : Safe mx gs) (h : step gs i = some gs') :
    Safe mx gs' := by
  unfold Locks.step at h
  split at h
  · cases h
  · rename_i g hg
    have hf := s.guard i g hg
    have hi := s.held i g hg
    split at h
    · cases h
    · rename_i l rest e
      rw [e] at hf
      split at h
      · cases h
      · rename_i hfree
        cases h
        refine s.set hg hf (fun p hp => List.mem_cons_of_mem _ (hi p hp)) fun l' hl' => ?_
        rcases List.mem_cons.mp hl' with rfl | hl'
        · refine Or.inr fun j x hx hm => hfree ?_
          exact List.any_eq_true.mpr ⟨x, List.mem_of_getElem? hx, by simpa using hm⟩
        · exact Or.inl hl'
    · rename_i l rest e
      rw [e] at hf; cases h
      exact s.set hg hf.2 hf.1 fun l' hl' => Or.inl (List.mem_of_mem_erase hl')
    · rename_i t w rest e
      rw [e] at hf; cases h
      refine s.set hg hf.2 (fun p hp => ?_) fun l' hl' => Or.inl hl'
      rcases List.mem_cons.mp hp with rfl | hp
      · exact hf.1
      · exact hi p hp
    · rename_i t w rest e
      rw [e] at hf; cases h
      exact s.set hg hf (fun p hp => hi p (List.mem_of_mem_erase hp)) fun l' hl' => Or.inl hl'

theorem Safe.run {is : List Nat} : ∀ {gs gs' : List Gor}, Safe mx gs → run gs is = some gs' →
    Safe mx gs' := by
  induction is with
  | nil => intro gs gs' s h; cases h; exact s
  | cons i is ih =>
    intro gs gs' s h
    unfold Locks.run at h
    split at h
    · rename_i e; exact ih (s.step e) h
    · cases h

theorem Safe.start {cs : List (List Call)} (h : ∀ c ∈ cs, AllLocked mx c) :
    Safe mx (cs.map Gor.start) := by
  constructor
  · intro i g hg
    obtain ⟨c, hc, rfl⟩ := List.mem_map.mp (List.mem_of_getElem? hg)
    have := all_guarded c (h c hc) [] [] [] (by simp) (by simp) trivial
    simpa [Gor.start] using this
  · intro i g hg p hp
    obtain ⟨c, _, rfl⟩ := List.mem_map.mp (List.mem_of_getElem? hg)
    simp [Gor.start] at hp
  · intro i j g g' hg _ _ l hl
    obtain ⟨c, _, rfl⟩ := List.mem_map.mp (List.mem_of_getElem? hg)
    simp [Gor.start] at hl

end

/-- Two goroutines use the same map at the same time, and one of them writes:
Go ends the program ("concurrent map read and map write"). -/
def Conflict (gs : List Gor) : Prop :=
  ∃ (i j : Nat) (g h : Gor) (t : Table) (w w' : Bool), i ≠ j ∧ gs[i]? = some g ∧ gs[j]? = some h ∧
    (t, w) ∈ g.inside ∧ (t, w') ∈ h.inside ∧ (w = true ∨ w' = true)

/-- C94: any number of goroutines register functions and plugins, describe
scopes, ask for plugins by name and log, on scopes whose dispatchers do not share
maps.  On no schedule is a map written while another goroutine uses it. -/
theorem C94_locked_partial (mx : Nat → Nat) (cs : List (List Call))
    (hlocked : ∀ c ∈ cs, AllLocked mx c) (is : List Nat) (gs : List Gor)
    (hrun : run (cs.map Gor.start) is = some gs) : ¬ Conflict gs := by
  rintro ⟨i, j, g, h, t, w, w', hne, hg, hh, h1, h2, _⟩
  have s := (Safe.start hlocked).run hrun
  have e1 : Lock.disp (mx t.number) ∈ g.holds := s.held i g hg _ h1
  have e2 : Lock.disp (mx t.number) ∈ h.holds := s.held j h hh _ h2
  exact s.apart i j g h hg hh hne _ e1 e2

mutual
/-- The call and what it calls back registers nothing. -/
def Call.Reads : Call → Prop
  | .addDestructor _ _ _ print => AllReads print
  | .close _ children _ rounds => AllReads children ∧ AllReads rounds
  | .resolve _ _ look => AllReads look
  | .printVars _ members => AllReads members
  | .log _ print => AllReads print
  | .append _ _ _ => False
  | .describe _ plugins functions => AllReads plugins ∧ AllReads functions
  | .info _ info => AllReads info
  | .version _ _ info => AllReads info
  | .modify _ modifier => AllReads modifier
  | .badNumber _ _ print => AllReads print
  | .method _ run => AllReads run
  | _ => True

/-- The same for calls made one after the other. -/
def AllReads : List Call → Prop
  | [] => True
  | c :: rest => c.Reads ∧ AllReads rest
end

/-- Steps that write to no map. -/
def NoWrite (as : List Act) : Prop := ∀ t, Act.enter t true ∉ as

theorem NoWrite.nil : NoWrite [] := by simp [NoWrite]

theorem NoWrite.append {a b : List Act} (ha : NoWrite a) (hb : NoWrite b) : NoWrite (a ++ b) := by
  intro t h
  rcases List.mem_append.mp h with h | h
  · exact ha t h
  · exact hb t h

theorem NoWrite.under {l : Lock} {a : List Act} (ha : NoWrite a) : NoWrite (Locks.under l a) := by
  intro t h
  simp [Locks.under] at h
  exact ha t h

theorem NoWrite.enter {t : Table} : NoWrite [.enter t false] := by simp [NoWrite]
theorem NoWrite.leave {t : Table} {w : Bool} : NoWrite [.leave t w] := by simp [NoWrite]
theorem NoWrite.access {t : Table} : NoWrite (access t false) := by simp [NoWrite, Locks.access]

theorem nested_noWrite (chain : List Nat) : NoWrite (nested chain) := by
  induction chain with
  | nil => exact .nil
  | cons s t ih => exact .under ih

mutual
theorem acts_noWrite : ∀ c : Call, c.Reads → NoWrite c.acts
  | .touch s, _ => .under .nil
  | .isClosed s, _ => .under (.under .nil)
  | .addDestructor s d true print, h => by
    simp only [Call.Reads] at h
    exact .under (.append (.append (.under .nil) (.under .nil)) (all_noWrite print h))
  | .addDestructor s d false print, _ => .under (.append (.under .nil) (.under .nil))
  | .close s children parent rounds, h => by
    simp only [Call.Reads] at h
    have hp : NoWrite (match parent with | some p => Locks.under (.scope p) [] | none => []) := by
      cases parent
      · exact .nil
      · exact .under .nil
    exact .append (.append (.append (.append (.append (.under .nil)
      (all_noWrite children h.1)) hp) (.under .nil)) (all_noWrite rounds h.2)) (.under .nil)
  | .aggregatorCtx chain, _ => nested_noWrite chain
  | .resolve s deep look, h => by
    simp only [Call.Reads] at h
    refine .append (.append (.under .nil) ?_) (all_noWrite look h)
    cases deep
    · exact .under .nil
    · exact .nil
  | .printVars s members, h => by
    simp only [Call.Reads] at h
    exact .under (all_noWrite members h)
  | .explainer s d true, _ => .under (.under .nil)
  | .explainer s d false, _ => .under .nil
  | .newScope s d, _ => .under (.append .access .access)
  | .log d print, h => by
    simp only [Call.Reads] at h
    exact .append (.under .nil) (all_noWrite print h)
  | .settings d, _ => .under .nil
  | .append d plugin info, h => by simp [Call.Reads] at h
  | .describe d plugins functions, h => by
    simp only [Call.Reads] at h
    exact .under (.append (.append (.append .enter (all_noWrite plugins h.1)) .leave)
      (.append (.append .enter (all_noWrite functions h.2)) .leave))
  | .info d info, h => by
    simp only [Call.Reads] at h
    exact .under (.append .access (all_noWrite info h))
  | .version d plugin info, h => by
    simp only [Call.Reads] at h
    exact .append (.under .access) (all_noWrite info h)
  | .similar d, _ => .under .access
  | .find d plugin, _ => .access
  | .modify a modifier, h => by
    simp only [Call.Reads] at h
    exact .under (all_noWrite modifier h)
  | .remember n, _ => .append (.under .nil) (.under .nil)
  | .badNumber n d print, h => by
    simp only [Call.Reads] at h
    exact .under (.append (.under .nil) (all_noWrite print h))
  | .method c run, h => by
    simp only [Call.Reads] at h
    exact .under (all_noWrite run h)

theorem all_noWrite : ∀ cs : List Call, AllReads cs → NoWrite (allActs cs)
  | [], _ => .nil
  | c :: rest, h => by
    simp only [AllReads] at h
    exact .append (acts_noWrite c h.1) (all_noWrite rest h.2)
end

/-- Nobody writes or is about to. -/
def Still (gs : List Gor) : Prop :=
  ∀ g ∈ gs, NoWrite g.todo ∧ ∀ p ∈ g.inside, p.2 = false

theorem Still.step {gs gs' : List Gor} {i : Nat} (s : Still gs) (h : step gs i = some gs') :
    Still gs' := by
  unfold Locks.step at h
  split at h
  · cases h
  · rename_i g hg
    obtain ⟨h1, h2⟩ := s g (List.mem_of_getElem? hg)
    have tail : ∀ {a rest}, g.todo = a :: rest → NoWrite rest := by
      intro a rest e t ht
      exact h1 t (by rw [e]; exact List.mem_cons_of_mem _ ht)
    have put : ∀ {g' : Gor}, NoWrite g'.todo → (∀ p ∈ g'.inside, p.2 = false) → Still (gs.set i g') := by
      intro g' a b x hx
      rcases List.mem_or_eq_of_mem_set hx with hx | rfl
      · exact s x hx
      · exact ⟨a, b⟩
    split at h
    · cases h
    · rename_i l rest e
      split at h
      · cases h
      · cases h; exact put (tail e) h2
    · rename_i l rest e
      cases h; exact put (tail e) h2
    · rename_i t w rest e
      cases h
      refine put (tail e) fun p hp => ?_
      rcases List.mem_cons.mp hp with rfl | hp
      · cases w
        · rfl
        · exact absurd (by rw [e]; simp) (h1 t)
      · exact h2 p hp
    · rename_i t w rest e
      cases h
      exact put (tail e) fun p hp => h2 p (List.mem_of_mem_erase hp)

theorem Still.run {is : List Nat} : ∀ {gs gs' : List Gor}, Still gs → run gs is = some gs' →
    Still gs' := by
  induction is with
  | nil => intro gs gs' s h; cases h; exact s
  | cons i is ih =>
    intro gs gs' s h
    unfold Locks.run at h
    split at h
    · rename_i e; exact ih (s.step e) h
    · cases h

/-- C94: once everything is registered, queries on any number of goroutines may
look functions and plugins up, and make scopes, with no regard to each other. -/
theorem C94_read_only (cs : List (List Call)) (hreads : ∀ c ∈ cs, AllReads c) (is : List Nat)
    (gs : List Gor) (hrun : run (cs.map Gor.start) is = some gs) : ¬ Conflict gs := by
  have s : Still gs := by
    refine Still.run ?_ hrun
    intro g hg
    obtain ⟨c, hc, rfl⟩ := List.mem_map.mp hg
    exact ⟨all_noWrite c (hreads c hc), by simp [Gor.start]⟩
  rintro ⟨i, j, g, h, t, w, w', _, hg, hh, h1, h2, hw⟩
  have e1 := (s g (List.mem_of_getElem? hg)).2 _ h1
  have e2 := (s h (List.mem_of_getElem? hh)).2 _ h2
  simp at e1 e2
  subst e1; subst e2
  simp at hw

/-- C94: registering a function (or plugin) while a query calls one ends the
program on some schedules: the lookup does not lock the dispatcher. -/
theorem C94_lookup_refuted (d : Disp) (plugin : Bool) :
    ∃ is gs, run ([[Call.append d plugin []], [.find d plugin]].map Gor.start) is = some gs ∧
      Conflict gs := by
  refine ⟨[0, 0, 1], _, rfl, 0, 1, _, _, d.table plugin, true, false, by decide, rfl, rfl, ?_, ?_, ?_⟩
  · exact List.mem_singleton.mpr rfl
  · exact List.mem_singleton.mpr rfl
  · exact Or.inl rfl

/-- C94: and so does registering while another goroutine makes a scope with
`NewScope`. -/
theorem C94_new_scope_refuted (s : Nat) (d : Disp) (plugin : Bool) :
    ∃ is gs, run ([[Call.append d plugin []], [.newScope s d]].map Gor.start) is = some gs ∧
      Conflict gs := by
  cases plugin
  · refine ⟨[0, 0, 1, 1], _, rfl, 0, 1, _, _, d.table false, true, false, by decide, rfl, rfl, ?_, ?_,
      Or.inl rfl⟩
    · exact List.mem_singleton.mpr rfl
    · exact List.mem_singleton.mpr rfl
  · refine ⟨[0, 0, 1, 1, 1, 1],
      [⟨[.leave (d.table true) true, .unlock (.disp d.mutex)], [.disp d.mutex], [(d.table true, true)]⟩,
       ⟨[.leave (d.table true) false, .unlock (.scope s)], [.scope s], [(d.table true, false)]⟩], ?_,
      0, 1, _, _, d.table true, true, false, by decide, rfl, rfl, ?_, ?_, Or.inl rfl⟩
    · simp [run, step, Call.acts, allActs, under, access, Gor.start]
    · exact List.mem_singleton.mpr rfl
    · exact List.mem_singleton.mpr rfl

/-- C94: two registrations at the same time end the program too, if one is made on
a scope after its `ClearContext` and the other on a scope that was copied from it
before: the dispatchers share their maps, but not their mutex. -/
theorem C94_clear_context_refuted (d d' : Disp) (hm : d.maps = d'.maps) (hx : d.mutex ≠ d'.mutex)
    (plugin : Bool) :
    ∃ is gs, run ([[Call.append d plugin []], [.append d' plugin []]].map Gor.start) is = some gs ∧
      Conflict gs := by
  have ht : d'.table plugin = d.table plugin := by simp [Disp.table, hm]
  refine ⟨[0, 0, 1, 1],
    [⟨[.leave (d.table plugin) true, .unlock (.disp d.mutex)], [.disp d.mutex], [(d.table plugin, true)]⟩,
     ⟨[.leave (d.table plugin) true, .unlock (.disp d'.mutex)], [.disp d'.mutex],
       [(d.table plugin, true)]⟩], ?_,
    0, 1, _, _, d.table plugin, true, true, by decide, rfl, rfl, ?_, ?_, Or.inl rfl⟩
  · simp [run, step, Call.acts, allActs, under, access, Gor.start, ht, Ne.symm hx]
  · exact List.mem_singleton.mpr rfl
  · exact List.mem_singleton.mpr rfl

/-- Two goroutines that register with the same dispatcher and describe it: the
second waits. -/
example : ∀ c ∈ [[Call.append ⟨0, 0⟩ false []], [Call.append ⟨0, 0⟩ false [], .describe ⟨0, 0⟩ [] []]],
    AllLocked id c := by
  intro c hc
  simp at hc
  rcases hc with rfl | rfl <;> simp [AllLocked, Call.Locked]

example : step [⟨[.leave (.functions 0) true, .unlock (.disp 0)], [.disp 0], [(.functions 0, true)]⟩,
    Gor.start [.append ⟨0, 0⟩ false []]] 1 = none := rfl

/-- Queries that look functions up, on two goroutines, in the map at the same
time. -/
example : ∃ gs, run ([[Call.find ⟨0, 0⟩ false], [.find ⟨0, 0⟩ false]].map Gor.start) [0, 1] = some gs ∧
    ∀ g ∈ gs, g.inside = [(.functions 0, false)] := ⟨_, rfl, by decide⟩

end Vfilter.Locks
