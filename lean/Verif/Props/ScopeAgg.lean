import Verif.ScopeLemmas
/-!
# C23 Aggregator state lookup and isolation
-/
set_option linter.all false

namespace Vfilter
section
variable {R V : Type} [Inhabited R]

/-- `c` is the context of the nearest scope, going from `s` through its ancestors, that
has one. -/
inductive Nearest (h : Heap R V) : Nat → Nat → Prop where
  | here (s c : Nat) (r : ScopeRec) : h.scopes[s]? = some r → r.ag = some c → Nearest h s c
  | up (s p c : Nat) (r : ScopeRec) : h.scopes[s]? = some r → r.ag = none → r.parent = some p →
      Nearest h p c → Nearest h s c

/-- The aggregator state stored under a name that scope `s` sees. -/
def Sees (h : Heap R V) (s : Nat) (name : Str) (v : Option V) : Prop :=
  ∃ c d, Nearest h s c ∧ h.ctxs[c]? = some d ∧ OD.get d name = v

/-- `t` has no context of its own between itself and `s` (exclusive of `s`). -/
inductive Below (h : Heap R V) (s : Nat) : Nat → Prop where
  | self : Below h s s
  | up (t p : Nat) (r : ScopeRec) : t ≠ s → h.scopes[t]? = some r → r.ag = none → r.parent = some p →
      Below h s p → Below h s t

theorem Nearest.unique {h : Heap R V} {s c c' : Nat} (h1 : Nearest h s c) (h2 : Nearest h s c') :
    c = c' := by
  induction h1 with
  | here s c r hr ha =>
    cases h2 with
    | here _ _ r' hr' ha' => rw [hr] at hr'; cases hr'; rw [ha] at ha'; exact Option.some.inj ha'
    | up _ p _ r' hr' ha' => rw [hr] at hr'; cases hr'; rw [ha] at ha'; simp at ha'
  | up s p c r hr ha hp _ ih =>
    cases h2 with
    | here _ _ r' hr' ha' => rw [hr] at hr'; cases hr'; rw [ha] at ha'; simp at ha'
    | up _ p' _ r' hr' ha' hp' hn' =>
      rw [hr] at hr'; cases hr'; rw [hp] at hp'; cases hp'; exact ih hn'

/-- Invariant: parents are older, contexts exist, roots have a context. -/
structure AInv (fx : List (Slice × Nat × Option Nat × Option Nat)) (nctx : Nat) : Prop where
  older : ∀ (i : Nat) v d p a, fx[i]? = some (v, d, some p, a) → p < i
  ctx : ∀ (i : Nat) v d p c, fx[i]? = some (v, d, p, some c) → c < nctx
  root : ∀ (i : Nat) v d a, fx[i]? = some (v, d, none, a) → a ≠ none

def Heap.fx (h : Heap R V) := h.scopes.map ScopeRec.fixed

theorem fx_some {h : Heap R V} {i : Nat} {r : ScopeRec} (hr : h.scopes[i]? = some r) :
    h.fx[i]? = some (r.vars, r.depth, r.parent, r.ag) := by
  simp [Heap.fx, hr, ScopeRec.fixed]

theorem AInv.push {fx} {n m : Nat} (h : AInv fx n) (hnm : n ≤ m) (v d p a)
    (h1 : ∀ q, p = some q → q < fx.length) (h2 : ∀ c, a = some c → c < m) (h3 : p = none → a ≠ none) :
    AInv (fx ++ [(v, d, p, a)]) m := by
  have hcase : ∀ (i : Nat) x, (fx ++ [(v, d, p, a)])[i]? = some x →
      fx[i]? = some x ∨ (i = fx.length ∧ x = (v, d, p, a)) := by
    intro i x hi
    rcases Nat.lt_trichotomy i fx.length with hlt | heq | hgt
    · rw [List.getElem?_append_left hlt] at hi; exact Or.inl hi
    · subst heq; simp at hi; exact Or.inr ⟨rfl, hi.symm⟩
    · have := getElem?_lt hi; simp at this; omega
  refine ⟨?_, ?_, ?_⟩
  · intro i v' d' p' a' hi
    rcases hcase i _ hi with h' | ⟨rfl, h'⟩
    · exact h.older i _ _ _ _ h'
    · cases h'; exact h1 _ rfl
  · intro i v' d' p' c hi
    rcases hcase i _ hi with h' | ⟨rfl, h'⟩
    · have := h.ctx i _ _ _ _ h'; omega
    · cases h'; exact h2 _ rfl
  · intro i v' d' a' hi
    rcases hcase i _ hi with h' | ⟨rfl, h'⟩
    · exact h.root i _ _ _ h'
    · cases h'; exact h3 rfl

theorem AInv.set {fx} {n m : Nat} (h : AInv fx n) (hnm : n ≤ m) (s : Nat) (v d p a v' a')
    (hs : fx[s]? = some (v, d, p, a)) (h2 : ∀ c, a' = some c → c < m) (h3 : a' = none → a = none) :
    AInv (fx.set s (v', d, p, a')) m := by
  have hlt := getElem?_lt hs
  have hcase : ∀ (i : Nat) x, (fx.set s (v', d, p, a'))[i]? = some x →
      (i = s ∧ x = (v', d, p, a')) ∨ fx[i]? = some x := by
    intro i x hi
    rw [List.getElem?_set] at hi
    by_cases hsi : s = i
    · subst hsi; simp [hlt] at hi; exact Or.inl ⟨rfl, hi.symm⟩
    · simp [hsi] at hi; exact Or.inr hi
  refine ⟨?_, ?_, ?_⟩
  · intro i v'' d'' p'' a'' hi
    rcases hcase i _ hi with ⟨rfl, h'⟩ | h'
    · cases h'; exact h.older _ _ _ _ _ hs
    · exact h.older i _ _ _ _ h'
  · intro i v'' d'' p'' c hi
    rcases hcase i _ hi with ⟨rfl, h'⟩ | h'
    · cases h'; exact h2 _ rfl
    · have := h.ctx i _ _ _ _ h'; omega
  · intro i v'' d'' a'' hi
    rcases hcase i _ hi with ⟨rfl, h'⟩ | h'
    · cases h'; intro e; exact h.root _ _ _ _ hs (h3 e)
    · exact h.root i _ _ _ h'

theorem set_fixed (h : Heap R V) (s : Nat) (r : ScopeRec) :
    (h.scopes.set s r).map ScopeRec.fixed = h.fx.set s r.fixed := by
  simp [Heap.fx, List.map_set]

theorem step_AInv (grow : Nat → Nat) (h : Heap R V) (hi : AInv h.fx h.ctxs.length) (op : SOp R V) :
    AInv (h.step grow op).fx (h.step grow op).ctxs.length := by
  have hset : ∀ (s : Nat) r (r' : ScopeRec), h.scopes[s]? = some r → r'.fixed = r.fixed →
      (h.scopes.set s r').map ScopeRec.fixed = h.fx :=
    fun s r r' h1 h2 => set_map_eq _ _ r _ _ h1 h2
  cases op with
  | new null =>
    simp only [Heap.step, Heap.newScope, Heap.fx, List.map_append, List.map_cons, List.map_nil,
      ScopeRec.fixed, List.length_append, List.length_cons, List.length_nil]
    exact hi.push (by omega) _ _ _ _ (by simp) (by simp) (by simp)
  | copy s =>
    simp only [Heap.step, Heap.copy]
    cases hr : h.scopes[s]? with
    | none => exact hi
    | some r =>
      have hlt := getElem?_lt hr
      simp only [Heap.fx, List.map_append, List.map_cons, List.map_nil]
      rw [hset s r _ hr (by rfl)]
      exact hi.push (Nat.le_refl _) _ _ _ _ (by simp [Heap.fx]; exact hlt) (by simp) (by simp)
  | append s x =>
    simp only [Heap.step, Heap.appendVars]
    cases hr : h.scopes[s]? with
    | none => exact hi
    | some r =>
      simp only [Heap.fx]
      rw [set_fixed]
      refine hi.set (Nat.le_refl _) s r.vars r.depth r.parent r.ag _ _ (fx_some hr) ?_ id
      intro c hc
      exact hi.ctx s r.vars r.depth r.parent c (by rw [fx_some hr, hc])
  | newAg s =>
    simp only [Heap.step, Heap.setNewAg]
    cases hr : h.scopes[s]? with
    | none => exact hi
    | some r =>
      simp only [Heap.fx, List.length_append, List.length_cons, List.length_nil]
      rw [set_fixed]
      exact hi.set (by omega) s r.vars r.depth r.parent r.ag _ _ (fx_some hr) (by simp) (by simp)
  | setAg s c =>
    simp only [Heap.step, Heap.setAg]
    split
    · rename_i hc
      cases hr : h.scopes[s]? with
      | none => exact hi
      | some r =>
        simp only [Heap.fx]
        rw [set_fixed]
        exact hi.set (Nat.le_refl _) s r.vars r.depth r.parent r.ag _ _ (fx_some hr) (by simp; exact hc) (by simp)
    · exact hi
  | modAg s name f =>
    simp only [Heap.step, Heap.modifyAg]
    cases h.getAg s with
    | none => exact hi
    | some c =>
      simp only
      cases h.ctxs[c]? with
      | none => exact hi
      | some d => simpa [Heap.fx] using hi
  | addDtor s d =>
    simp only [Heap.step, Heap.addDtor]
    cases hr : h.scopes[s]? with
    | none => exact hi
    | some r =>
      simp only
      split
      · exact hi
      · simp only [Heap.fx]; rw [hset s r _ hr (by rfl)]; exact hi
  | close s =>
    simp only [Heap.step]
    obtain ⟨h1, _, h3⟩ := closeF_fixed (h.scopes.length + 1) h s
    unfold Heap.fx Heap.close
    rw [h1, h3]; exact hi

theorem run_AInv (grow : Nat → Nat) (ops : List (SOp R V)) :
    AInv (Heap.run grow ops).fx (Heap.run grow ops).ctxs.length := by
  have : ∀ (ops : List (SOp R V)) (h : Heap R V), AInv h.fx h.ctxs.length →
      AInv (ops.foldl (Heap.step grow) h).fx (ops.foldl (Heap.step grow) h).ctxs.length := by
    intro ops
    induction ops with
    | nil => intro h hv; exact hv
    | cons op r ih => intro h hv; exact ih _ (step_AInv grow h hv op)
  exact this ops Heap.empty ⟨by simp [Heap.fx, Heap.empty], by simp [Heap.fx, Heap.empty], by simp [Heap.fx, Heap.empty]⟩

theorem getAgF_spec (h : Heap R V) (hi : AInv h.fx h.ctxs.length) :
    ∀ (n s : Nat), s < n → s < h.scopes.length →
      ∃ c, h.getAgF n s = some c ∧ Nearest h s c ∧ c < h.ctxs.length := by
  intro n
  induction n with
  | zero => intro s h1; omega
  | succ n ih =>
    intro s hs hlt
    have hr : h.scopes[s]? = some h.scopes[s] := List.getElem?_eq_getElem hlt
    generalize h.scopes[s] = r at hr
    have hf := fx_some hr
    simp only [Heap.getAgF, hr]
    cases ha : r.ag with
    | some c =>
      refine ⟨c, rfl, .here s c r hr ha, ?_⟩
      rw [ha] at hf
      exact hi.ctx s _ _ _ c hf
    | none =>
      rw [ha] at hf
      cases hp : r.parent with
      | none => rw [hp] at hf; exact absurd rfl (hi.root s _ _ _ hf)
      | some p =>
        rw [hp] at hf
        have hps := hi.older s _ _ _ _ hf
        obtain ⟨c, h1, h2, h3⟩ := ih p (by omega) (by omega)
        exact ⟨c, h1, .up s p c r hr ha hp h2, h3⟩

/-- In every reachable state every scope finds an aggregator context, and it is that of
the nearest enclosing scope that has one. -/
theorem C23_lookup (grow : Nat → Nat) (ops : List (SOp R V)) (s : Nat)
    (hs : s < (Heap.run grow ops).scopes.length) :
    ∃ c, (Heap.run grow ops).getAg s = some c ∧ Nearest (Heap.run grow ops) s c ∧
      c < (Heap.run grow ops).ctxs.length := by
  exact getAgF_spec _ (run_AInv grow ops) _ s (by omega) hs

theorem nearest_of_fx {h h' : Heap R V} (he : h'.fx = h.fx) {s c : Nat} (hn : Nearest h s c) :
    Nearest h' s c := by
  have hget : ∀ (i : Nat) r, h.scopes[i]? = some r → ∃ r', h'.scopes[i]? = some r' ∧ r'.fixed = r.fixed := by
    intro i r hr
    have h1 := fx_some hr
    rw [← he] at h1
    simp only [Heap.fx, List.getElem?_map] at h1
    cases hx : h'.scopes[i]? with
    | none => rw [hx] at h1; simp at h1
    | some r' => rw [hx] at h1; simp at h1; exact ⟨r', rfl, h1⟩
  induction hn with
  | here s c r hr ha =>
    obtain ⟨r', h1, h2⟩ := hget s r hr
    simp [ScopeRec.fixed] at h2
    exact .here s c r' h1 (by rw [h2.2.2.2, ha])
  | up s p c r hr ha hp _ ih =>
    obtain ⟨r', h1, h2⟩ := hget s r hr
    simp [ScopeRec.fixed] at h2
    exact .up s p c r' h1 (by rw [h2.2.2.2, ha]) (by rw [h2.2.2.1, hp]) ih

theorem od_get_set' {W : Type} (d : OD W) (k k' : Str) (v : W) :
    OD.get (OD.set d k v) k' = if k' = k then some v else OD.get d k' := by
  have happ : ∀ (d e : OD W), OD.get (d ++ e) k' = (OD.get d k').or (OD.get e k') := by
    intro d e
    induction d with
    | nil => simp [OD.get]
    | cons p r ih => obtain ⟨a, b⟩ := p; simp only [List.cons_append, OD.get]; split; simp; exact ih
  have hera : OD.get (OD.erase d k) k' = if k' = k then none else OD.get d k' := by
    induction d with
    | nil => simp [OD.erase, OD.get]
    | cons p r ih =>
      obtain ⟨a, w⟩ := p
      simp only [OD.erase] at ih ⊢
      by_cases ha : a = k
      · subst ha
        rw [List.filter_cons_of_neg (by simp), ih]
        by_cases hk : k' = a
        · simp [hk]
        · have : ¬ a = k' := fun e => hk e.symm
          simp [hk, OD.get, this]
      · rw [List.filter_cons_of_pos (by simpa using ha)]
        simp only [OD.get, ih]
        by_cases hak : a = k'
        · subst hak; simp [ha]
        · simp [hak]
  rw [OD.set, happ, hera]
  by_cases h : k' = k
  · simp [h, OD.get]
  · have : ¬ k = k' := fun e => h e.symm
    simp [h, OD.get, this]

/-- An aggregate evaluated in scope `s` reads the state `s` sees and replaces it: a scope
using the same context sees the new value; under another name, or in a scope with a
different nearest context, nothing changes. -/
theorem C23_modify (grow : Nat → Nat) (ops : List (SOp R V)) (s : Nat) (name : Str)
    (f : Option V → V) (hs : s < (Heap.run grow ops).scopes.length) :
    let h := Heap.run grow ops
    let h' := (h.modifyAg s name f).1
    ∃ c old, Nearest h s c ∧ Sees h s name old ∧ (h.modifyAg s name f).2 = some (f old) ∧
      (∀ t, Nearest h t c → Sees h' t name (some (f old))) ∧
      (∀ t n v, Sees h t n v → (n ≠ name ∨ ¬ Nearest h t c) → Sees h' t n v) := by
  intro h h'
  obtain ⟨c, hg, hn, hc⟩ := C23_lookup grow ops s hs
  have hd : h.ctxs[c]? = some h.ctxs[c] := List.getElem?_eq_getElem hc
  generalize h.ctxs[c] = d at hd
  have he : h.modifyAg s name f =
      ({ h with ctxs := h.ctxs.set c (OD.set d name (f (OD.get d name))) }, some (f (OD.get d name))) := by
    simp only [Heap.modifyAg]
    rw [show h.getAg s = some c from hg]
    simp only [hd]
  have hh' : h' = { h with ctxs := h.ctxs.set c (OD.set d name (f (OD.get d name))) } := by
    show (h.modifyAg s name f).1 = _; rw [he]
  have hfx : h'.fx = h.fx := by rw [hh']; rfl
  refine ⟨c, OD.get d name, hn, ⟨c, d, hn, hd, rfl⟩, by rw [he], ?_, ?_⟩
  · intro t ht
    refine ⟨c, OD.set d name (f (OD.get d name)), nearest_of_fx hfx ht, ?_, ?_⟩
    · rw [hh']
      show (h.ctxs.set c _)[c]? = _
      rw [List.getElem?_set_self hc]
    · simp [od_get_set']
  · rintro t n v ⟨c', d', h1, h2, h3⟩ hor
    by_cases hcc : c' = c
    · subst hcc
      have hdd : d' = d := by rw [hd] at h2; exact (Option.some.inj h2).symm
      subst hdd
      have hne : n ≠ name := hor.resolve_right (fun e => e h1)
      refine ⟨c', OD.set d' name (f (OD.get d' name)), nearest_of_fx hfx h1, ?_, ?_⟩
      · rw [hh']
        show (h.ctxs.set c' _)[c']? = _
        rw [List.getElem?_set_self hc]
      · rw [od_get_set', if_neg hne, h3]
    · refine ⟨c', d', nearest_of_fx hfx h1, ?_, h3⟩
      rw [hh']
      show (h.ctxs.set c _)[c']? = _
      rw [List.getElem?_set_ne (fun e => hcc e.symm), h2]

/-- Giving scope `s` a fresh context: every scope below it (with no context in between)
starts from scratch, and what any other scope sees is unchanged. -/
theorem C23_fresh (grow : Nat → Nat) (ops : List (SOp R V)) (s : Nat)
    (hs : s < (Heap.run grow ops).scopes.length) :
    let h := Heap.run grow ops
    let h' := h.setNewAg s
    (∀ t name, Below h s t → Sees h' t name none) ∧
    (∀ t name v, ¬ Below h s t → Sees h t name v → Sees h' t name v) ∧
    (∀ t t' c, Below h s t → t' < h.scopes.length → ¬ Below h s t' → Nearest h' t c → ¬ Nearest h' t' c) := by
  intro h h'
  have hi := run_AInv grow ops
  have hr : h.scopes[s]? = some h.scopes[s] := List.getElem?_eq_getElem hs
  generalize h.scopes[s] = r at hr
  have hh' : h' = { h with scopes := h.scopes.set s { r with ag := some h.ctxs.length }
                           ctxs := h.ctxs ++ [[]] } := by
    show h.setNewAg s = _
    simp only [Heap.setNewAg, hr]
  have hself : h'.scopes[s]? = some { r with ag := some h.ctxs.length } := by
    rw [hh']; exact List.getElem?_set_self hs
  have hoth : ∀ t, t ≠ s → h'.scopes[t]? = h.scopes[t]? := by
    intro t ht; rw [hh']; exact List.getElem?_set_ne (fun e => ht e.symm)
  have hbelow : ∀ t, Below h s t → Nearest h' t h.ctxs.length := by
    intro t ht
    induction ht with
    | self => exact .here s _ _ hself rfl
    | up t p r' hne hr' ha hp _ ih => exact .up t p _ r' (by rw [hoth t hne]; exact hr') ha hp ih
  have hnot : ∀ t c, ¬ Below h s t → Nearest h t c → Nearest h' t c := by
    intro t c hb hn
    induction hn with
    | here t c r' hr' ha =>
      have hne : t ≠ s := fun e => hb (e ▸ .self)
      exact .here t c r' (by rw [hoth t hne]; exact hr') ha
    | up t p c r' hr' ha hp _ ih =>
      have hne : t ≠ s := fun e => hb (e ▸ .self)
      refine .up t p c r' (by rw [hoth t hne]; exact hr') ha hp (ih ?_)
      intro hbp
      exact hb (.up t p r' hne hr' ha hp hbp)
  refine ⟨?_, ?_, ?_⟩
  · intro t name ht
    refine ⟨h.ctxs.length, [], hbelow t ht, ?_, rfl⟩
    rw [hh']; simp
  · rintro t name v hb ⟨c, d, h1, h2, h3⟩
    refine ⟨c, d, hnot t c hb h1, ?_, h3⟩
    rw [hh']
    show (h.ctxs ++ [[]])[c]? = _
    rw [List.getElem?_append_left (getElem?_lt h2)]; exact h2
  · intro t t' c hb ht' hb' hn hn'
    have e1 := hn.unique (hbelow t hb)
    obtain ⟨c', _, h2, h3⟩ := C23_lookup grow ops t' ht'
    have e2 := hn'.unique (hnot t' c' hb' h2)
    have : c' < h.ctxs.length := h3
    omega

end

/-- Root 0, child 1 with a fresh context, grandchild 2 below it, sibling 3. -/
def exAg : List (SOp Nat Nat) :=
  [.new 0, .copy 0, .newAg 1, .copy 1, .copy 0,
   .modAg 2 (bs "id_1") (fun o => o.getD 0 + 1), .modAg 2 (bs "id_1") (fun o => o.getD 0 + 1),
   .modAg 3 (bs "id_1") (fun o => o.getD 0 + 1)]

example : (Heap.run id exAg).getAg 2 = some 1 ∧ (Heap.run id exAg).getAg 3 = some 0 ∧
    (Heap.run id exAg).ctxs = [[(bs "id_1", 1)], [(bs "id_1", 2)]] := by decide
example : Nearest (Heap.run id exAg) 2 1 :=
  .up 2 1 1 _ rfl rfl rfl (.here 1 1 _ rfl rfl)
example : Below (Heap.run id exAg) 1 2 := .up 2 1 _ (by decide) rfl rfl rfl .self

end Vfilter
