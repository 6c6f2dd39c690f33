import Verif.EvalSim
/-!
# Heap accesses of two executions side by side
-/
set_option linter.all false

namespace Vfilter.Vql

section
variable {F S : Type} {H : Host F S} {Z : Cfg S} {rec : Rec F S} {W : Corr}

theorem sim_pure {α β : Type} {Q : Corr → α → β → Prop} {a : α} {a' : β} (h : Q W a a') :
    Sim H Z rec Q W (pure a) (pure a') := by
  intro st st' hs x s1 hx
  simp only [pure, interp, Option.some.injEq, Prod.mk.injEq] at hx
  obtain ⟨rfl, rfl⟩ := hx
  exact ⟨a', st', W, rfl, Corr.Le.refl W, hs, h⟩

theorem interp_bind' {α β : Type} {p : Prog F S α} {k : α → Prog F S β} {st : St F S} :
    interp rec (p >>= k) st = match interp rec p st with
      | none => none
      | some (a, st') => interp rec (k a) st' := by
  show interp rec (p.bind k) st = _
  induction p generalizing st with
  | ret a => rfl
  | call c k' ih =>
    simp only [Prog.bind, interp]
    cases rec c st with
    | none => rfl
    | some r => exact ih _
  | prim p k' ih =>
    simp only [Prog.bind, interp]
    exact ih _

theorem sim_bind {α α' β β' : Type} {Q : Corr → α → α' → Prop} {Q' : Corr → β → β' → Prop}
    {p : Prog F S α} {p' : Prog F S α'} {k : α → Prog F S β} {k' : α' → Prog F S β'}
    (h : Sim H Z rec Q W p p')
    (hk : ∀ W', W.Le W' → ∀ a a', Q W' a a' → Sim H Z rec Q' W' (k a) (k' a')) :
    Sim H Z rec Q' W (p >>= k) (p' >>= k') := by
  intro st st' hs x s1 hx
  rw [interp_bind'] at hx
  cases hp : interp rec p st with
  | none => rw [hp] at hx; simp at hx
  | some r =>
    obtain ⟨a, s2⟩ := r
    rw [hp] at hx
    simp only at hx
    obtain ⟨a', s2', W1, e1, l1, hs1, hq⟩ := h st st' hs a s2 hp
    obtain ⟨b', s3', W2, e2, l2, hs2, hq2⟩ := hk W1 l1 a a' hq s2 s2' hs1 x s1 hx
    refine ⟨b', s3', W2, ?_, l1.trans l2, hs2, hq2⟩
    rw [interp_bind', e1]
    exact e2

theorem sim_weaken {α β : Type} {Q Q' : Corr → α → β → Prop} {p : Prog F S α} {p' : Prog F S β}
    (h : Sim H Z rec Q W p p') (hq : ∀ W' a a', W.Le W' → Q W' a a' → Q' W' a a') : Sim H Z rec Q' W p p' := by
  intro st st' hs x s1 hx
  obtain ⟨a', s2', W1, e1, l1, hs1, h1⟩ := h st st' hs x s1 hx
  exact ⟨a', s2', W1, e1, l1, hs1, hq _ _ _ l1 h1⟩

theorem interp_call {c : Call F} {st : St F S} : interp rec (call c) st = rec c st := by
  simp only [call, interp]
  cases rec c st <;> rfl

theorem sim_call (c c' : Call F) {Q : Corr → c.Ret → c'.Ret → Prop} (h : SimF H Z Q W (rec c) (rec c')) :
    Sim H Z rec Q W (call c) (call c') := by
  intro st st' hs x s1 hx
  rw [interp_call] at hx
  obtain ⟨a', s2', W1, e1, r⟩ := h st st' hs x s1 hx
  exact ⟨a', s2', W1, by rw [interp_call]; exact e1, r⟩

theorem sim_prim (p p' : Prim F S) {Q : Corr → p.Ret → p'.Ret → Prop}
    (h : ∀ st st', StR H Z W st st' → ∃ W', W.Le W' ∧ StR H Z W' (p.step st).2 (p'.step st').2 ∧
      Q W' (p.step st).1 (p'.step st').1) : Sim H Z rec Q W (prim p) (prim p') := by
  intro st st' hs x s1 hx
  simp only [prim, interp, Option.some.injEq, Prod.mk.injEq] at hx
  obtain ⟨rfl, rfl⟩ := hx
  obtain ⟨W', l, h1, h2⟩ := h st st' hs
  exact ⟨_, _, W', rfl, l, h1, h2⟩

/-! ## Growing worlds -/

theorem addPair_le {R : Nat → Nat → Prop} {a b i j : Nat} (h : R i j) : addPair R a b i j := Or.inl h
theorem addPair_new {R : Nat → Nat → Prop} {a b : Nat} : addPair R a b a b := Or.inr ⟨rfl, rfl⟩

theorem le_sc (W : Corr) (a b : Nat) : W.Le { W with sc := addPair W.sc a b } :=
  ⟨addPair_le, id, id, id, id⟩
theorem le_lz (W : Corr) (a b : Nat) : W.Le { W with lz := addPair W.lz a b } :=
  ⟨id, addPair_le, id, id, id⟩
theorem le_rw (W : Corr) (a b : Nat) : W.Le { W with rw := addPair W.rw a b } :=
  ⟨id, id, addPair_le, id, id⟩
theorem le_si (W : Corr) (a b : Nat) : W.Le { W with si := addPair W.si a b } :=
  ⟨id, id, id, addPair_le, id⟩
theorem le_cx (W : Corr) (a b : Nat) : W.Le { W with cx := addPair W.cx a b } :=
  ⟨id, id, id, id, addPair_le⟩

theorem scp_some {st : St F S} {i : Nat} {x : Scp F} (h : st.scopes[i]? = some x) : st.scp i = x := by
  rw [St.scp, h]; rfl

theorem StR.scp {st st' : St F S} (h : StR H Z W st st') {i j : Nat} (hij : W.sc i j) :
    ScpR H Z W i j (st.scp i) (st'.scp j) := by
  obtain ⟨x, y, h1, h2, h3⟩ := h.sc.get hij
  rw [scp_some h1, scp_some h2]
  exact h3

theorem StR.sc_lt {st st' : St F S} (h : StR H Z W st st') {i j : Nat} (hij : W.sc i j) :
    i < st.scopes.length ∧ j < st'.scopes.length := by
  obtain ⟨x, y, h1, h2, h3⟩ := h.sc.get hij
  exact ⟨(List.getElem?_eq_some_iff.1 h1).1, (List.getElem?_eq_some_iff.1 h2).1⟩

theorem NdR.of_eq {st st' s1 s1' : St F S} {n n' : Nat} {c : List Str} (h : NdR st st' n n' c)
    (e1 : s1.fns = st.fns) (e2 : s1'.fns = st'.fns) (e3 : s1.split = st.split) (e4 : s1'.split = st'.split) :
    NdR s1 s1' n n' c :=
  ⟨by rw [e1]; exact h.fn, by rw [e2]; exact h.fn', by rw [e3, e4]; exact h.split⟩

theorem sim_copy {s s' : Nat} (h : W.sc s s') :
    Sim H Z rec (fun W a a' => W.sc a a') W (prim (.copy s)) (prim (.copy s')) := by
  refine sim_prim (.copy s) (.copy s') fun st st' hs => ?_
  have hl := le_sc W st.scopes.length st'.scopes.length
  refine ⟨_, hl, ?_, addPair_new⟩
  have hx := hs.scp h
  obtain ⟨l1, l2⟩ := hs.sc_lt h
  exact {
    sc := hs.sc.push (fun _ _ _ _ z => z.mono hl)
      ⟨VRL.mono hl hx.vars, by simp [hx.depth], fun _ => .some ⟨hl.sc h, l1, l2⟩, fun _ => .none⟩
    lz := hs.lz.mono (fun _ _ _ _ z => z.mono hl)
    rw := hs.rw.mono (fun _ _ _ _ z => z.mono hl)
    si := hs.si.mono (fun _ _ _ _ z => z.mono hl)
    cx := hs.cx.mono (fun _ _ _ _ z ha => CtxR.mono hl (z ha))
    nd := fun hn => (hs.nd hn).of_eq rfl rfl rfl rfl
    hs := hs.hs }

theorem StR.setScp {st st' : St F S} (hs : StR H Z W st st') {s s' : Nat} (h : W.sc s s') {x y : Scp F}
    (hx : ScpR H Z W s s' x y) :
    StR H Z W { st with scopes := st.scopes.set s x } { st' with scopes := st'.scopes.set s' y } where
  sc := hs.sc.put h hx
  lz := hs.lz
  rw := hs.rw
  si := hs.si
  cx := hs.cx
  nd := fun hn => (hs.nd hn).of_eq rfl rfl rfl rfl
  hs := hs.hs

theorem sim_append {s s' : Nat} {v v' : V F} (h : W.sc s s') (hv : VR H Z W v v') :
    Sim H Z rec EqR W (prim (.append s v)) (prim (.append s' v')) := by
  refine sim_prim (.append s v) (.append s' v') fun st st' hs => ?_
  have hx := hs.scp h
  exact ⟨W, Corr.Le.refl W, hs.setScp h ⟨hx.vars.snoc hv, hx.depth, hx.parent, hx.ag⟩, rfl⟩

theorem StR.newCtx {st st' : St F S} (hs : StR H Z W st st') :
    StR H Z { W with cx := addPair W.cx st.ctxs.length st'.ctxs.length }
      { st with ctxs := st.ctxs ++ [[]] } { st' with ctxs := st'.ctxs ++ [[]] } := by
  have hl := le_cx W st.ctxs.length st'.ctxs.length
  exact {
    sc := hs.sc.mono (fun _ _ _ _ z => z.mono hl)
    lz := hs.lz.mono (fun _ _ _ _ z => z.mono hl)
    rw := hs.rw.mono (fun _ _ _ _ z => z.mono hl)
    si := hs.si.mono (fun _ _ _ _ z => z.mono hl)
    cx := hs.cx.push (fun _ _ _ _ z ha => CtxR.mono hl (z ha)) (fun _ => .nil)
    nd := fun hn => (hs.nd hn).of_eq rfl rfl rfl rfl
    hs := hs.hs }

theorem StR.setAg {st st' : St F S} (hs : StR H Z W st st') {s s' c c' : Nat} (h : W.sc s s') (hc : W.cx c c') :
    StR H Z W (st.setAg s c) (st'.setAg s' c') := by
  have hx := hs.scp h
  exact hs.setScp h ⟨hx.vars, hx.depth, hx.parent, fun _ => .some hc⟩

theorem sim_mkCtx : Sim H Z rec (fun W a a' => W.cx a a') W (prim (.mkCtx : Prim F S)) (prim .mkCtx) := by
  refine sim_prim (.mkCtx) (.mkCtx) fun st st' hs => ?_
  exact ⟨_, le_cx W _ _, hs.newCtx, addPair_new⟩

theorem sim_setAg {s s' c c' : Nat} (h : W.sc s s') (hc : W.cx c c') :
    Sim H Z rec EqR W (prim (.setAg s c)) (prim (.setAg s' c')) := by
  refine sim_prim (.setAg s c) (.setAg s' c') fun st st' hs => ?_
  exact ⟨W, Corr.Le.refl W, hs.setAg h hc, rfl⟩

theorem sim_newAg {s s' : Nat} (h : W.sc s s') :
    Sim H Z rec EqR W (prim (.newAg s)) (prim (.newAg s')) := by
  refine sim_prim (.newAg s) (.newAg s') fun st st' hs => ?_
  refine ⟨_, le_cx W st.ctxs.length st'.ctxs.length, ?_, rfl⟩
  exact hs.newCtx.setAg (s := s) (s' := s') h addPair_new

/-- The scopes holding the aggregator context correspond. -/
theorem agHolder_r {st st' : St F S} (ha : Z.ag = true) (hs : StR H Z W st st') :
    ∀ (n n' : Nat) {s s' : Nat}, W.sc s s' → s < n → s' < n' →
      W.sc (st.agHolder n s) (st'.agHolder n' s')
  | 0, _, _, _, _, h, _ => absurd h (by omega)
  | _ + 1, 0, _, _, _, _, h => absurd h (by omega)
  | n + 1, n' + 1, s, s', h, h1, h2 => by
    have hx := hs.scp h
    simp only [St.agHolder]
    have e1 := hx.ag ha
    have e2 := hx.parent ha
    revert e1 e2
    generalize (st.scp s).ag = a, (st'.scp s').ag = b, (st.scp s).parent = p, (st'.scp s').parent = q
    intro e1 e2
    cases e1 with
    | some _ => exact h
    | none =>
      cases e2 with
      | none => exact h
      | some hp => exact agHolder_r ha hs n n' hp.1 (by omega) (by omega)

theorem getAg_r {st st' : St F S} (ha : Z.ag = true) (hs : StR H Z W st st') {s s' : Nat} (h : W.sc s s') :
    ∃ W', W.Le W' ∧ W'.cx (st.getAg s).1 (st'.getAg s').1 ∧ StR H Z W' (st.getAg s).2 (st'.getAg s').2 := by
  have hh := agHolder_r ha hs (s + 1) (s' + 1) h (by omega) (by omega)
  have hx := (hs.scp hh).ag ha
  unfold St.getAg
  revert hh hx
  generalize st.agHolder (s + 1) s = x, st'.agHolder (s' + 1) s' = y
  intro hh hx
  revert hx
  generalize hga : (st.scp x).ag = a
  generalize hgb : (st'.scp y).ag = b
  intro hx
  cases hx with
  | some hc =>
    simp only [hga, hgb]
    exact ⟨W, Corr.Le.refl W, hc, hs⟩
  | none =>
    simp only [hga, hgb]
    exact ⟨_, le_cx W st.ctxs.length st'.ctxs.length, addPair_new, hs.newCtx.setAg (s := x) (s' := y) hh addPair_new⟩

theorem sim_ag (ha : Z.ag = true) {s s' : Nat} (h : W.sc s s')
    {f f' : AggCtx F Obj → V F × AggCtx F Obj}
    (hf : ∀ W', W.Le W' → ∀ c c', CtxR H Z W' c c' → VR H Z W' (f c).1 (f' c').1 ∧ CtxR H Z W' (f c).2 (f' c').2) :
    Sim H Z rec (VR H Z) W (prim (.ag s f)) (prim (.ag s' f')) := by
  refine sim_prim (.ag s f) (.ag s' f') fun st st' hs => ?_
  obtain ⟨W', hl, hc, hs1⟩ := getAg_r ha hs h
  obtain ⟨x, y, h1, h2, h3⟩ := hs1.cx.get hc
  have := hf W' hl x y (h3 ha)
  refine ⟨W', hl, ?_, ?_⟩
  · simp only [Prim.step, h1, h2, Option.getD_some]
    exact {
      sc := hs1.sc
      lz := hs1.lz
      rw := hs1.rw
      si := hs1.si
      cx := hs1.cx.put hc (fun _ => this.2)
      nd := fun hn => (hs1.nd hn).of_eq rfl rfl rfl rfl
      hs := hs1.hs }
  · simp only [Prim.step, h1, h2, Option.getD_some]
    exact this.1

theorem sim_vars {s s' : Nat} (h : W.sc s s') :
    Sim H Z rec (VRL H Z) W (prim (.vars s)) (prim (.vars s')) := by
  refine sim_prim (.vars s) (.vars s') fun st st' hs => ?_
  exact ⟨W, Corr.Le.refl W, hs, (hs.scp h).vars⟩

theorem sim_depth {s s' : Nat} (h : W.sc s s') :
    Sim H Z rec EqR W (prim (.depth s)) (prim (.depth s')) := by
  refine sim_prim (.depth s) (.depth s') fun st st' hs => ?_
  exact ⟨W, Corr.Le.refl W, hs, (hs.scp h).depth⟩

theorem sim_newLazy {e e' : AndE} {s s' : Nat} (he : AndR H Z e e') (h : W.sc s s') :
    Sim H Z rec (fun W a a' => W.lz a a') W (prim (.newLazy e s)) (prim (.newLazy e' s')) := by
  refine sim_prim (.newLazy e s) (.newLazy e' s') fun st st' hs => ?_
  have hl := le_lz W st.lazies.length st'.lazies.length
  refine ⟨_, hl, ?_, addPair_new⟩
  exact {
    sc := hs.sc.mono (fun _ _ _ _ z => z.mono hl)
    lz := hs.lz.push (fun _ _ _ _ z => z.mono hl) ⟨he, h, .none⟩
    rw := hs.rw.mono (fun _ _ _ _ z => z.mono hl)
    si := hs.si.mono (fun _ _ _ _ z => z.mono hl)
    cx := hs.cx.mono (fun _ _ _ _ z ha => CtxR.mono hl (z ha))
    nd := fun hn => (hs.nd hn).of_eq rfl rfl rfl rfl
    hs := hs.hs }

theorem sim_lazyInfo {c c' : Nat} (h : W.lz c c') :
    Sim H Z rec (fun W a a' => ∃ x y, a = some x ∧ a' = some y ∧ LazyR H Z W x y) W (prim (.lazyInfo c))
      (prim (.lazyInfo c')) := by
  refine sim_prim (.lazyInfo c) (.lazyInfo c') fun st st' hs => ?_
  exact ⟨W, Corr.Le.refl W, hs, hs.lz.get h⟩

theorem sim_lazySet {c c' : Nat} {v v' : V F} (h : W.lz c c') (hv : VR H Z W v v') :
    Sim H Z rec EqR W (prim (.lazySet c v)) (prim (.lazySet c' v')) := by
  refine sim_prim (.lazySet c v) (.lazySet c' v') fun st st' hs => ?_
  obtain ⟨x, y, h1, h2, h3⟩ := hs.lz.get h
  refine ⟨W, Corr.Le.refl W, ?_, rfl⟩
  simp only [Prim.step, h1, h2]
  exact {
    sc := hs.sc
    lz := hs.lz.put h ⟨h3.expr, h3.scope, .some hv⟩
    rw := hs.rw
    si := hs.si
    cx := hs.cx
    nd := fun hn => (hs.nd hn).of_eq rfl rfl rfl rfl
    hs := hs.hs }

theorem sim_newRow {g g' : List (Str × Getter F)} (hg : GetL H Z W g g') :
    Sim H Z rec (fun W a a' => W.rw a a') W (prim (.newRow g)) (prim (.newRow g')) := by
  refine sim_prim (.newRow g) (.newRow g') fun st st' hs => ?_
  have hl := le_rw W st.rows.length st'.rows.length
  refine ⟨_, hl, ?_, addPair_new⟩
  exact {
    sc := hs.sc.mono (fun _ _ _ _ z => z.mono hl)
    lz := hs.lz.mono (fun _ _ _ _ z => z.mono hl)
    rw := hs.rw.push (fun _ _ _ _ z => z.mono hl) ⟨GetL.mono hl hg, .nil⟩
    si := hs.si.mono (fun _ _ _ _ z => z.mono hl)
    cx := hs.cx.mono (fun _ _ _ _ z ha => CtxR.mono hl (z ha))
    nd := fun hn => (hs.nd hn).of_eq rfl rfl rfl rfl
    hs := hs.hs }

theorem sim_rowInfo {c c' : Nat} (h : W.rw c c') :
    Sim H Z rec (fun W a a' => ∃ x y, a = some x ∧ a' = some y ∧ RowR H Z W x y) W (prim (.rowInfo c))
      (prim (.rowInfo c')) := by
  refine sim_prim (.rowInfo c) (.rowInfo c') fun st st' hs => ?_
  exact ⟨W, Corr.Le.refl W, hs, hs.rw.get h⟩

theorem sim_rowSet {c c' : Nat} {k : Str} {v v' : V F} (h : W.rw c c') (hv : VR H Z W v v') :
    Sim H Z rec EqR W (prim (.rowSet c k v)) (prim (.rowSet c' k v')) := by
  refine sim_prim (.rowSet c k v) (.rowSet c' k v') fun st st' hs => ?_
  obtain ⟨x, y, h1, h2, h3⟩ := hs.rw.get h
  refine ⟨W, Corr.Le.refl W, ?_, rfl⟩
  simp only [Prim.step, h1, h2]
  exact {
    sc := hs.sc
    lz := hs.lz
    rw := hs.rw.put h ⟨h3.cols, od_set_r h3.cache k hv⟩
    si := hs.si
    cx := hs.cx
    nd := fun hn => (hs.nd hn).of_eq rfl rfl rfl rfl
    hs := hs.hs }

theorem sim_newSite {q q' : V F} {s s' : Nat} (hq : VR H Z W q q') (h : W.sc s s') :
    Sim H Z rec (fun W a a' => W.si a a') W (prim (.newSite q s)) (prim (.newSite q' s')) := by
  refine sim_prim (.newSite q s) (.newSite q' s') fun st st' hs => ?_
  have hl := le_si W st.sites.length st'.sites.length
  refine ⟨_, hl, ?_, addPair_new⟩
  exact {
    sc := hs.sc.mono (fun _ _ _ _ z => z.mono hl)
    lz := hs.lz.mono (fun _ _ _ _ z => z.mono hl)
    rw := hs.rw.mono (fun _ _ _ _ z => z.mono hl)
    si := hs.si.push (fun _ _ _ _ z => z.mono hl) ⟨hq.mono hl, h⟩
    cx := hs.cx.mono (fun _ _ _ _ z ha => CtxR.mono hl (z ha))
    nd := fun hn => (hs.nd hn).of_eq rfl rfl rfl rfl
    hs := hs.hs }

theorem sim_siteInfo {c c' : Nat} (h : W.si c c') :
    Sim H Z rec (fun W a a' => ∃ x y, a = some x ∧ a' = some y ∧ SiteR H Z W x y) W (prim (.siteInfo c))
      (prim (.siteInfo c')) := by
  refine sim_prim (.siteInfo c) (.siteInfo c') fun st st' hs => ?_
  exact ⟨W, Corr.Le.refl W, hs, hs.si.get h⟩

theorem contains_add (l : List Nat) (n m : Nat) :
    (if l.contains n then l else l ++ [n]).contains m = (l.contains m || decide (m = n)) := by
  by_cases h : l.contains n = true
  · rw [if_pos h]
    by_cases hm : m = n
    · subst hm
      simp only [decide_true, Bool.or_true]
      exact h
    · simp [hm]
  · rw [if_neg h, Bool.eq_iff_iff]
    simp

theorem sim_split {n n' : Nat} {c : List Str} (h : Z.nd n n' c) :
    Sim H Z rec (fun _ a a' => (a && hasMinus c) = (a' && hasMinus c)) W (prim (.split n)) (prim (.split n')) := by
  refine sim_prim (.split n) (.split n') fun st st' hs => ?_
  refine ⟨W, Corr.Le.refl W, ?_, ?_⟩
  · exact {
      sc := hs.sc
      lz := hs.lz
      rw := hs.rw
      si := hs.si
      cx := hs.cx
      nd := by
        intro m m' d hm
        have h0 := hs.nd hm
        refine ⟨h0.fn, h0.fn', fun hd => ?_⟩
        simp only [Prim.step]
        rw [contains_add, contains_add, h0.split hd]
        congr 1
        by_cases e : m = n
        · subst e
          have := (Z.left h hm).1
          simp [this]
        · have e' : m' ≠ n' := fun e' => e (by subst e'; exact (Z.right hm h).1)
          simp [e, e']
      hs := hs.hs }
  · simp only [Prim.step]
    cases hm : hasMinus c with
    | false => simp
    | true => rw [(hs.nd h).split hm]

/-- A node that calls the function `k` of its own name. -/
theorem sim_fnOf {n n' : Nat} {c : List Str} {k : Str} (h : Z.nd n n' c) (hc : trimMinus c = [k]) :
    Sim H Z rec (fun _ a a' => a = k ∧ a' = k) W (prim (.fnOf n k)) (prim (.fnOf n' k)) := by
  have key : ∀ (st : St F S) (n : Nat) (hn : ∀ p, st.fns.find? (fun p => p.1 == n) = some p → trimMinus c = [p.2]),
      (Prim.step (Prim.fnOf n k) st).1 = k ∧
      (Prim.step (Prim.fnOf n k) st).2 = { st with fns := (Prim.step (Prim.fnOf n k) st).2.fns } ∧
      ∀ m p, (Prim.step (Prim.fnOf n k) st).2.fns.find? (fun p => p.1 == m) = some p →
        st.fns.find? (fun p => p.1 == m) = some p ∨ (m = n ∧ p.2 = k) := by
    intro st n hn
    simp only [Prim.step]
    cases hf : st.fns.find? (fun p => p.1 == n) with
    | some p =>
      have := hn p hf
      rw [hc] at this
      simp only [List.cons.injEq, and_true] at this
      exact ⟨this.symm, rfl, fun m q hq => Or.inl hq⟩
    | none =>
      refine ⟨rfl, rfl, fun m q hq => ?_⟩
      simp only [List.find?_append] at hq
      cases hg : st.fns.find? (fun p => p.1 == m) with
      | some p' => rw [hg] at hq; exact Or.inl (by simpa using hq)
      | none =>
        rw [hg] at hq
        simp only [Option.none_or, List.find?_cons, List.find?_nil] at hq
        split at hq
        · rename_i he
          simp only [Option.some.injEq] at hq
          subst hq
          exact Or.inr ⟨(by simpa using he : n = m).symm, rfl⟩
        · simp at hq
  refine sim_prim (.fnOf n k) (.fnOf n' k) fun st st' hs => ?_
  obtain ⟨a1, a2, a3⟩ := key st n (hs.nd h).fn
  obtain ⟨b1, b2, b3⟩ := key st' n' (hs.nd h).fn'
  refine ⟨W, Corr.Le.refl W, ?_, a1, b1⟩
  exact {
    sc := by rw [a2, b2]; exact hs.sc
    lz := by rw [a2, b2]; exact hs.lz
    rw := by rw [a2, b2]; exact hs.rw
    si := by rw [a2, b2]; exact hs.si
    cx := by rw [a2, b2]; exact hs.cx
    nd := by
      intro m m' d hm
      have h0 := hs.nd hm
      refine ⟨fun p hp => ?_, fun p hp => ?_, ?_⟩
      · rcases a3 m p hp with h1 | ⟨rfl, h1⟩
        · exact h0.fn p h1
        · rw [h1, ← (Z.left h hm).2, hc]
      · rcases b3 m' p hp with h1 | ⟨rfl, h1⟩
        · exact h0.fn' p h1
        · rw [h1, ← (Z.right h hm).2, hc]
      · rw [a2, b2]
        exact h0.split
    hs := by rw [a2, b2]; exact hs.hs }

theorem sim_log {m m' : Str} : Sim H Z rec EqR W (prim (.log m)) (prim (.log m')) := by
  refine sim_prim (.log m) (.log m') fun st st' hs => ?_
  exact ⟨W, Corr.Le.refl W, ⟨hs.sc, hs.lz, hs.rw, hs.si, hs.cx, fun hn => (hs.nd hn).of_eq rfl rfl rfl rfl, hs.hs⟩, rfl⟩

theorem interp_logs : ∀ (l : List Str) (st : St F S),
    interp rec (logsP l) st = some ((), { st with log := st.log ++ l })
  | [], st => by simp [logsP, foldP, interp, pure]
  | m :: r, st => by
    have := interp_logs r { st with log := st.log ++ [m] }
    rw [List.append_assoc] at this
    exact this

/-- The messages may differ, also in number. -/
theorem sim_logs {l l' : List Str} : Sim H Z rec EqR W (logsP l) (logsP l') := by
  intro st st' hs x s1 hx
  rw [interp_logs] at hx
  obtain ⟨rfl, rfl⟩ := Prod.mk.injEq .. ▸ Option.some.inj hx
  exact ⟨_, _, W, interp_logs _ _, Corr.Le.refl W,
    ⟨hs.sc, hs.lz, hs.rw, hs.si, hs.cx, fun hn => (hs.nd hn).of_eq rfl rfl rfl rfl, hs.hs⟩, rfl⟩

theorem sim_eval {m m' : Str} {s s' : Nat} : Sim H Z rec EqR W (prim (.eval m s)) (prim (.eval m' s')) := by
  refine sim_prim (.eval m s) (.eval m' s') fun st st' hs => ?_
  exact ⟨W, Corr.Le.refl W, ⟨hs.sc, hs.lz, hs.rw, hs.si, hs.cx, fun hn => (hs.nd hn).of_eq rfl rfl rfl rfl, hs.hs⟩, rfl⟩

theorem sim_host {f f' : S → V F × S} (hf : ∀ x y, Z.hs x y → Z.hs (f x).2 (f' y).2 ∧ VR H Z W (f x).1 (f' y).1) :
    Sim H Z rec (VR H Z) W (prim (.host f)) (prim (.host f')) := by
  refine sim_prim (.host f) (.host f') fun st st' hs => ?_
  obtain ⟨h1, h2⟩ := hf _ _ hs.hs
  exact ⟨W, Corr.Le.refl W, ⟨hs.sc, hs.lz, hs.rw, hs.si, hs.cx, fun hn => (hs.nd hn).of_eq rfl rfl rfl rfl, h1⟩, h2⟩

/-! ## Calls -/

theorem sim_and (hr : RecSim H Z rec) {e e' s s'} (h0 : AndR H Z e e') (h1 : W.sc s s') :
    Sim H Z rec (VR H Z) W (call (.and e s)) (call (.and e' s')) :=
  sim_call (.and e s) (.and e' s') (hr.and h0 h1)

theorem sim_or (hr : RecSim H Z rec) {e e' s s'} (h0 : OrR H Z e e') (h1 : W.sc s s') :
    Sim H Z rec (VR H Z) W (call (.or e s)) (call (.or e' s')) :=
  sim_call (.or e s) (.or e' s') (hr.or h0 h1)

theorem sim_cond (hr : RecSim H Z rec) {e e' s s'} (h0 : CondR H Z e e') (h1 : W.sc s s') :
    Sim H Z rec (VR H Z) W (call (.cond e s)) (call (.cond e' s')) :=
  sim_call (.cond e s) (.cond e' s') (hr.cond h0 h1)

theorem sim_add (hr : RecSim H Z rec) {e e' s s'} (h0 : AddR H Z e e') (h1 : W.sc s s') :
    Sim H Z rec (VR H Z) W (call (.add e s)) (call (.add e' s')) :=
  sim_call (.add e s) (.add e' s') (hr.add h0 h1)

theorem sim_mul (hr : RecSim H Z rec) {e e' s s'} (h0 : MulR H Z e e') (h1 : W.sc s s') :
    Sim H Z rec (VR H Z) W (call (.mul e s)) (call (.mul e' s')) :=
  sim_call (.mul e s) (.mul e' s') (hr.mul h0 h1)

theorem sim_member (hr : RecSim H Z rec) {e e' s s'} (h0 : MemberR H Z e e') (h1 : W.sc s s') :
    Sim H Z rec (VR H Z) W (call (.member e s)) (call (.member e' s')) :=
  sim_call (.member e s) (.member e' s') (hr.member h0 h1)

theorem sim_comma (hr : RecSim H Z rec) {e e' s s'} (h0 : CommaR H Z e e') (h1 : W.sc s s') :
    Sim H Z rec (VR H Z) W (call (.comma e s)) (call (.comma e' s')) :=
  sim_call (.comma e s) (.comma e' s') (hr.comma h0 h1)

theorem sim_value (hr : RecSim H Z rec) {e e' s s'} (h0 : ValueR H Z e e') (h1 : W.sc s s') :
    Sim H Z rec (VR H Z) W (call (.value e s)) (call (.value e' s')) :=
  sim_call (.value e s) (.value e' s') (hr.value h0 h1)

theorem sim_sym (hr : RecSim H Z rec) {e e' s s'} (h0 : SymR H Z e e') (h1 : W.sc s s') :
    Sim H Z rec (VR H Z) W (call (.sym e s)) (call (.sym e' s')) :=
  sim_call (.sym e s) (.sym e' s') (hr.sym h0 h1)

theorem sim_negate (hr : RecSim H Z rec) {v v' s s'} (h0 : VR H Z W v v') (h1 : W.sc s s') :
    Sim H Z rec (VR H Z) W (call (.negate v s)) (call (.negate v' s')) :=
  sim_call (.negate v s) (.negate v' s') (hr.negate h0 h1)

theorem sim_col (hr : RecSim H Z rec) {e e' s s'} (h0 : ColR H Z e e') (h1 : W.sc s s') :
    Sim H Z rec (VR H Z) W (call (.col e s)) (call (.col e' s')) :=
  sim_call (.col e s) (.col e' s') (hr.col h0 h1)

theorem sim_getter (hr : RecSim H Z rec) {g g'} (h0 : GetR H Z W g g') :
    Sim H Z rec (VR H Z) W (call (.getter g)) (call (.getter g')) :=
  sim_call (.getter g) (.getter g') (hr.getter h0)

theorem sim_rowGet (hr : RecSim H Z rec) {c c' k} (h0 : W.rw c c') :
    Sim H Z rec (OVR H Z) W (call (.rowGet c k)) (call (.rowGet c' k)) :=
  sim_call (.rowGet c k) (.rowGet c' k) (hr.rowGet h0)

theorem sim_lazyWith (hr : RecSim H Z rec) {c c' s s'} (h0 : W.lz c c') (h1 : W.sc s s') :
    Sim H Z rec (VR H Z) W (call (.lazyWith c s)) (call (.lazyWith c' s')) :=
  sim_call (.lazyWith c s) (.lazyWith c' s') (hr.lazyWith h0 h1)

theorem sim_lazyReduce (hr : RecSim H Z rec) {c c'} (h0 : W.lz c c') :
    Sim H Z rec (VR H Z) W (call (.lazyReduce c)) (call (.lazyReduce c')) :=
  sim_call (.lazyReduce c) (.lazyReduce c') (hr.lazyReduce h0)

theorem sim_resolve (hr : RecSim H Z rec) {s s' k} (h0 : W.sc s s') :
    Sim H Z rec (OVR H Z) W (call (.resolve s k)) (call (.resolve s' k)) :=
  sim_call (.resolve s k) (.resolve s' k) (hr.resolve h0)

theorem sim_assoc (hr : RecSim H Z rec) {v v' k k' s s'} (h0 : VR H Z W v v') (h1 : KeyR H Z W k k') (h2 : W.sc s s') :
    Sim H Z rec (OVR H Z) W (call (.assoc v k s)) (call (.assoc v' k' s')) :=
  sim_call (.assoc v k s) (.assoc v' k' s') (hr.assoc h0 h1 h2)

theorem sim_members (hr : RecSim H Z rec) {v v' s s'} (h0 : VR H Z W v v') (h1 : W.sc s s') :
    Sim H Z rec EqR W (call (.members v s)) (call (.members v' s')) :=
  sim_call (.members v s) (.members v' s') (hr.members h0 h1)

theorem sim_select (hr : RecSim H Z rec) {q q' s s'} (h0 : SelectR H Z q q') (h1 : W.sc s s') :
    Sim H Z rec (VRL H Z) W (call (.select q s)) (call (.select q' s')) :=
  sim_call (.select q s) (.select q' s') (hr.select h0 h1)

theorem sim_plugin (hr : RecSim H Z rec) {q q' s s'} (h0 : PluginR H Z q q') (h1 : W.sc s s') :
    Sim H Z rec (VRL H Z) W (call (.plugin q s)) (call (.plugin q' s')) :=
  sim_call (.plugin q s) (.plugin q' s') (hr.plugin h0 h1)

theorem sim_withArgs (hr : RecSim H Z rec) {a a' v v' s s'} (h0 : All2 (ArgR H Z) a a') (h1 : (VR H Z W v v' ∨ ∃ n, Z.okPl n ∧ v = .obj (.plugin n) ∧ v' = .obj (.plugin n))) (h2 : W.sc s s') :
    Sim H Z rec (VRL H Z) W (call (.evalSymbolWithArgs a v s)) (call (.evalSymbolWithArgs a' v' s')) :=
  sim_call (.evalSymbolWithArgs a v s) (.evalSymbolWithArgs a' v' s') (hr.withArgs h0 h1 h2)

theorem sim_evalSymbol (hr : RecSim H Z rec) {v v' s s'} (h0 : VR H Z W v v') (h1 : W.sc s s') :
    Sim H Z rec (VRL H Z) W (call (.evalSymbol v s)) (call (.evalSymbol v' s')) :=
  sim_call (.evalSymbol v s) (.evalSymbol v' s') (hr.evalSymbol h0 h1)

theorem sim_evalQuery (hr : RecSim H Z rec) {v v' s s'} (h0 : VR H Z W v v') (h1 : W.sc s s') :
    Sim H Z rec (VRL H Z) W (call (.evalQuery v s)) (call (.evalQuery v' s')) :=
  sim_call (.evalQuery v s) (.evalQuery v' s') (hr.evalQuery h0 h1)

end
end Vfilter.Vql
