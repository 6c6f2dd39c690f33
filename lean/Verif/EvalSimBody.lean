import Verif.EvalSimPrim
/-!
# The evaluator respects the relation

Every method of the evaluator, applied to related arguments in related heaps, gives related
results (`run_sim`).
-/
set_option linter.all false

namespace Vfilter.Vql

section
variable {F S : Type} {H : Host F S} {Z : Cfg S} {rec : Rec F S} {W : Corr}

theorem getD_r {v v' : Option (V F)} (h : Opt2 (VR H Z W) v v') : VR H Z W (v.getD .null) (v'.getD .null) := by
  cases h with
  | none => exact .null
  | some h => exact h

theorem isQuery_r {v v' : V F} (h : VR H Z W v v') : isQuery v = isQuery v' := by
  cases h with
  | @obj o o' ho => cases o <;> cases o' <;> first | rfl | exact absurd ho id
  | _ => rfl

theorem toInt64_r [FloatOps F] {v v' : V F} (h : VR H Z W v v') : v.toInt64 = v'.toInt64 := by
  cases h <;> rfl

theorem sim_map {α α' β β' : Type} {R : Corr → α → α' → Prop} {Q : Corr → β → β' → Prop}
    {f : α → Prog F S β} {f' : α' → Prog F S β'}
    (hR : ∀ {W W'}, W.Le W' → ∀ {a a'}, R W a a' → R W' a a')
    (hQ : ∀ {W W'}, W.Le W' → ∀ {a a'}, Q W a a' → Q W' a a') :
    ∀ {W} {l : List α} {l' : List α'}, (∀ W', W.Le W' → ∀ a a', R W' a a' → Sim H Z rec Q W' (f a) (f' a')) →
      All2 (R W) l l' → Sim H Z rec (fun W => All2 (Q W)) W (mapP f l) (mapP f' l')
  | _, _, _, _, .nil => sim_pure .nil
  | W, _, _, hf, .cons (a := a) (b := b) (l := l) (l' := l') ha hl => by
    simp only [mapP]
    refine sim_bind (hf W (Corr.Le.refl W) _ _ ha) fun W1 h1 b b' hb => ?_
    refine sim_bind (sim_map hR hQ (fun W' h' => hf W' (h1.trans h')) (hl.mono fun _ _ => hR h1))
      fun W2 h2 r r' hr => ?_
    exact sim_pure (.cons (hQ h2 hb) hr)

theorem sim_fold {α α' β β' : Type} {R : Corr → α → α' → Prop} {Q : Corr → β → β' → Prop}
    {f : β → α → Prog F S β} {f' : β' → α' → Prog F S β'}
    (hR : ∀ {W W'}, W.Le W' → ∀ {a a'}, R W a a' → R W' a a') :
    ∀ {W} {l : List α} {l' : List α'} {b : β} {b' : β'},
      (∀ W', W.Le W' → ∀ b b' a a', Q W' b b' → R W' a a' → Sim H Z rec Q W' (f b a) (f' b' a')) →
      Q W b b' → All2 (R W) l l' → Sim H Z rec Q W (foldP f b l) (foldP f' b' l')
  | _, _, _, _, _, _, hb, .nil => sim_pure hb
  | W, _, _, _, _, hf, hb, .cons ha hl => by
    simp only [foldP]
    refine sim_bind (hf W (Corr.Le.refl W) _ _ _ _ hb ha) fun W1 h1 b b' hb => ?_
    exact sim_fold hR (fun W' h' => hf W' (h1.trans h')) hb (hl.mono fun _ _ => hR h1)

/-- Folding over related syntax. -/
theorem sim_foldS {α α' β β' : Type} {R : α → α' → Prop} {Q : Corr → β → β' → Prop}
    {f : β → α → Prog F S β} {f' : β' → α' → Prog F S β'} {l : List α} {l' : List α'} {b : β} {b' : β'}
    (hf : ∀ W', W.Le W' → ∀ b b' a a', Q W' b b' → R a a' → Sim H Z rec Q W' (f b a) (f' b' a'))
    (hb : Q W b b') (hl : All2 R l l') : Sim H Z rec Q W (foldP f b l) (foldP f' b' l') :=
  sim_fold (R := fun _ => R) (fun _ _ _ h => h) hf hb hl

variable (hH : HostR H Z) (hr : RecSim H Z rec)
include hH hr

theorem sim_andLoop {s s' : Nat} : ∀ {W} {last last' : V F} {l l' : List AndT}, W.sc s s' → VR H Z W last last' →
    All2 (AndTR H Z) l l' → Sim H Z rec (VR H Z) W (andLoopP H s last l) (andLoopP H s' last' l')
  | _, _, _, _, _, _, hv, .nil => sim_pure hv
  | W, _, _, _, _, hs, hv, .cons (.mk (op := op) (op' := op') (t := t) (t' := t') ho ht) hl => by
    simp only [andLoopP]
    refine sim_bind (sim_or hr ht hs) fun W1 h1 v v' hv => ?_
    refine sim_bind (hH.truth hr hv (h1.sc hs)) fun W2 h2 b b' hb => ?_
    cases (hb : b = b')
    cases b with
    | false => exact sim_pure (.bool _)
    | true =>
      simp only [Bool.true_eq_false, if_false]
      refine sim_andLoop (h2.sc (h1.sc hs)) ?_ hl
      simp only [ho]
      split
      · exact hv.mono h2
      · exact .bool _

theorem sim_orLoop {s s' : Nat} : ∀ {W} {last last' : V F} {l l' : List OrT}, W.sc s s' → VR H Z W last last' →
    All2 (OrTR H Z) l l' → Sim H Z rec (VR H Z) W (orLoopP H s last l) (orLoopP H s' last' l')
  | _, _, _, _, _, _, hv, .nil => sim_pure hv
  | W, _, _, _, _, hs, hv, .cons (.mk (op := op) (op' := op') (t := t) (t' := t') ho ht) hl => by
    simp only [orLoopP]
    refine sim_bind (sim_cond hr ht hs) fun W1 h1 v v' hv => ?_
    refine sim_bind (hH.truth hr hv (h1.sc hs)) fun W2 h2 b b' hb => ?_
    cases (hb : b = b')
    cases b with
    | true =>
      simp only [if_true]
      refine sim_pure ?_
      simp only [ho]
      split
      · exact hv.mono h2
      · exact .bool _
    | false =>
      simp only [Bool.false_eq_true, if_false]
      exact sim_orLoop (h2.sc (h1.sc hs)) (hv.mono h2) hl

theorem sim_rel {op : Str} {a a' b b' : V F} {s s' : Nat} (ha : VR H Z W a a') (hb : VR H Z W b b')
    (hs : W.sc s s') : Sim H Z rec EqR W (relP H op a b s) (relP H op a' b' s') := by
  unfold relP
  split
  · exact hH.rel hr ha hb hs
  split
  · exact hH.rel hr ha hb hs
  split
  · exact hH.rel hr ha hb hs
  split
  · refine sim_bind (hH.rel hr ha hb hs) fun W1 h1 x x' hx => ?_
    cases (hx : x = x')
    exact sim_pure rfl
  split
  · refine sim_bind (hH.rel hr ha hb hs) fun W1 h1 x x' hx => ?_
    cases (hx : x = x')
    cases x with
    | true => exact sim_pure rfl
    | false => exact hH.rel hr (ha.mono h1) (hb.mono h1) (h1.sc hs)
  split
  · exact hH.rel hr ha hb hs
  split
  · refine sim_bind (hH.rel hr ha hb hs) fun W1 h1 x x' hx => ?_
    cases (hx : x = x')
    cases x with
    | true => exact sim_pure rfl
    | false => exact hH.rel hr (ha.mono h1) (hb.mono h1) (h1.sc hs)
  split
  · exact hH.rel hr hb ha hs
  · exact sim_pure rfl

theorem sim_addStep {s s' : Nat} {a a' : V F} {t t' : AddT} (hs : W.sc s s') (ha : VR H Z W a a')
    (ht : AddTR H Z t t') : Sim H Z rec (VR H Z) W (addStepP H s a t) (addStepP H s' a' t') := by
  cases ht with
  | mk ht =>
    simp only [addStepP]
    refine sim_bind (sim_mul hr ht hs) fun W1 h1 v v' hv => ?_
    split
    · exact hH.arith hr (ha.mono h1) hv (h1.sc hs)
    split
    · exact hH.arith hr (ha.mono h1) hv (h1.sc hs)
    · exact sim_pure (ha.mono h1)

theorem sim_mulStep {s s' : Nat} {a a' : V F} {t t' : MulT} (hs : W.sc s s') (ha : VR H Z W a a')
    (ht : MulTR H Z t t') : Sim H Z rec (VR H Z) W (mulStepP H s a t) (mulStepP H s' a' t') := by
  cases ht with
  | mk ht =>
    simp only [mulStepP]
    refine sim_bind (sim_value hr ht hs) fun W1 h1 v v' hv => ?_
    split
    · exact hH.arith hr (ha.mono h1) hv (h1.sc hs)
    split
    · exact hH.arith hr (ha.mono h1) hv (h1.sc hs)
    · exact sim_pure (ha.mono h1)

omit hH in
theorem sim_bound [FloatOps F] {s s' : Nat} {e e' : Option Value} (hs : W.sc s s') (he : Opt2 (ValueR H Z) e e') :
    Sim H Z rec EqR W (boundP s e) (boundP s' e') := by
  cases he with
  | none => exact sim_pure rfl
  | some he =>
    simp only [boundP]
    refine sim_bind (sim_value hr he hs) fun W1 h1 v v' hv => ?_
    rw [toInt64_r hv]
    cases v'.toInt64 with
    | none => exact sim_pure rfl
    | some i => exact sim_pure rfl

omit hH in
theorem sim_memberLoop [FloatOps F] {s s' : Nat} : ∀ {W} {a a' : V F} {l l' : List MTerm}, W.sc s s' →
    VR H Z W a a' → All2 (MTermR H Z) l l' → Sim H Z rec (VR H Z) W (memberLoopP s a l) (memberLoopP s' a' l')
  | _, _, _, _, _, _, hv, .nil => by
    simp only [memberLoopP]
    exact sim_pure hv
  | W, _, _, _, _, hs, hv, .cons (.range h1 h2) hl => by
    simp only [memberLoopP]
    refine sim_bind (sim_bound hr hs h1) fun W1 l1 x x' hx => ?_
    cases (hx : x = x')
    cases x with
    | none => exact sim_pure .null
    | some x =>
      refine sim_bind (sim_bound hr (l1.sc hs) h2) fun W2 l2 y y' hy => ?_
      cases (hy : y = y')
      cases y with
      | none => exact sim_pure .null
      | some y =>
        refine sim_bind (sim_assoc hr (hv.mono (l1.trans l2)) (.range _ _) (l2.sc (l1.sc hs))) fun W3 l3 r r' h3 => ?_
        obtain ⟨o, b⟩ := r
        obtain ⟨o', b'⟩ := r'
        obtain ⟨ho, hb⟩ := h3
        simp only at ho hb
        subst hb
        cases b with
        | false => exact sim_pure .null
        | true => exact sim_memberLoop (l3.sc (l2.sc (l1.sc hs))) (getD_r ho) hl
  | W, _, _, _, _, hs, hv, .cons (.index h1) hl => by
    simp only [memberLoopP]
    refine sim_bind (sim_value hr h1 hs) fun W1 l1 k k' hk => ?_
    refine sim_bind (sim_assoc hr (hv.mono l1) (.val hk) (l1.sc hs)) fun W3 l3 r r' h3 => ?_
    obtain ⟨o, b⟩ := r
    obtain ⟨o', b'⟩ := r'
    obtain ⟨ho, hb⟩ := h3
    simp only at ho hb
    subst hb
    cases b with
    | false => exact sim_pure .null
    | true => exact sim_memberLoop (l3.sc (l1.sc hs)) (getD_r ho) hl
  | W, _, _, _, _, hs, hv, .cons (.field (f := f) (f' := f') h1) hl => by
    simp only [memberLoopP]
    rw [h1]
    refine sim_bind (sim_assoc hr hv (.val (.str _)) hs) fun W3 l3 r r' h3 => ?_
    obtain ⟨o, b⟩ := r
    obtain ⟨o', b'⟩ := r'
    obtain ⟨ho, hb⟩ := h3
    simp only at ho hb
    subst hb
    cases b with
    | false => exact sim_pure .null
    | true => exact sim_memberLoop (l3.sc hs) (getD_r ho) hl
  | W, _, _, _, _, hs, hv, .cons .empty hl => by
    simp only [memberLoopP]
    exact sim_pure .null

omit hH in
theorem sim_commaLoop {s s' : Nat} : ∀ {W} {a a' : List (V F)} {l l' : List CommaT}, W.sc s s' →
    VRL H Z W a a' → All2 (CommaTR H Z) l l' → Sim H Z rec (VR H Z) W (commaLoopP s a l) (commaLoopP s' a' l')
  | _, _, _, _, _, _, hv, .nil => by
    simp only [commaLoopP]
    exact sim_pure (.arr hv)
  | _, _, _, _, _, _, hv, .cons .none _ => by
    simp only [commaLoopP]
    exact sim_pure (.arr hv)
  | W, _, _, _, _, hs, hv, .cons (.some he) hl => by
    simp only [commaLoopP]
    refine sim_bind (sim_and hr he hs) fun W1 l1 v v' h1 => ?_
    exact sim_commaLoop (l1.sc hs) ((VRL.mono l1 hv).snoc h1) hl

omit hH in
theorem sim_buildArgs {s s' : Nat} {p p' : List Arg} (hs : W.sc s s') (hp : All2 (ArgR H Z) p p') :
    Sim H Z rec (VRD H Z) W (buildArgsP s p) (buildArgsP s' p') := by
  unfold buildArgsP
  refine sim_foldS (R := ArgR H Z) (fun W1 l1 b b' a a' hb ha => ?_) .nil hp
  cases ha with
  | mk hv =>
    cases hv with
    | expr he =>
      refine sim_bind (sim_and hr he (l1.sc hs)) fun W2 l2 v v' h2 => ?_
      exact sim_pure (od_set_r (VRD.mono l2 hb) _ h2)
    | select hq => exact sim_pure (od_set_r hb _ (.obj hq))
    | array hc =>
      refine sim_bind (sim_comma hr hc (l1.sc hs)) fun W2 l2 v v' h2 => ?_
      exact sim_pure (od_set_r (VRD.mono l2 hb) _ h2)
    | empty => exact sim_pure (od_set_r hb _ (.arr .nil))

omit hH in
theorem sim_applyDefaults {s s' : Nat} {d d' : List (Str × Arg)} {a a' : OD (V F)} (hs : W.sc s s')
    (hd : All2 (EntR (ArgR H Z)) d d') (ha : VRD H Z W a a') :
    Sim H Z rec (VRD H Z) W (applyDefaultsP s d a) (applyDefaultsP s' d' a') := by
  unfold applyDefaultsP
  refine sim_foldS (R := EntR (ArgR H Z)) (fun W1 l1 b b' a a' hb ha => ?_) ha hd
  cases ha with
  | @mk k v w hv =>
    have hg := od_get_r hb k
    revert hg
    simp only
    generalize OD.get b k = x, OD.get b' k = y
    intro hg
    cases hg with
    | some _ => exact sim_pure hb
    | none =>
      cases hv with
      | mk hv =>
        cases hv with
        | expr he =>
          refine sim_bind (sim_and hr he (l1.sc hs)) fun W2 l2 v v' h2 => ?_
          exact sim_pure (od_set_r (VRD.mono l2 hb) _ h2)
        | select hq => exact sim_pure (od_set_r hb _ (.obj hq))
        | array hc =>
          refine sim_bind (sim_comma hr hc (l1.sc hs)) fun W2 l2 v v' h2 => ?_
          exact sim_pure (od_set_r (VRD.mono l2 hb) _ h2)
        | empty => exact sim_pure (od_set_r hb _ (.arr .nil))

omit hH in
theorem sim_materialize {s s' : Nat} {q q' : V F} (hs : W.sc s s') (hq : VR H Z W q q') :
    Sim H Z rec (VRL H Z) W (materializeP s q) (materializeP s' q') := by
  unfold materializeP
  refine sim_bind (sim_copy hs) fun W1 l1 i j h1 => ?_
  exact sim_evalQuery hr (hq.mono l1) h1

omit hH in
theorem sim_fnArgs {s s' : Nat} {p p' : List Arg} (hs : W.sc s s') (hp : All2 (ArgR H Z) p p') :
    Sim H Z rec (VRD H Z) W (fnArgsP s p) (fnArgsP s' p') := by
  unfold fnArgsP
  refine sim_foldS (R := ArgR H Z) (fun W1 l1 b b' a a' hb ha => ?_) .nil hp
  cases ha with
  | mk hv =>
    cases hv with
    | expr he =>
      refine sim_bind (sim_newLazy he (l1.sc hs)) fun W2 l2 v v' h2 => ?_
      exact sim_pure (od_set_r (VRD.mono l2 hb) _ (.obj h2))
    | select hq => exact sim_pure (od_set_r hb _ (.obj hq))
    | array hc =>
      refine sim_bind (sim_comma hr hc (l1.sc hs)) fun W2 l2 v v' h2 => ?_
      exact sim_pure (od_set_r (VRD.mono l2 hb) _ h2)
    | empty => exact sim_pure (od_set_r hb _ (.arr .nil))

theorem sim_callFunction {n n' s s' : Nat} {c : List Str} {k : Str} {p p' : List Arg} (hn : Z.nd n n' c)
    (hc : trimMinus c = [k]) (hk : Z.okFn k) (hs : W.sc s s') (hp : All2 (ArgR H Z) p p') :
    Sim H Z rec (VR H Z) W (callFunctionP H n k p s) (callFunctionP H n' k p' s') := by
  unfold callFunctionP
  refine sim_bind (sim_fnArgs hr hs hp) fun W1 l1 a a' ha => ?_
  refine sim_bind (sim_fnOf hn hc) fun W2 l2 f f' hf => ?_
  obtain ⟨e1, e2⟩ := hf
  rw [e1, e2]
  exact hH.fn hr hk hn (l2.sc (l1.sc hs)) (VRD.mono l2 ha)

omit hH in
theorem sim_walk {s s' : Nat} : ∀ {W} {b : Bool} {v v' : V F} {l : List Str}, W.sc s s' → VR H Z W v v' →
    Sim H Z rec (fun W => Opt2 (VR H Z W)) W (walkP s b v l) (walkP s' b v' l)
  | _, _, _, _, [], _, hv => by
    simp only [walkP]
    exact sim_pure (.some hv)
  | W, b, _, _, c :: r, hs, hv => by
    simp only [walkP]
    refine sim_bind (sim_assoc hr hv (.val (.str _)) hs) fun W3 l3 r r' h3 => ?_
    obtain ⟨o, p⟩ := r
    obtain ⟨o', p'⟩ := r'
    obtain ⟨ho, hb⟩ := h3
    simp only at ho hb
    subst hb
    cases p with
    | false =>
      cases b with
      | false => exact sim_pure .none
      | true =>
        refine sim_bind sim_log fun W4 l4 _ _ _ => ?_
        exact sim_pure .none
    | true => exact sim_walk (l3.sc hs) (getD_r ho)

omit hH in
theorem sim_negateP {n : Bool} {v v' : V F} {s s' : Nat} (hv : VR H Z W v v') (hs : W.sc s s') :
    Sim H Z rec (VR H Z) W (negateP n v s) (negateP n v' s') := by
  unfold negateP
  split
  · exact sim_negate hr hv hs
  · exact sim_pure hv

omit hH in
theorem sim_argsP {b : Bool} {s s' : Nat} {p p' : List Arg} (hs : W.sc s s') (hp : All2 (ArgR H Z) p p') :
    Sim H Z rec (VRD H Z) W (argsP b s p) (argsP b s' p') := by
  unfold argsP
  split
  · exact sim_buildArgs hr hs hp
  · exact sim_pure .nil

omit hH hr in
theorem sim_agP {b : Bool} {s s' : Nat} (hs : W.sc s s') :
    Sim H Z rec EqR W (agP b s) (agP b s') := by
  unfold agP
  split
  · exact sim_newAg hs
  · exact sim_pure rfl

omit hH in
theorem sim_queryDefaults {s s' : Nat} {v v' : V F} {a a' : OD (V F)} (hs : W.sc s s') (hv : VR H Z W v v')
    (ha : VRD H Z W a a') : Sim H Z rec (VRD H Z) W (queryDefaultsP s v a) (queryDefaultsP s' v' a') := by
  cases hv with
  | @obj o o' ho =>
    cases o <;> cases o' <;> first | exact absurd ho id | exact sim_pure ha | skip
    exact sim_applyDefaults hr hs ho.1 ha
  | _ => exact sim_pure ha

/-- What a name stands for: a registered function or plugin, or a value. -/
def Found (H : Host F S) (Z : Cfg S) (ok : Str → Prop) (mk : Str → Obj) (called : Bool) (comps : List Str)
    (W : Corr) (o o' : Option (V F)) : Prop :=
  Opt2 (VR H Z W) o o' ∨ ∃ c, comps = [c] ∧ called = true ∧ ok c ∧ o = some (.obj (mk c)) ∧ o' = some (.obj (mk c))

omit hH in
theorem sim_find {ok : Str → Prop} {isReg : Str → Bool} {mk : Str → Obj} {called : Bool} {comps : List Str}
    {s s' : Nat} (hs : W.sc s s') (hok : ∀ c, comps = [c] → called = true → isReg c = true → ok c) :
    Sim H Z rec (Found H Z ok mk called comps) W (findP isReg mk called comps s) (findP isReg mk called comps s') := by
  have hw : ∀ cs, Sim H Z rec (fun W => Opt2 (VR H Z W)) W (walkP s true (.obj (.scope s)) cs)
      (walkP s' true (.obj (.scope s')) cs) := fun cs => sim_walk hr hs (.obj hs)
  unfold findP
  split
  · rename_i c
    split
    · rename_i h
      exact sim_pure (Or.inr ⟨c, rfl, h.1, hok c rfl h.1 h.2, rfl, rfl⟩)
    · exact sim_weaken (hw _) (fun _ _ _ _ h => Or.inl h)
  · exact sim_weaken (hw _) (fun _ _ _ _ h => Or.inl h)

theorem sim_symValue {n n' s s' : Nat} {sy sy' : Str} {called neg : Bool} {c : List Str} {p p' : List Arg} {v v' : V F}
    (hn : Z.nd n n' c) (hs : W.sc s s') (hp : All2 (ArgR H Z) p p')
    (hv : Found H Z Z.okFn Obj.fn called (trimMinus c) W (some v) (some v')) :
    Sim H Z rec (VR H Z) W (symValueP H n sy called p neg s v) (symValueP H n' sy' called p' neg s' v') := by
  have hpe : p.isEmpty = p'.isEmpty := by cases hp <;> rfl
  rcases hv with hv | ⟨k, hk, hcalled, hok, e1, e2⟩
  · cases hv with
    | some hv =>
      have hgen : ∀ {v v' : V F}, VR H Z W v v' → Sim H Z rec (VR H Z) W
          (if isQuery v = true ∧ p.isEmpty = false then do
            let sub ← prim (.copy s)
            prim (.newAg sub)
            let d ← prim (.depth sub)
            if overflow d then pure .null
            else do
              let args ← argsP called s p
              let args ← queryDefaultsP s v args
              prim (.append sub (.dict args))
              let c ← prim (.newSite v sub)
              negateP neg (.obj (.site c)) s
          else if called then do
            prim (.log (bs "ERROR: not a function " ++ sy))
            pure .null
          else negateP neg v s)
          (if isQuery v' = true ∧ p'.isEmpty = false then do
            let sub ← prim (.copy s')
            prim (.newAg sub)
            let d ← prim (.depth sub)
            if overflow d then pure .null
            else do
              let args ← argsP called s' p'
              let args ← queryDefaultsP s' v' args
              prim (.append sub (.dict args))
              let c ← prim (.newSite v' sub)
              negateP neg (.obj (.site c)) s'
          else if called then do
            prim (.log (bs "ERROR: not a function " ++ sy'))
            pure .null
          else negateP neg v' s') := by
        intro v v' hv
        rw [isQuery_r hv, hpe]
        split
        · refine sim_bind (sim_copy hs) fun W1 l1 sub sub' h1 => ?_
          refine sim_bind (sim_newAg h1) fun W2 l2 _ _ _ => ?_
          refine sim_bind (sim_depth (l2.sc h1)) fun W3 l3 d d' hd => ?_
          cases (hd : d = d')
          split
          · exact sim_pure .null
          · have lw := (l1.trans l2).trans l3
            refine sim_bind (sim_argsP hr (lw.sc hs) hp) fun W4 l4 a a' ha => ?_
            have lw := lw.trans l4
            refine sim_bind (sim_queryDefaults hr (lw.sc hs) (hv.mono lw) ha) fun W5 l5 a a' ha => ?_
            have lw := lw.trans l5
            have hsub : W5.sc sub sub' := l5.sc (l4.sc (l3.sc (l2.sc h1)))
            refine sim_bind (sim_append hsub (.dict ha)) fun W6 l6 _ _ _ => ?_
            have lw := lw.trans l6
            refine sim_bind (sim_newSite (hv.mono lw) (l6.sc hsub)) fun W7 l7 c c' hc => ?_
            exact sim_negateP hr (.obj hc) (l7.sc (lw.sc hs))
        · split
          · refine sim_bind sim_log fun W1 l1 _ _ _ => ?_
            exact sim_pure .null
          · exact sim_negateP hr hv hs
      cases hv with
      | @obj o o' ho =>
        cases o <;> cases o' <;> first | exact absurd ho id | exact hgen (.obj ho) | skip
        · simp only [symValueP]
          refine sim_bind (sim_copy hs) fun W1 l1 sub sub' h1 => ?_
          refine sim_bind (sim_agP h1) fun W2 l2 _ _ _ => ?_
          refine sim_bind (sim_depth (l2.sc h1)) fun W3 l3 d d' hd => ?_
          cases (hd : d = d')
          split
          · exact sim_pure .null
          · have lw := (l1.trans l2).trans l3
            refine sim_bind (sim_argsP hr (lw.sc hs) hp) fun W4 l4 a a' ha => ?_
            have lw := lw.trans l4
            refine sim_bind (sim_applyDefaults hr (lw.sc hs) ho.1 ha) fun W5 l5 a a' ha => ?_
            have lw := lw.trans l5
            have hsub : W5.sc sub sub' := l5.sc (l4.sc (l3.sc (l2.sc h1)))
            refine sim_bind (sim_append hsub (.dict ha)) fun W6 l6 _ _ _ => ?_
            have lw := lw.trans l6
            refine sim_bind (sim_and hr ho.2 (l6.sc hsub)) fun W7 l7 v v' hv => ?_
            exact sim_negateP hr hv (l7.sc (lw.sc hs))
      | null => exact hgen .null
      | bool b => exact hgen (.bool b)
      | int b => exact hgen (.int b)
      | float b => exact hgen (.float b)
      | str b => exact hgen (.str b)
      | time b => exact hgen (.time b)
      | arr h => exact hgen (.arr h)
      | dict h => exact hgen (.dict h)
      | query h => exact hgen (.query h)
  · simp only [Option.some.injEq] at e1 e2
    subst e1 e2 hcalled
    simp only [symValueP, Bool.true_eq_false, if_false]
    refine sim_bind (sim_callFunction hH hr hn hk hok hs hp) fun W1 l1 v v' hv => ?_
    exact sim_negateP hr hv (l1.sc hs)

theorem sim_symP {n n' s s' : Nat} {sy sy' : Str} {called : Bool} {p p' : List Arg}
    (hn : Z.nd n n' (splitIdent sy)) (he : splitIdent sy = splitIdent sy')
    (hok : ∀ c, trimMinus (splitIdent sy) = [c] → called = true → H.isFn c = true → Z.okFn c)
    (hs : W.sc s s') (hp : All2 (ArgR H Z) p p') :
    Sim H Z rec (VR H Z) W (symP H n sy called p s) (symP H n' sy' called p' s') := by
  unfold symP
  rw [← he]
  refine sim_bind (sim_split hn) fun W1 l1 f f' hf => ?_
  refine sim_bind (sim_find (ok := Z.okFn) hr (l1.sc hs) hok) fun W2 l2 o o' ho => ?_
  have hboth : (o = none ∧ o' = none) ∨ ∃ v v', o = some v ∧ o' = some v' := by
    rcases ho with ho | ⟨c, _, _, _, h1, h2⟩
    · cases ho with
      | none => exact Or.inl ⟨rfl, rfl⟩
      | some _ => exact Or.inr ⟨_, _, rfl, rfl⟩
    · exact Or.inr ⟨_, _, h1, h2⟩
  rcases hboth with ⟨rfl, rfl⟩ | ⟨v, v', rfl, rfl⟩
  · exact sim_pure .null
  · simp only
    rw [hf]
    exact sim_symValue hH hr hn (l2.sc (l1.sc hs)) hp ho

omit hH hr in
theorem hasCol_r {g g' : List (Str × Getter F)} (h : GetL H Z W g g') (k : Str) : hasCol g k = hasCol g' k := by
  unfold hasCol
  exact h.any fun a b hab => by rw [hab.key]

omit hH in
theorem sim_starStep {d : Bool} {s s' : Nat} {v v' : V F} {g g' : List (Str × Getter F)} {m : Str}
    (hs : W.sc s s') (hv : VR H Z W v v') (hg : GetL H Z W g g') :
    Sim H Z rec (GetL H Z) W (starStepP d s v g m) (starStepP d s' v' g' m) := by
  unfold starStepP
  rw [hasCol_r hg]
  split
  · exact sim_pure hg
  · refine sim_bind (sim_assoc hr hv (.val (.str _)) hs) fun W3 l3 r r' h3 => ?_
    obtain ⟨o, b⟩ := r
    obtain ⟨o', b'⟩ := r'
    obtain ⟨ho, hb⟩ := h3
    simp only at ho hb
    subst hb
    cases b with
    | false => exact sim_pure (GetL.mono l3 hg)
    | true => exact sim_pure ((GetL.mono l3 hg).snoc (.mk (.const (getD_r ho))))

omit hH in
theorem sim_star {d : Bool} {s s' : Nat} {v v' : V F} {g g' : List (Str × Getter F)}
    (hs : W.sc s s') (hv : VR H Z W v v') (hg : GetL H Z W g g') :
    Sim H Z rec (GetL H Z) W (starP d s v g) (starP d s' v' g') := by
  unfold starP
  refine sim_bind (sim_members hr hv hs) fun W1 l1 ms ms' hm => ?_
  cases (hm : ms = ms')
  refine sim_foldS (R := Eq) (fun W2 l2 b b' a a' hb ha => ?_) (GetL.mono l1 hg) (All2.refl fun _ _ => rfl)
  subst ha
  exact sim_starStep hr (l2.sc (l1.sc hs)) (hv.mono (l1.trans l2)) hb

omit hH in
theorem sim_allCols {all : Bool} {s s' : Nat} {v v' : V F} (hs : W.sc s s') (hv : VR H Z W v v') :
    Sim H Z rec (GetL H Z) W (allColsP all s v) (allColsP all s' v') := by
  unfold allColsP
  split
  · exact sim_star hr hs hv .nil
  · exact sim_pure .nil

omit hH in
theorem sim_addCol {s s' n n' : Nat} {v v' : V F} {g g' : List (Str × Getter F)} {c c' : Col}
    (hs : W.sc s s') (hn : W.sc n n') (hv : VR H Z W v v') (hg : GetL H Z W g g') (hc : ColR H Z c c') :
    Sim H Z rec (GetL H Z) W (addColP H s n v g c) (addColP H s' n' v' g' c') := by
  have he : H.colName c = H.colName c' := by cases hc with | mk _ h => exact h
  unfold addColP
  rw [he]
  split
  · exact sim_star hr hs hv hg
  · exact sim_pure (hg.snoc (.mk (.col hc hn)))

omit hH in
theorem sim_transform {all : Bool} {s s' : Nat} {v v' : V F} {cs cs' : List Col}
    (hs : W.sc s s') (hv : VR H Z W v v') (hc : All2 (ColR H Z) cs cs') :
    Sim H Z rec (fun W a a' => W.rw a a') W (transformP H all cs s v) (transformP H all cs' s' v') := by
  unfold transformP
  refine sim_bind (sim_allCols hr hs hv) fun W1 l1 g g' hg => ?_
  refine sim_bind (sim_copy (l1.sc hs)) fun W2 l2 ns ns' hn => ?_
  refine sim_bind (sim_append hn (hv.mono (l1.trans l2))) fun W3 l3 _ _ _ => ?_
  refine sim_bind (sim_foldS (R := ColR H Z) (fun W4 l4 b b' a a' hb ha => ?_) (GetL.mono (l2.trans l3) hg) hc)
    fun W5 l5 g g' hg => sim_newRow hg
  have lw := ((l1.trans l2).trans l3).trans l4
  exact sim_addCol hr (lw.sc hs) ((l3.trans l4).sc hn) (hv.mono lw) hb ha

omit hH in
theorem sim_colValue {s s' : Nat} {v v' : V F} (hs : W.sc s s') (hv : VR H Z W v v') :
    Sim H Z rec (VR H Z) W (colValueP s v) (colValueP s' v') := by
  have hgen : ∀ {v v' : V F}, VR H Z W v v' → Sim H Z rec (VR H Z) W
      (if isQuery v then do
        let rows ← materializeP s v
        pure (.query rows)
      else pure v)
      (if isQuery v' then do
        let rows ← materializeP s' v'
        pure (.query rows)
      else pure v') := by
    intro v v' hv
    rw [isQuery_r hv]
    split
    · refine sim_bind (sim_materialize hr hs hv) fun W1 l1 r r' hr => ?_
      exact sim_pure (.query hr)
    · exact sim_pure hv
  cases hv with
  | query h => exact sim_pure (.arr h)
  | null => exact hgen .null
  | bool b => exact hgen (.bool b)
  | int b => exact hgen (.int b)
  | float b => exact hgen (.float b)
  | str b => exact hgen (.str b)
  | time b => exact hgen (.time b)
  | arr h => exact hgen (.arr h)
  | dict h => exact hgen (.dict h)
  | obj h => exact hgen (.obj h)

omit hH hr in
theorem getter_r {r r' : RowCell F} (h : RowR H Z W r r') (k : Str) :
    Opt2 (GetR H Z W) (r.getter k) (r'.getter k) := by
  unfold RowCell.getter
  have := (h.cols.reverse).find (p := fun p => decide (p.1 = k)) (q := fun p => decide (p.1 = k))
    (fun a b hab => by rw [hab.key])
  revert this
  generalize List.find? _ _ = x, List.find? _ _ = y
  intro hx
  cases hx with
  | none => exact .none
  | some h => exact .some h.val

omit hH in
theorem sim_matCol {c c' : Nat} {a a' : OD (V F)} {k : Str} (hc : W.rw c c') (ha : VRD H Z W a a') :
    Sim H Z rec (VRD H Z) W (matColP c a k) (matColP c' a' k) := by
  unfold matColP
  refine sim_bind (sim_rowInfo hc) fun W1 l1 x y hxy => ?_
  obtain ⟨r, r', rfl, rfl, hrr⟩ := hxy
  have h1 := od_get_r hrr.cache k
  have h2 := getter_r hrr k
  revert h1 h2
  simp only
  generalize OD.get r.cache k = x, OD.get r'.cache k = y, r.getter k = g, r'.getter k = g'
  intro h1 h2
  cases h1 with
  | some hv => exact sim_pure (od_set_r (VRD.mono l1 ha) _ hv)
  | none =>
    cases h2 with
    | none => exact sim_pure (VRD.mono l1 ha)
    | some hg =>
      refine sim_bind (sim_getter hr hg) fun W2 l2 v v' hv => ?_
      exact sim_pure (od_set_r (VRD.mono (l1.trans l2) ha) _ hv)

omit hH hr in
theorem colNames_r {g g' : List (Str × Getter F)} (h : GetL H Z W g g') : g.map (·.1) = g'.map (·.1) := by
  induction h with
  | nil => rfl
  | cons hab _ ih => simp only [List.map_cons, hab.key, ih]

omit hH in
theorem sim_matRow {c c' : Nat} (hc : W.rw c c') : Sim H Z rec (VR H Z) W (matRowP c) (matRowP c') := by
  unfold matRowP
  refine sim_bind (sim_rowInfo hc) fun W1 l1 x y hxy => ?_
  obtain ⟨r, r', rfl, rfl, hrr⟩ := hxy
  simp only
  rw [colNames_r hrr.cols]
  refine sim_bind (sim_foldS (R := Eq) (Q := VRD H Z) (fun W2 l2 b b' a a' hb ha => ?_) .nil (All2.refl fun _ _ => rfl))
    fun W3 l3 d d' hd => sim_pure (.dict hd)
  subst ha
  exact sim_matCol hr (l2.rw (l1.rw hc)) hb

theorem sim_processRow {all : Bool} {s s' : Nat} {v v' : V F} {cs cs' : List Col} {w w' : Option Comma}
    (hs : W.sc s s') (hv : VR H Z W v v') (hc : All2 (ColR H Z) cs cs') (hw : Opt2 (CommaR H Z) w w') :
    Sim H Z rec (VRL H Z) W (processRowP H all cs w s v) (processRowP H all cs' w' s' v') := by
  unfold processRowP
  refine sim_bind (sim_copy hs) fun W1 l1 sub sub' h1 => ?_
  refine sim_bind (sim_transform hr h1 (hv.mono l1) hc) fun W2 l2 c c' h2 => ?_
  cases hw with
  | none =>
    refine sim_bind (sim_matRow hr h2) fun W3 l3 o o' ho => ?_
    exact sim_pure (.cons ho .nil)
  | some hw =>
    simp only
    refine sim_bind (sim_copy (l2.sc h1)) fun W3 l3 ns ns' h3 => ?_
    refine sim_bind (sim_append h3 (hv.mono ((l1.trans l2).trans l3))) fun W4 l4 _ _ _ => ?_
    refine sim_bind (sim_append (l4.sc h3) (.obj (l4.rw (l3.rw h2)))) fun W5 l5 _ _ _ => ?_
    refine sim_bind (sim_comma hr hw (l5.sc (l4.sc h3))) fun W6 l6 x x' hx => ?_
    have lw := ((((l1.trans l2).trans l3).trans l4).trans l5).trans l6
    refine sim_bind (hH.truth hr hx (lw.sc hs)) fun W7 l7 b b' hb => ?_
    cases (hb : b = b')
    cases b with
    | false => exact sim_pure .nil
    | true =>
      refine sim_bind (sim_matRow hr ((((l3.trans l4).trans l5).trans (l6.trans l7)).rw h2)) fun W8 l8 o o' ho => ?_
      exact sim_pure (.cons ho .nil)

theorem sim_pass {s s' g g' : Nat} {w w' : Option Comma} (hs : W.sc s s') (hg : W.sc g g')
    (hw : Opt2 (CommaR H Z) w w') : Sim H Z rec EqR W (passP H w s g) (passP H w' s' g') := by
  cases hw with
  | none => exact sim_pure rfl
  | some hw =>
    simp only [passP]
    refine sim_bind (sim_comma hr hw hs) fun W1 l1 x x' hx => ?_
    exact hH.truth hr hx (l1.sc hg)

/-- Related bins. -/
structure BinR (H : Host F S) (Z : Cfg S) (W : Corr) (b b' : Bin F) : Prop where
  ctx : W.cx b.ctx b'.ctx
  row : VR H Z W b.row b'.row

/-- Related lists of bins. -/
abbrev BinsR (H : Host F S) (Z : Cfg S) (W : Corr) : OD (Bin F) → OD (Bin F) → Prop := All2 (EntR (BinR H Z W))

omit hH hr in
theorem BinsR.mono {W W' : Corr} (h : W.Le W') {b b' : OD (Bin F)} (hb : BinsR H Z W b b') : BinsR H Z W' b b' :=
  All2.mono (fun _ _ x => x.mono fun _ _ y => ⟨h.cx y.ctx, y.row.mono h⟩) hb

omit hH hr in
theorem sim_binCtx {b b' : OD (Bin F)} {k : Str} (hb : BinsR H Z W b b') :
    Sim H Z rec (fun W a a' => W.cx a a') W (binCtxP b k) (binCtxP b' k) := by
  unfold binCtxP
  have := od_get_r hb k
  revert this
  generalize OD.get b k = x, OD.get b' k = y
  intro h
  cases h with
  | none => exact sim_mkCtx
  | some h => exact sim_pure h.ctx

theorem sim_groupRow {all : Bool} {g g' : Nat} {v v' : V F} {cs cs' : List Col} {w w' : Option Comma}
    {gb gb' : Comma} {b b' : OD (Bin F)} (hg : W.sc g g') (hv : VR H Z W v v') (hc : All2 (ColR H Z) cs cs')
    (hw : Opt2 (CommaR H Z) w w') (hgb : CommaR H Z gb gb') (hb : BinsR H Z W b b') :
    Sim H Z rec (BinsR H Z) W (groupRowP H all cs w gb g b v) (groupRowP H all cs' w' gb' g' b' v') := by
  unfold groupRowP
  refine sim_bind (sim_copy hg) fun W1 l1 ns ns' h1 => ?_
  refine sim_bind (sim_transform hr h1 (hv.mono l1) hc) fun W2 l2 c c' h2 => ?_
  refine sim_bind (sim_append (l2.sc h1) (hv.mono (l1.trans l2))) fun W3 l3 _ _ _ => ?_
  refine sim_bind (sim_append ((l2.trans l3).sc h1) (.obj (l3.rw h2))) fun W4 l4 _ _ _ => ?_
  have n4 : W4.sc ns ns' := ((l2.trans l3).trans l4).sc h1
  have lw := ((l1.trans l2).trans l3).trans l4
  refine sim_bind (sim_pass hH hr n4 (lw.sc hg) hw) fun W5 l5 p p' hp => ?_
  cases (hp : p = p')
  have lw := lw.trans l5
  cases p with
  | false =>
    simp only [if_true]
    exact sim_pure (BinsR.mono lw hb)
  | true =>
    simp only [Bool.true_eq_false, if_false]
    refine sim_bind (sim_comma hr hgb (l5.sc n4)) fun W6 l6 k k' hk => ?_
    refine sim_bind (hH.toStr hr hk ((l5.trans l6).sc n4)) fun W7 l7 key key' hkey => ?_
    cases (hkey : key = key')
    have lw := (lw.trans l6).trans l7
    refine sim_bind (sim_binCtx (BinsR.mono lw hb)) fun W8 l8 x x' hx => ?_
    have n8 : W8.sc ns ns' := ((l5.trans l6).trans (l7.trans l8)).sc n4
    refine sim_bind (sim_setAg n8 hx) fun W9 l9 _ _ _ => ?_
    have l39 := ((l3.trans l4).trans (l5.trans l6)).trans ((l7.trans l8).trans l9)
    refine sim_bind (sim_matRow hr (l39.rw h2)) fun W10 l10 o o' ho => ?_
    exact sim_pure (od_update_r (BinsR.mono (((lw.trans l8).trans l9).trans l10) hb) key
      ⟨(l9.trans l10).cx hx, ho⟩)

omit hH in
theorem sim_storeArg {s s' : Nat} {v v' : V F} (hs : W.sc s s') (hv : VR H Z W v v') :
    Sim H Z rec (VR H Z) W (storeArgP s v) (storeArgP s' v') := by
  have hgen : ∀ {v v' : V F}, VR H Z W v v' → Sim H Z rec (VR H Z) W
      (if isQuery v then do
        let rows ← materializeP s v
        pure (.arr rows)
      else pure v)
      (if isQuery v' then do
        let rows ← materializeP s' v'
        pure (.arr rows)
      else pure v') := by
    intro v v' hv
    rw [isQuery_r hv]
    split
    · refine sim_bind (sim_materialize hr hs hv) fun W1 l1 r r' hr => ?_
      exact sim_pure (.arr hr)
    · exact sim_pure hv
  cases hv with
  | query h => exact sim_pure (.arr h)
  | null => exact hgen .null
  | bool b => exact hgen (.bool b)
  | int b => exact hgen (.int b)
  | float b => exact hgen (.float b)
  | str b => exact hgen (.str b)
  | time b => exact hgen (.time b)
  | arr h => exact hgen (.arr h)
  | dict h => exact hgen (.dict h)
  | @obj o o' ho =>
    cases o <;> cases o' <;> first | exact absurd ho id | exact hgen (.obj ho) | skip
    exact sim_lazyReduce hr ho

omit hH in
theorem sim_storedQueryCall {q q' : SQuery} {s s' : Nat} {a a' : OD (V F)} (hq : SQueryR H Z q q')
    (hs : W.sc s s') (ha : VRD H Z W a a') :
    Sim H Z rec (VRL H Z) W (storedQueryCallP q s a) (storedQueryCallP q' s' a') := by
  unfold storedQueryCallP
  refine sim_bind (sim_copy hs) fun W1 l1 sub sub' h1 => ?_
  refine sim_bind (sim_newAg h1) fun W2 l2 _ _ _ => ?_
  refine sim_bind sim_logs fun W2' l2' _ _ _ => ?_
  replace l2 := l2.trans l2'
  refine sim_bind (sim_fold (R := fun W => EntR (VR H Z W)) (Q := VRD H Z) (fun h _ _ x => x.mono fun _ _ y => y.mono h)
    (fun W3 l3 b b' x x' hb hx => ?_) .nil (VRD.mono (l1.trans l2) ha)) fun W4 l4 d d' hd => ?_
  · cases hx with
    | mk hx =>
      refine sim_bind (sim_storeArg hr ((l2.trans l3).sc h1) hx) fun W5 l5 v v' hv => ?_
      exact sim_pure (od_set_r (VRD.mono l5 hb) _ hv)
  · refine sim_bind (sim_append ((l2.trans l4).sc h1) (.dict hd)) fun W5 l5 _ _ _ => ?_
    exact sim_evalQuery hr (.obj hq) (((l2.trans l4).trans l5).sc h1)

omit hH in
theorem sim_resolveLoop {s s' : Nat} {k : Str} : ∀ {W} {d d' : Option (V F)} {l l' : List (V F)}, W.sc s s' →
    Opt2 (VR H Z W) d d' → VRL H Z W l l' → Sim H Z rec (OVR H Z) W (resolveLoopP s k d l) (resolveLoopP s' k d' l')
  | _, _, _, _, _, _, hd, .nil => by
    simp only [resolveLoopP]
    refine sim_pure ⟨hd, ?_⟩
    cases hd <;> rfl
  | W, d, d', _, _, hs, hd, .cons hv hl => by
    simp only [resolveLoopP]
    refine sim_bind (sim_assoc hr hv (.val (.str _)) hs) fun W3 l3 r r' h3 => ?_
    obtain ⟨o, b⟩ := r
    obtain ⟨o', b'⟩ := r'
    obtain ⟨ho, hb⟩ := h3
    simp only at ho hb
    subst hb
    cases b with
    | true => exact sim_pure ⟨.some (getD_r ho), rfl⟩
    | false =>
      refine sim_resolveLoop (l3.sc hs) ?_ (VRL.mono l3 hl)
      cases ho with
      | none => simpa using hd.mono fun _ _ x => x.mono l3
      | some ho =>
        cases hd with
        | none => simpa using Opt2.some ho
        | some hd => simpa using Opt2.some (hd.mono l3)

omit hH in
theorem sim_unwrap {s s' : Nat} {v v' : V F} (hs : W.sc s s') (hv : VR H Z W v v') :
    Sim H Z rec (VRL H Z) W (unwrapP s v) (unwrapP s' v') := by
  unfold unwrapP
  refine sim_bind (sim_members hr hv hs) fun W1 l1 ms ms' hm => ?_
  cases (hm : ms = ms')
  have hdef : Sim H Z rec (VRL H Z) W1 (pure [v]) (pure [v']) := sim_pure (.cons (hv.mono l1) .nil)
  match ms with
  | [] => exact hdef
  | [m] =>
    refine sim_bind (sim_assoc hr (hv.mono l1) (.val (.str _)) (l1.sc hs)) fun W3 l3 r r' h3 => ?_
    obtain ⟨o, b⟩ := r
    obtain ⟨o', b'⟩ := r'
    obtain ⟨ho, hb⟩ := h3
    simp only at ho hb
    subst hb
    cases b with
    | false => exact sim_pure .nil
    | true => exact sim_pure (.cons (getD_r ho) .nil)
  | _ :: _ :: _ => exact hdef

theorem sim_assocStr {v v' : V F} {k : Str} {s s' : Nat} (hv : VR H Z W v v') (hs : W.sc s s') :
    Sim H Z rec (OVR H Z) W (assocStrP H v k s) (assocStrP H v' k s') := by
  have hq : ∀ {v v' : V F}, VR H Z W v v' → Sim H Z rec (OVR H Z) W
      (do let rows ← call (.evalQuery v s)
          let vs ← mapP (fun r => do
            match ← call (.assoc r (.val (.str k)) s) with
            | (v, true) => pure (v.getD .null)
            | (_, false) => pure .null) rows
          pure (some (.arr vs), true))
      (do let rows ← call (.evalQuery v' s')
          let vs ← mapP (fun r => do
            match ← call (.assoc r (.val (.str k)) s') with
            | (v, true) => pure (v.getD .null)
            | (_, false) => pure .null) rows
          pure (some (.arr vs), true)) := by
    intro v v' hv
    refine sim_bind (sim_evalQuery hr hv hs) fun W1 l1 r r' h1 => ?_
    refine sim_bind (sim_map (R := VR H Z) (Q := VR H Z) (fun h _ _ x => x.mono h) (fun h _ _ x => x.mono h)
      (fun W2 l2 a a' ha => ?_) h1) fun W3 l3 x x' hx => sim_pure ⟨.some (.arr hx), rfl⟩
    refine sim_bind (sim_assoc hr ha (.val (.str _)) ((l1.trans l2).sc hs)) fun W4 l4 r r' h3 => ?_
    obtain ⟨o, b⟩ := r
    obtain ⟨o', b'⟩ := r'
    obtain ⟨ho, hb⟩ := h3
    simp only at ho hb
    subst hb
    cases b with
    | false => exact sim_pure .null
    | true => exact sim_pure (getD_r ho)
  have hi : ∀ {v v' : V F} {p p' : Prog F S (Option (V F) × Bool)}, VR H Z W v v' → Sim H Z rec (OVR H Z) W p p' →
      Sim H Z rec (OVR H Z) W
        (match H.assocImpl v (.val (.str k)) s with | some p => p | none => p)
        (match H.assocImpl v' (.val (.str k)) s' with | some p => p | none => p') := by
    intro v v' p p' hv hp
    have h := hH.assocImpl hr hv (.val (.str k)) hs
    revert h
    generalize H.assocImpl v _ _ = x, H.assocImpl v' _ _ = y
    intro h
    cases h with
    | none => exact hp
    | some h => exact h
  cases hv with
  | null => exact sim_pure ⟨.some .null, rfl⟩
  | bool b => exact hi (.bool b) (hH.assocDefault hr (.bool b) (.val (.str _)) hs)
  | int b => exact hi (.int b) (hH.assocDefault hr (.int b) (.val (.str _)) hs)
  | float b => exact hi (.float b) (hH.assocDefault hr (.float b) (.val (.str _)) hs)
  | str b => exact hi (.str b) (hH.assocDefault hr (.str b) (.val (.str _)) hs)
  | time b => exact hi (.time b) (hH.assocDefault hr (.time b) (.val (.str _)) hs)
  | query h => exact hq (.query h)
  | arr h =>
    refine hi (.arr h) ?_
    refine sim_bind (sim_fold (R := VR H Z) (Q := VRL H Z) (fun h _ _ x => x.mono h)
      (fun W2 l2 b b' a a' hb ha => ?_) .nil h) fun W3 l3 x x' hx => sim_pure ⟨.some (.arr hx), rfl⟩
    refine sim_bind (sim_assoc hr ha (.val (.str _)) (l2.sc hs)) fun W4 l4 r r' h3 => ?_
    obtain ⟨o, p⟩ := r
    obtain ⟨o', p'⟩ := r'
    obtain ⟨ho, hp⟩ := h3
    simp only at ho hp
    subst hp
    cases p with
    | false => exact sim_pure (VRL.mono l4 hb)
    | true => exact sim_pure ((VRL.mono l4 hb).snoc (getD_r ho))
  | @dict d d' h =>
    simp only [assocStrP]
    split
    · exact hH.assocDefault hr (.dict h) (.val (.str _)) hs
    · have hg := od_get_r h k
      revert hg
      generalize OD.get d k = x, OD.get d' k = y
      intro hg
      cases hg with
      | none => exact sim_pure ⟨.none, rfl⟩
      | some hg => exact sim_pure ⟨.some hg, rfl⟩
  | @obj o o' ho =>
    cases o <;> cases o' <;> first | exact absurd ho id | skip
    · exact hi (.obj ho) (hH.assocDefault hr (.obj ho) (.val (.str _)) hs)
    · simp only [assocStrP]
      refine sim_bind (sim_copy hs) fun W1 l1 sub sub' h1 => ?_
      refine sim_bind (sim_and hr ho.2 h1) fun W2 l2 x x' hx => ?_
      exact sim_assoc hr hx (.val (.str _)) ((l1.trans l2).sc hs)
    · exact hq (.obj ho)
    · exact hq (.obj ho)
    · exact hq (.obj ho)
    · exact sim_resolve hr ho
    · exact sim_rowGet hr ho
    · exact hi (.obj ho) (hH.assocDefault hr (.obj ho) (.val (.str _)) hs)

theorem sim_assocV {v v' : V F} {k k' : Key F Obj} {s s' : Nat} [FloatOps F] (hv : VR H Z W v v')
    (hk : KeyR H Z W k k') (hs : W.sc s s') :
    Sim H Z rec (OVR H Z) W (body H (.assoc v k s)) (body H (.assoc v' k' s')) := by
  by_cases hst : ∃ n, k = .val (.str n)
  · obtain ⟨n, rfl⟩ := hst
    cases hk with
    | val hk =>
      cases hk with
      | str => exact sim_assocStr hH hr hv hs
  · have hst' : ¬ ∃ n, k' = .val (.str n) := by
      rintro ⟨n, rfl⟩
      cases hk with
      | val hk =>
        cases hk with
        | str => exact hst ⟨n, rfl⟩
    have e : ∀ (v : V F) (k : Key F Obj) (s : Nat), (¬ ∃ n, k = .val (.str n)) → body H (.assoc v k s) =
        match v with
        | .null => pure (some .null, true)
        | a => match H.assocImpl a k s with
          | some p => p
          | none => match a with
            | .query rows => call (.assoc (.arr rows) k s)
            | a => H.assocDefault a k s := by
      intro v k s hn
      simp only [body]
      split
      · exact absurd ⟨_, rfl⟩ hn
      · rfl
    rw [e _ _ _ hst, e _ _ _ hst']
    have hi : ∀ {v v' : V F} {p p' : Prog F S (Option (V F) × Bool)}, VR H Z W v v' → Sim H Z rec (OVR H Z) W p p' →
        Sim H Z rec (OVR H Z) W
          (match H.assocImpl v k s with | some p => p | none => p)
          (match H.assocImpl v' k' s' with | some p => p | none => p') := by
      intro v v' p p' hv hp
      have h := hH.assocImpl hr hv hk hs
      revert h
      generalize H.assocImpl v _ _ = x, H.assocImpl v' _ _ = y
      intro h
      cases h with
      | none => exact hp
      | some h => exact h
    cases hv with
    | null => exact sim_pure ⟨.some .null, rfl⟩
    | query h => exact hi (.query h) (sim_assoc hr (.arr h) hk hs)
    | bool b => exact hi (.bool b) (hH.assocDefault hr (.bool b) hk hs)
    | int b => exact hi (.int b) (hH.assocDefault hr (.int b) hk hs)
    | float b => exact hi (.float b) (hH.assocDefault hr (.float b) hk hs)
    | str b => exact hi (.str b) (hH.assocDefault hr (.str b) hk hs)
    | time b => exact hi (.time b) (hH.assocDefault hr (.time b) hk hs)
    | arr b => exact hi (.arr b) (hH.assocDefault hr (.arr b) hk hs)
    | dict b => exact hi (.dict b) (hH.assocDefault hr (.dict b) hk hs)
    | obj b => exact hi (.obj b) (hH.assocDefault hr (.obj b) hk hs)

theorem sim_membersB [FloatOps F] {v v' : V F} {s s' : Nat} (hv : VR H Z W v v') (hs : W.sc s s') :
    Sim H Z rec EqR W (body H (.members v s)) (body H (.members v' s')) := by
  cases hv with
  | null => exact sim_pure rfl
  | dict h =>
    refine sim_pure ?_
    exact od_keys_r h
  | arr h =>
    cases h with
    | nil => exact hH.hostMembers hr (.arr .nil) hs
    | cons ha hl => exact sim_members hr ha hs
  | query h =>
    cases h with
    | nil => exact hH.hostMembers hr (.query .nil) hs
    | cons ha hl => exact sim_members hr ha hs
  | bool b => exact hH.hostMembers hr (.bool b) hs
  | int b => exact hH.hostMembers hr (.int b) hs
  | float b => exact hH.hostMembers hr (.float b) hs
  | str b => exact hH.hostMembers hr (.str b) hs
  | time b => exact hH.hostMembers hr (.time b) hs
  | @obj o o' ho =>
    cases o <;> cases o' <;> first | exact absurd ho id | exact hH.hostMembers hr (.obj ho) hs | skip
    · exact sim_pure rfl
    · refine sim_bind (sim_rowInfo ho) fun W1 l1 x y hxy => ?_
      obtain ⟨r, r', rfl, rfl, hrr⟩ := hxy
      exact sim_pure (colNames_r hrr.cols)

theorem sim_selectB [FloatOps F] {q q' : Select} {s s' : Nat} (hq : SelectR H Z q q') (hs : W.sc s s') :
    Sim H Z rec (VRL H Z) W (body H (.select q s)) (body H (.select q' s')) := by
  cases hq with
  | @mk ex ex' all cols cols' from_ from_' wh wh' gb gb' ob lim hc hf hw hg =>
    cases lim with
    | some n =>
      simp only [body]
      refine sim_bind (sim_select hr (.mk hc hf hw hg) hs) fun W1 l1 r r' h1 => ?_
      exact sim_pure (h1.take _)
    | none =>
      cases hg with
      | some hg =>
        simp only [body]
        refine sim_bind (sim_plugin hr hf hs) fun W1 l1 r r' h1 => ?_
        refine sim_bind (sim_copy (l1.sc hs)) fun W2 l2 g g' h2 => ?_
        refine sim_bind (sim_fold (R := VR H Z) (Q := BinsR H Z) (fun h _ _ x => x.mono h)
          (fun W3 l3 b b' a a' hb ha => sim_groupRow hH hr (l3.sc h2) ha hc hw hg hb) .nil (VRL.mono l2 h1))
          fun W3 l3 b b' hb => ?_
        have hout : VRL H Z W3 (b.map fun b => b.2.row) (b'.map fun b => b.2.row) :=
          hb.map fun _ _ h => h.val.row
        cases ob with
        | none => exact sim_pure hout
        | some o => exact hH.sort hr hout (((l1.trans l2).trans l3).sc hs)
      | none =>
        cases ob with
        | some o =>
          simp only [body]
          refine sim_bind (sim_select hr (.mk hc hf hw .none) hs) fun W1 l1 r r' h1 => ?_
          exact hH.sort hr h1 (l1.sc hs)
        | none =>
          simp only [body]
          refine sim_bind (sim_plugin hr hf hs) fun W1 l1 r r' h1 => ?_
          refine sim_fold (R := VR H Z) (Q := VRL H Z) (fun h _ _ x => x.mono h)
            (fun W3 l3 b b' a a' hb ha => ?_) .nil h1
          refine sim_bind (sim_processRow hH hr ((l1.trans l3).sc hs) ha hc hw) fun W4 l4 o o' ho => ?_
          exact sim_pure ((VRL.mono l4 hb).append ho)

omit hH in
theorem sim_pluginB [FloatOps F] {q q' : Plugin} {s s' : Nat} (hq : PluginR H Z q q') (hs : W.sc s s') :
    Sim H Z rec (VRL H Z) W (body H (.plugin q s)) (body H (.plugin q' s')) := by
  cases hq with
  | @mk n n' called p p' he hok hp =>
    simp only [body]
    rw [← he]
    refine sim_bind (sim_find (ok := Z.okPl) hr hs hok) fun W2 l2 o o' ho => ?_
    have hboth : (o = none ∧ o' = none) ∨ ∃ v v', o = some v ∧ o' = some v' := by
      rcases ho with ho | ⟨c, _, _, _, h1, h2⟩
      · cases ho with
        | none => exact Or.inl ⟨rfl, rfl⟩
        | some _ => exact Or.inr ⟨_, _, rfl, rfl⟩
      · exact Or.inr ⟨_, _, h1, h2⟩
    rcases hboth with ⟨rfl, rfl⟩ | ⟨v, v', rfl, rfl⟩
    · refine sim_bind sim_log fun W3 l3 _ _ _ => ?_
      exact sim_pure .nil
    · simp only
      cases called with
      | true =>
        simp only [if_true]
        refine sim_withArgs hr hp ?_ (l2.sc hs)
        rcases ho with ho | ⟨c, _, _, hk, h1, h2⟩
        · cases ho with
          | some ho => exact Or.inl ho
        · simp only [Option.some.injEq] at h1 h2
          exact Or.inr ⟨c, hk, h1, h2⟩
      | false =>
        simp only [Bool.false_eq_true, if_false]
        refine sim_evalSymbol hr ?_ (l2.sc hs)
        rcases ho with ho | ⟨c, _, hc, _⟩
        · cases ho with
          | some ho => exact ho
        · cases hc

theorem sim_withArgsB [FloatOps F] {a a' : List Arg} {v v' : V F} {s s' : Nat} (ha : All2 (ArgR H Z) a a')
    (hv : VR H Z W v v' ∨ ∃ n, Z.okPl n ∧ v = .obj (.plugin n) ∧ v' = .obj (.plugin n)) (hs : W.sc s s') :
    Sim H Z rec (VRL H Z) W (body H (.evalSymbolWithArgs a v s)) (body H (.evalSymbolWithArgs a' v' s')) := by
  simp only [body]
  refine sim_bind (sim_depth hs) fun W1 l1 d d' hd => ?_
  cases (hd : d = d')
  split
  · exact sim_pure .nil
  · have hs1 := l1.sc hs
    have hbad : Sim H Z rec (VRL H Z) W1 (do prim (.log (bs "ERROR: not callable as a plugin")); pure [])
        (do prim (.log (bs "ERROR: not callable as a plugin")); pure []) := by
      refine sim_bind sim_log fun W3 l3 _ _ _ => ?_
      exact sim_pure .nil
    rcases hv with hv | ⟨n, hn, rfl, rfl⟩
    · cases hv with
      | @obj o o' ho =>
        cases o <;> cases o' <;> first | exact absurd ho id | exact hbad | skip
        · refine sim_bind (sim_copy hs1) fun W2 l2 sub sub' h2 => ?_
          refine sim_bind (sim_buildArgs hr (l2.sc hs1) ha) fun W3 l3 x x' hx => ?_
          refine sim_bind (sim_applyDefaults hr ((l2.trans l3).sc hs1) ho.1 hx) fun W4 l4 x x' hx => ?_
          refine sim_bind (sim_append ((l3.trans l4).sc h2) (.dict hx)) fun W5 l5 _ _ _ => ?_
          refine sim_bind (sim_and hr ho.2 (((l3.trans l4).trans l5).sc h2)) fun W6 l6 r r' h6 => ?_
          exact sim_evalSymbol hr h6 ((((l2.trans l3).trans l4).trans (l5.trans l6)).sc hs1)
        · refine sim_bind (sim_buildArgs hr hs1 ha) fun W3 l3 x x' hx => ?_
          refine sim_bind (sim_applyDefaults hr (l3.sc hs1) ho.1 hx) fun W4 l4 x x' hx => ?_
          exact sim_storedQueryCall hr ho ((l3.trans l4).sc hs1) hx
      | _ => exact hbad
    · refine sim_bind (sim_buildArgs hr hs1 ha) fun W3 l3 x x' hx => ?_
      exact hH.plugin hr hn (l3.sc hs1) hx

omit hH in
theorem sim_evalSymbolB [FloatOps F] {v v' : V F} {s s' : Nat} (hv : VR H Z W v v') (hs : W.sc s s') :
    Sim H Z rec (VRL H Z) W (body H (.evalSymbol v s)) (body H (.evalSymbol v' s')) := by
  simp only [body]
  refine sim_bind (sim_depth hs) fun W1 l1 d d' hd => ?_
  cases (hd : d = d')
  split
  · exact sim_pure .nil
  · have hs1 := l1.sc hs
    have hv := hv.mono l1
    have hg : ∀ {v v' : V F}, VR H Z W1 v v' → Sim H Z rec (VRL H Z) W1
        (if isQuery v then call (.evalQuery v s) else pure [v])
        (if isQuery v' then call (.evalQuery v' s') else pure [v']) := by
      intro v v' hv
      rw [isQuery_r hv]
      split
      · exact sim_evalQuery hr hv hs1
      · exact sim_pure (.cons hv .nil)
    cases hv with
    | arr h => exact sim_pure h
    | null => exact hg .null
    | bool b => exact hg (.bool b)
    | int b => exact hg (.int b)
    | float b => exact hg (.float b)
    | str b => exact hg (.str b)
    | time b => exact hg (.time b)
    | dict b => exact hg (.dict b)
    | query b => exact hg (.query b)
    | @obj o o' ho =>
      cases o <;> cases o' <;> first | exact absurd ho id | exact hg (.obj ho) | skip
      refine sim_bind (sim_and hr ho.2 hs1) fun W2 l2 r r' h2 => ?_
      exact sim_evalSymbol hr h2 (l2.sc hs1)

omit hH in
theorem sim_evalQueryB [FloatOps F] {v v' : V F} {s s' : Nat} (hv : VR H Z W v v') (hs : W.sc s s') :
    Sim H Z rec (VRL H Z) W (body H (.evalQuery v s)) (body H (.evalQuery v' s')) := by
  cases hv with
  | query h => exact sim_pure h
  | @obj o o' ho =>
    cases o <;> cases o' <;> first | exact absurd ho id | exact sim_pure .nil | skip
    · refine sim_bind (sim_copy hs) fun W1 l1 ns ns' h1 => ?_
      exact sim_select hr ho.2 h1
    · exact sim_select hr ho hs
    · refine sim_bind (sim_siteInfo ho) fun W1 l1 x y hxy => ?_
      obtain ⟨⟨q, t⟩, ⟨q', t'⟩, rfl, rfl, h1⟩ := hxy
      exact sim_evalQuery hr h1.query h1.scope
  | _ => exact sim_pure .nil

omit hH in
theorem sim_negateB [FloatOps F] {v v' : V F} {s s' : Nat} (hv : VR H Z W v v') (hs : W.sc s s') :
    Sim H Z rec (VR H Z) W (body H (.negate v s)) (body H (.negate v' s')) := by
  cases hv with
  | bool b => exact sim_pure (.bool _)
  | int b => exact sim_pure (.int _)
  | float b => exact sim_pure (.float _)
  | @obj o o' ho =>
    cases o <;> cases o' <;> first | exact absurd ho id | exact sim_pure .null | skip
    refine sim_bind (sim_lazyWith hr ho hs) fun W1 l1 x x' hx => ?_
    exact sim_negate hr hx (l1.sc hs)
  | _ => exact sim_pure .null

omit hH in
theorem sim_colB [FloatOps F] {c c' : Col} {s s' : Nat} (hc : ColR H Z c c') (hs : W.sc s s') :
    Sim H Z rec (VR H Z) W (body H (.col c s)) (body H (.col c' s')) := by
  cases hc with
  | mk hb _ =>
    cases hb with
    | star => exact sim_pure .null
    | expr he => exact sim_and hr he hs
    | select hq =>
      simp only [body]
      refine sim_bind (sim_select hr hq hs) fun W1 l1 r r' h1 => ?_
      refine sim_bind (sim_fold (R := VR H Z) (Q := VRL H Z) (fun h _ _ x => x.mono h)
        (fun W3 l3 b b' a a' hb ha => ?_) .nil h1) fun W3 l3 x x' hx => ?_
      · refine sim_bind (sim_unwrap hr ((l1.trans l3).sc hs) ha) fun W4 l4 o o' ho => ?_
        exact sim_pure ((VRL.mono l4 hb).append ho)
      · cases hx with
        | nil => exact sim_pure (.arr .nil)
        | cons ha hl =>
          cases hl with
          | nil => exact sim_pure ha
          | cons hb hl => exact sim_pure (.arr (.cons ha (.cons hb hl)))

omit hH in
theorem sim_rowGetB [FloatOps F] {c c' : Nat} {k : Str} (hc : W.rw c c') :
    Sim H Z rec (OVR H Z) W (body H (.rowGet c k)) (body H (.rowGet c' k)) := by
  simp only [body]
  refine sim_bind (sim_rowInfo hc) fun W1 l1 x y hxy => ?_
  obtain ⟨r, r', rfl, rfl, hrr⟩ := hxy
  have h1 := od_get_r hrr.cache k
  have h2 := getter_r hrr k
  revert h1 h2
  simp only
  generalize OD.get r.cache k = x, OD.get r'.cache k = y, r.getter k = g, r'.getter k = g'
  intro h1 h2
  cases h1 with
  | some hv => exact sim_pure ⟨.some hv, rfl⟩
  | none =>
    cases h2 with
    | none => exact sim_pure ⟨.some .null, rfl⟩
    | some hg =>
      refine sim_bind (sim_getter hr hg) fun W2 l2 v v' hv => ?_
      refine sim_bind (sim_rowSet ((l1.trans l2).rw hc) hv) fun W3 l3 _ _ _ => ?_
      exact sim_pure ⟨.some (hv.mono l3), rfl⟩

omit hH in
theorem sim_lazyWithB [FloatOps F] {c c' s s' : Nat} (hc : W.lz c c') :
    Sim H Z rec (VR H Z) W (body H (.lazyWith c s)) (body H (.lazyWith c' s')) := by
  simp only [body]
  refine sim_bind (sim_lazyInfo hc) fun W1 l1 x y hxy => ?_
  obtain ⟨r, r', rfl, rfl, hrr⟩ := hxy
  refine sim_bind (sim_and hr hrr.expr hrr.scope) fun W2 l2 v v' hv => ?_
  cases hv with
  | query h => exact sim_pure (.arr h)
  | @obj o o' ho =>
    cases o <;> cases o' <;> first | exact absurd ho id | exact sim_pure (.obj ho) | skip
    exact sim_lazyReduce hr ho
  | null => exact sim_pure .null
  | bool b => exact sim_pure (.bool b)
  | int b => exact sim_pure (.int b)
  | float b => exact sim_pure (.float b)
  | str b => exact sim_pure (.str b)
  | time b => exact sim_pure (.time b)
  | arr h => exact sim_pure (.arr h)
  | dict h => exact sim_pure (.dict h)

omit hH in
theorem sim_lazyReduceB [FloatOps F] {c c' : Nat} (hc : W.lz c c') :
    Sim H Z rec (VR H Z) W (body H (.lazyReduce c)) (body H (.lazyReduce c')) := by
  simp only [body]
  refine sim_bind (sim_lazyInfo hc) fun W1 l1 x y hxy => ?_
  obtain ⟨r, r', rfl, rfl, hrr⟩ := hxy
  have hv := hrr.value
  revert hv
  simp only
  generalize r.value = x, r'.value = y
  intro hv
  cases hv with
  | some hv => exact sim_pure hv
  | none =>
    refine sim_bind (sim_lazyWith hr (l1.lz hc) hrr.scope) fun W2 l2 v v' hv => ?_
    refine sim_bind (sim_lazySet ((l1.trans l2).lz hc) hv) fun W3 l3 _ _ _ => ?_
    exact sim_pure (hv.mono l3)

omit hH in
theorem sim_resolveB [FloatOps F] {s s' : Nat} {k : Str} (hs : W.sc s s') :
    Sim H Z rec (OVR H Z) W (body H (.resolve s k)) (body H (.resolve s' k)) := by
  simp only [body]
  refine sim_bind (sim_depth hs) fun W1 l1 d d' hd => ?_
  cases (hd : d = d')
  split
  · exact sim_pure ⟨.some .null, rfl⟩
  · refine sim_bind (sim_vars (l1.sc hs)) fun W2 l2 v v' hv => ?_
    exact sim_resolveLoop hr ((l1.trans l2).sc hs) .none hv.reverse

theorem sim_valueB [FloatOps F] {e e' : Value} {s s' : Nat} (he : ValueR H Z e e') (hs : W.sc s s') :
    Sim H Z rec (VR H Z) W (body H (.value e s)) (body H (.value e' s')) := by
  cases he with
  | sym h => exact sim_sym hr h hs
  | sub h => exact sim_comma hr h hs
  | str h =>
    simp only [body, h]
    exact sim_pure (.str _)
  | @num t t' h =>
    simp only [body, ← h]
    cases hn : H.num t with
    | none =>
      refine sim_bind sim_log fun W3 l3 _ _ _ => ?_
      exact sim_pure .null
    | some v => exact sim_pure (hH.num hn)
  | bool h =>
    simp only [body, h]
    exact sim_pure (.bool _)
  | null => exact sim_pure .null

theorem sim_step [FloatOps F] : RecSim H Z (fun c st => interp rec (body H c) st) where
  and := by
    intro W e e' s s' he hs
    cases he with
    | mk hl ht =>
      refine (?_ : Sim H Z rec (VR H Z) W _ _)
      simp only [body]
      refine sim_bind (sim_or hr hl hs) fun W1 l1 v v' hv => ?_
      cases ht with
      | nil => exact sim_pure hv
      | cons ha hr' =>
        refine sim_bind (hH.truth hr hv (l1.sc hs)) fun W2 l2 b b' hb => ?_
        cases (hb : b = b')
        cases b with
        | false => exact sim_pure (.bool _)
        | true => exact sim_andLoop hH hr ((l1.trans l2).sc hs) (hv.mono l2) (.cons ha hr')
  or := by
    intro W e e' s s' he hs
    cases he with
    | mk hl ht =>
      refine (?_ : Sim H Z rec (VR H Z) W _ _)
      simp only [body]
      refine sim_bind (sim_cond hr hl hs) fun W1 l1 v v' hv => ?_
      cases ht with
      | nil => exact sim_pure hv
      | cons ha hr' =>
        refine sim_bind (hH.truth hr hv (l1.sc hs)) fun W2 l2 b b' hb => ?_
        cases (hb : b = b')
        cases b with
        | true => exact sim_pure (hv.mono l2)
        | false => exact sim_orLoop hH hr ((l1.trans l2).sc hs) (hv.mono l2) (.cons ha hr')
  cond := by
    intro W e e' s s' he hs
    refine (?_ : Sim H Z rec (VR H Z) W _ _)
    cases he with
    | not h =>
      simp only [body]
      refine sim_bind (sim_cond hr h hs) fun W1 l1 v v' hv => ?_
      refine sim_bind (hH.truth hr hv (l1.sc hs)) fun W2 l2 b b' hb => ?_
      cases (hb : b = b')
      exact sim_pure (.bool _)
    | one h => exact sim_add hr h hs
    | cmp h1 h2 =>
      simp only [body]
      refine sim_bind (sim_add hr h1 hs) fun W1 l1 v v' hv => ?_
      refine sim_bind (sim_add hr h2 (l1.sc hs)) fun W2 l2 w w' hw => ?_
      refine sim_bind (sim_rel hH hr (hv.mono l2) hw ((l1.trans l2).sc hs)) fun W3 l3 b b' hb => ?_
      cases (hb : b = b')
      exact sim_pure (.bool _)
  add := by
    intro W e e' s s' he hs
    refine (?_ : Sim H Z rec (VR H Z) W _ _)
    cases he with
    | mk hl ht =>
      simp only [body]
      refine sim_bind (sim_mul hr hl hs) fun W1 l1 v v' hv => ?_
      exact sim_foldS (R := AddTR H Z) (fun W2 l2 b b' a a' hb ha => sim_addStep hH hr ((l1.trans l2).sc hs) hb ha) hv ht
  mul := by
    intro W e e' s s' he hs
    refine (?_ : Sim H Z rec (VR H Z) W _ _)
    cases he with
    | mk hl ht =>
      simp only [body]
      refine sim_bind (sim_member hr hl hs) fun W1 l1 v v' hv => ?_
      exact sim_foldS (R := MulTR H Z) (fun W2 l2 b b' a a' hb ha => sim_mulStep hH hr ((l1.trans l2).sc hs) hb ha) hv ht
  member := by
    intro W e e' s s' he hs
    refine (?_ : Sim H Z rec (VR H Z) W _ _)
    cases he with
    | mk hl ht =>
      simp only [body]
      refine sim_bind (sim_value hr hl hs) fun W1 l1 v v' hv => ?_
      exact sim_memberLoop hr (l1.sc hs) hv ht
  comma := by
    intro W e e' s s' he hs
    refine (?_ : Sim H Z rec (VR H Z) W _ _)
    cases he with
    | mk hl ht =>
      simp only [body]
      refine sim_bind (sim_and hr hl hs) fun W1 l1 v v' hv => ?_
      cases ht with
      | nil => exact sim_pure hv
      | cons ha hr' => exact sim_commaLoop hr (l1.sc hs) (.cons hv .nil) (.cons ha hr')
  value := fun he hs => sim_valueB hH hr he hs
  sym := by
    intro W e e' s s' he hs
    cases he with
    | mk hn he hok hp => exact sim_symP hH hr hn he hok hs hp
  negate := fun hv hs => sim_negateB hr hv hs
  col := fun hc hs => sim_colB hr hc hs
  getter := by
    intro W g g' hg
    refine (?_ : Sim H Z rec (VR H Z) W _ _)
    cases hg with
    | const hv => exact sim_pure hv
    | col hc hs =>
      simp only [body]
      refine sim_bind sim_eval fun W1 l1 _ _ _ => ?_
      refine sim_bind (sim_col hr hc (l1.sc hs)) fun W2 l2 v v' hv => ?_
      exact sim_colValue hr ((l1.trans l2).sc hs) hv
  rowGet := fun hc => sim_rowGetB hr hc
  lazyWith := fun hc _ => sim_lazyWithB hr hc
  lazyReduce := fun hc => sim_lazyReduceB hr hc
  resolve := fun hs => sim_resolveB hr hs
  assoc := fun hv hk hs => sim_assocV hH hr hv hk hs
  members := fun hv hs => sim_membersB hH hr hv hs
  select := fun hq hs => sim_selectB hH hr hq hs
  plugin := fun hq hs => sim_pluginB hr hq hs
  withArgs := fun ha hv hs => sim_withArgsB hH hr ha hv hs
  evalSymbol := fun hv hs => sim_evalSymbolB hr hv hs
  evalQuery := fun hv hs => sim_evalQueryB hr hv hs

omit hr in
/-- Related calls have related results, whatever recursion depth is allowed. -/
theorem run_sim [FloatOps F] : ∀ n, RecSim H Z (run H n)
  | 0 => by
    constructor <;> intros <;> intro st st' _ a s1 h <;> simp [run] at h
  | n + 1 => sim_step hH (run_sim n)

omit hH hr in
theorem ent {α β : Type} {R : α → β → Prop} {k k' : Str} {v : α} {w : β} (h : k = k') (hv : R v w) :
    EntR R (k, v) (k', w) := by
  subst h
  exact .mk hv

/-- Related values of `LET` parameters. -/
def ParamR (H : Host F S) (Z : Cfg S) (p p' : LetParam) : Prop :=
  p.name = p'.name ∧ Opt2 (ArgVR H Z) p.dflt p'.dflt

/-- Related statements. -/
inductive StmtR (H : Host F S) (Z : Cfg S) : Stmt → Stmt → Prop
  | expr {n n' c ps ps' m e e'} : ident n = ident n' → All2 (ParamR H Z) ps ps' → AndR H Z e e' →
      StmtR H Z (.let_ n c ps m (.expr e)) (.let_ n' c ps' m (.expr e'))
  | select {n n' c ps ps' m q q'} : ident n = ident n' → All2 (ParamR H Z) ps ps' → SelectR H Z q q' →
      StmtR H Z (.let_ n c ps m (.select q)) (.let_ n' c ps' m (.select q'))
  | query {q q'} : SelectR H Z q q' → H.stmtText q = H.stmtText q' → StmtR H Z (.query q) (.query q')

omit hH hr in
theorem letParams_r {ps ps' : List LetParam} (h : All2 (ParamR H Z) ps ps') :
    All2 (EntR (ArgR H Z)) (letParams ps).2 (letParams ps').2 := by
  simp only [letParams]
  have : ∀ (a a' : List (Str × Arg)), All2 (EntR (ArgR H Z)) a a' → All2 (EntR (ArgR H Z))
      (ps.foldl (fun acc p => match p.dflt with
        | none => acc
        | some d => OD.update acc (ident p.name) (.mk p.name d)) a)
      (ps'.foldl (fun acc p => match p.dflt with
        | none => acc
        | some d => OD.update acc (ident p.name) (.mk p.name d)) a') := by
    induction h with
    | nil => intro a a' ha; exact ha
    | @cons p p' _ _ hp _ ih =>
      intro a a' ha
      simp only [List.foldl_cons]
      apply ih
      obtain ⟨h1, h2⟩ := hp
      rw [h1]
      revert h2
      generalize p.dflt = x, p'.dflt = y
      intro h2
      cases h2 with
      | none => exact ha
      | some h2 => exact od_update_r ha _ (.mk h2)
  exact this [] [] .nil

omit hH in
theorem sim_matExpr {s s' : Nat} {v v' : V F} (hs : W.sc s s') (hv : VR H Z W v v') :
    Sim H Z rec (VR H Z) W (matExprP s v) (matExprP s' v') := by
  unfold matExprP
  rw [isQuery_r hv]
  split
  · refine sim_bind (sim_materialize hr hs hv) fun W1 l1 r r' hr => ?_
    exact sim_pure (.query hr)
  · exact sim_pure hv

omit hH in
/-- Related statements have related results. -/
theorem sim_stmt {q q' : Stmt} {s s' : Nat} (hq : StmtR H Z q q') (hs : W.sc s s') :
    Sim H Z rec (VRL H Z) W (stmtP H q s) (stmtP H q' s') := by
  cases hq with
  | @expr n n' c ps ps' m e e' hn hp he =>
    cases m with
    | true =>
      simp only [stmtP, if_true]
      refine sim_bind (sim_and hr he hs) fun W1 l1 v v' hv => ?_
      refine sim_bind (sim_matExpr hr (l1.sc hs) hv) fun W2 l2 v v' hv => ?_
      refine sim_bind (sim_append ((l1.trans l2).sc hs) (.dict (.cons (ent hn hv) .nil))) fun W3 l3 _ _ _ => ?_
      exact sim_pure .nil
    | false =>
      simp only [stmtP, Bool.false_eq_true, if_false]
      refine sim_bind (sim_append hs (.dict (.cons (ent hn (VR.obj ⟨letParams_r hp, he⟩)) .nil))) fun W3 l3 _ _ _ => ?_
      exact sim_pure .nil
  | @select n n' c ps ps' m q q' hn hp hq =>
    cases m with
    | true =>
      simp only [stmtP, if_true]
      refine sim_bind (sim_materialize hr hs (.obj hq)) fun W1 l1 v v' hv => ?_
      refine sim_bind (sim_append (l1.sc hs) (.dict (.cons (ent hn (VR.query hv)) .nil))) fun W3 l3 _ _ _ => ?_
      exact sim_pure .nil
    | false =>
      simp only [stmtP, Bool.false_eq_true, if_false]
      refine sim_bind (sim_append hs (.dict (.cons (ent hn (VR.obj ⟨letParams_r hp, hq⟩)) .nil))) fun W3 l3 _ _ _ => ?_
      exact sim_pure .nil
  | query hq ht =>
    simp only [stmtP]
    refine sim_bind (sim_copy hs) fun W1 l1 sub sub' h1 => ?_
    refine sim_bind (sim_append h1 (.dict (.cons (.mk (by rw [ht]; exact .str _)) .nil))) fun W2 l2 _ _ _ => ?_
    exact sim_select hr hq (l2.sc h1)

omit hr in
/-- Related lists of statements have related results. -/
theorem runStmts_sim [FloatOps F] (n : Nat) {qs qs' : List Stmt} {s s' : Nat} (hq : All2 (StmtR H Z) qs qs') :
    ∀ {W}, W.sc s s' → SimF H Z (fun W => All2 (VRL H Z W)) W (runStmts H n qs s) (runStmts H n qs' s') := by
  induction hq with
  | nil =>
    intro W hs st st' hst a s1 h
    simp only [runStmts, Option.some.injEq, Prod.mk.injEq] at h
    obtain ⟨rfl, rfl⟩ := h
    exact ⟨[], st', W, rfl, Corr.Le.refl W, hst, .nil⟩
  | @cons q q' l l' hq _ ih =>
    intro W hs st st' hst a s1 h
    simp only [runStmts] at h ⊢
    cases h1 : exec H n (stmtP H q s) st with
    | none => rw [h1] at h; simp at h
    | some x =>
      obtain ⟨rows, st1⟩ := x
      rw [h1] at h
      simp only at h
      obtain ⟨rows', st1', W1, e1, l1, hs1, hr1⟩ := sim_stmt (run_sim hH n) hq hs st st' hst rows st1 h1
      cases h2 : runStmts H n l s st1 with
      | none => rw [h2] at h; simp at h
      | some y =>
        obtain ⟨rs, st2⟩ := y
        rw [h2] at h
        simp only [Option.some.injEq, Prod.mk.injEq] at h
        obtain ⟨rfl, rfl⟩ := h
        obtain ⟨rs', st2', W2, e2, l2, hs2, hr2⟩ := ih (l1.sc hs) st1 st1' hs1 rs st2 h2
        refine ⟨rows' :: rs', st2', W2, ?_, l1.trans l2, hs2, .cons (VRL.mono l2 hr1) hr2⟩
        have e1' : exec H n (stmtP H q' s') st' = some (rows', st1') := e1
        rw [e1']
        simp only [e2]

end
end Vfilter.Vql
