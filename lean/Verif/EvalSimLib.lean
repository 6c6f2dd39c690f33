import Verif.EvalSimOps
import Verif.Library
/-!
# The package's functions and plugins respect the relation
-/
set_option linter.all false

namespace Vfilter.Vql

section
variable {F S : Type} {H : Host F S} {Z : Cfg S} {rec : Rec F S} {W : Corr}

theorem sim_logged {α β : Type} {Q : Corr → α → β → Prop} {m m' : Str} {a : α} {b : β}
    (h : ∀ W', W.Le W' → Q W' a b) :
    Sim H Z rec Q W (prim (.log m) >>= fun _ => (pure a : Prog F S α)) (prim (.log m') >>= fun _ => pure b) :=
  sim_bind sim_log fun W1 h1 _ _ _ => sim_pure (h W1 h1)

variable (hr : RecSim H Z rec)
include hr

theorem sim_anyField {s s' : Nat} {v v' : V F} (hs : W.sc s s') (hv : VR H Z W v v') :
    Sim H Z rec (VR H Z) W (anyFieldP s v) (anyFieldP s' v') := by
  cases hv with
  | @obj o o' ho =>
    cases o <;> cases o' <;>
      first
      | exact absurd ho id
      | exact sim_lazyWith hr ho hs
      | exact sim_pure (.obj ho)
  | arr h => exact sim_pure (.arr h)
  | dict h => exact sim_pure (.dict h)
  | query h => exact sim_pure (.query h)
  | _ => exact sim_pure (by constructor)

theorem sim_reduce {v v' : V F} (hv : VR H Z W v v') : Sim H Z rec (VR H Z) W (reduceP v) (reduceP v') := by
  cases hv with
  | @obj o o' ho =>
    cases o <;> cases o' <;>
      first
      | exact absurd ho id
      | exact sim_lazyReduce hr ho
      | exact sim_pure (.obj ho)
  | arr h => exact sim_pure (.arr h)
  | dict h => exact sim_pure (.dict h)
  | query h => exact sim_pure (.query h)
  | _ => exact sim_pure (by constructor)

omit hr in
theorem unexpected_r {names : List Str} {a a' : OD (V F)} (h : VRD H Z W a a') :
    unexpected names a = unexpected names a' := by
  unfold unexpected
  rw [od_keys_r h]

theorem sim_ifElse {s s' : Nat} {e e' : Option (V F)} (hs : W.sc s s') (he : Opt2 (VR H Z W) e e') :
    Sim H Z rec (VR H Z) W (ifElseP s e) (ifElseP s' e') := by
  cases he with
  | none => exact sim_pure .null
  | @some v v' hv =>
    by_cases hn : v = .null
    · subst hn
      cases hv
      exact sim_pure .null
    · have hn' : v' ≠ .null := by
        rintro rfl
        cases hv
        exact hn rfl
      have e1 : ifElseP s (some v) = (do
          let t ← anyFieldP s v
          match t with
          | .obj (.lazy c) => call (.lazyWith c s)
          | t => pure t : Prog F S (V F)) := by cases v <;> first | rfl | exact absurd rfl hn
      have e2 : ifElseP s' (some v') = (do
          let t ← anyFieldP s' v'
          match t with
          | .obj (.lazy c) => call (.lazyWith c s')
          | t => pure t : Prog F S (V F)) := by cases v' <;> first | rfl | exact absurd rfl hn'
      rw [e1, e2]
      refine sim_bind (sim_anyField hr hs hv) fun W1 l1 t t' ht => ?_
      cases ht with
      | @obj o o' ho =>
        cases o <;> cases o' <;>
          first
          | exact absurd ho id
          | exact sim_lazyWith hr ho (l1.sc hs)
          | exact sim_pure (.obj ho)
      | arr h => exact sim_pure (.arr h)
      | dict h => exact sim_pure (.dict h)
      | query h => exact sim_pure (.query h)
      | _ => exact sim_pure (by constructor)

theorem sim_ifThen {s s' : Nat} {t t' e e' : Option (V F)} (hs : W.sc s s') (ht : Opt2 (VR H Z W) t t')
    (he : Opt2 (VR H Z W) e e') : Sim H Z rec (VR H Z) W (ifThenP s t e) (ifThenP s' t' e') := by
  cases ht with
  | none => exact sim_pure .null
  | @some v v' hv =>
    by_cases hn : v = .null
    · subst hn
      cases hv
      exact sim_pure .null
    · have hn' : v' ≠ .null := by
        rintro rfl
        cases hv
        exact hn rfl
      have e1 : ifThenP s (some v) e = (do
          let t ← anyFieldP s v
          match t with
          | .obj (.lazy c) => do
            let x ← call (.lazyWith c s)
            if isQuery x then pure x else ifElseP s e
          | t => pure t : Prog F S (V F)) := by cases v <;> first | rfl | exact absurd rfl hn
      have e2 : ifThenP s' (some v') e' = (do
          let t ← anyFieldP s' v'
          match t with
          | .obj (.lazy c) => do
            let x ← call (.lazyWith c s')
            if isQuery x then pure x else ifElseP s' e'
          | t => pure t : Prog F S (V F)) := by cases v' <;> first | rfl | exact absurd rfl hn'
      rw [e1, e2]
      refine sim_bind (sim_anyField hr hs hv) fun W1 l1 t t' ht => ?_
      cases ht with
      | @obj o o' ho =>
        cases o <;> cases o' <;>
          first
          | exact absurd ho id
          | exact sim_pure (.obj ho)
          | (refine sim_bind (sim_lazyWith hr ho (l1.sc hs)) fun W2 l2 x x' hx => ?_
             rw [isQuery_r hx]
             split
             · exact sim_pure hx
             · exact sim_ifElse hr (l2.sc (l1.sc hs)) (he.mono fun _ _ z => (z.mono l1).mono l2))
      | arr h => exact sim_pure (.arr h)
      | dict h => exact sim_pure (.dict h)
      | query h => exact sim_pure (.query h)
      | _ => exact sim_pure (by constructor)

/-- Truth respects the relation. -/
def TruthR (H : Host F S) (Z : Cfg S) (rec : Rec F S) (truth : V F → Nat → Prog F S Bool) : Prop :=
  ∀ {W a a' s s'}, VR H Z W a a' → W.sc s s' → Sim H Z rec EqR W (truth a s) (truth a' s')

theorem sim_ifFn {truth : V F → Nat → Prog F S Bool} (ht : TruthR H Z rec truth) {s s' : Nat} {a a' : OD (V F)}
    (hs : W.sc s s') (ha : VRD H Z W a a') : Sim H Z rec (VR H Z) W (ifFnP truth s a) (ifFnP truth s' a') := by
  unfold ifFnP
  have hc := od_get_r ha (bs "condition")
  have hth := od_get_r ha (bs "then")
  have hel := od_get_r ha (bs "else")
  revert hc
  generalize OD.get a (bs "condition") = c, OD.get a' (bs "condition") = c'
  intro hc
  cases hc with
  | none => exact sim_logged fun _ _ => .null
  | some hc =>
    refine sim_bind (sim_anyField hr hs hc) fun W1 l1 c c' hc => ?_
    rw [unexpected_r ha]
    split
    · exact sim_logged fun _ _ => .null
    · refine sim_bind (ht hc (l1.sc hs)) fun W2 l2 b b' hb => ?_
      cases (hb : b = b')
      have l := l1.trans l2
      split
      · exact sim_ifThen hr (l.sc hs) (hth.mono fun _ _ z => z.mono l) (hel.mono fun _ _ z => z.mono l)
      · exact sim_ifElse hr (l.sc hs) (hel.mono fun _ _ z => z.mono l)

theorem sim_toRow {s s' : Nat} {v v' : V F} (hs : W.sc s s') (hv : VR H Z W v v') :
    Sim H Z rec (VR H Z) W (toRowP s v) (toRowP s' v') := by
  unfold toRowP
  refine sim_bind (sim_members hr hv hs) fun W1 l1 m m' hm => ?_
  cases (hm : m = m')
  refine sim_pure ?_
  split
  · exact .dict (.cons (.mk (hv.mono l1)) .nil)
  · exact hv.mono l1

theorem sim_wrapEval {s s' : Nat} {v v' : V F} (hs : W.sc s s') (hv : VR H Z W v v') :
    Sim H Z rec (VRL H Z) W (wrapEvalP s v) (wrapEvalP s' v') := by
  have one : ∀ {u u' : V F}, VR H Z W u u' → Sim H Z rec (VRL H Z) W (do
      let r ← toRowP s u
      pure [r]) (do
      let r ← toRowP s' u'
      pure [r]) := fun hu => sim_bind (sim_toRow hr hs hu) fun W1 l1 r r' h => sim_pure (.cons h .nil)
  cases hv with
  | arr h =>
    simp only [wrapEvalP]
    refine sim_map (R := VR H Z) (Q := VR H Z) (fun l _ _ h => h.mono l) (fun l _ _ h => h.mono l)
      (fun W1 l1 a b hab => sim_toRow hr (l1.sc hs) hab) (h.filter fun a b hab => ?_)
    have : Val.isNil a = Val.isNil b := by cases hab <;> rfl
    rw [this]
  | null => exact sim_pure .nil
  | dict h => exact one (.dict h)
  | query h => exact one (.query h)
  | obj h => exact one (.obj h)
  | _ => exact one (by constructor)

theorem sim_evalBranch {s s' : Nat} {v v' : V F} (hs : W.sc s s') (hv : VR H Z W v v') :
    Sim H Z rec (VRL H Z) W (evalBranchP s v) (evalBranchP s' v') := by
  unfold evalBranchP
  rw [isQuery_r hv]
  split
  · exact sim_evalQuery hr hv hs
  · exact sim_wrapEval hr hs hv

theorem sim_optQuery {v v' : Option (V F)} (hv : Opt2 (VR H Z W) v v') :
    Sim H Z rec (fun W => Opt2 (VR H Z W)) W (optQueryP v) (optQueryP v') := by
  cases hv with
  | none => exact sim_pure .none
  | some h => exact sim_bind (sim_reduce hr h) fun W1 l1 r r' h => sim_pure (.some h)

theorem sim_ifPlugin {truth : V F → Nat → Prog F S Bool} (ht : TruthR H Z rec truth) {s s' : Nat} {a a' : OD (V F)}
    (hs : W.sc s s') (ha : VRD H Z W a a') : Sim H Z rec (VRL H Z) W (ifPluginP truth s a) (ifPluginP truth s' a') := by
  unfold ifPluginP
  have hc := od_get_r ha (bs "condition")
  have hth := od_get_r ha (bs "then")
  have hel := od_get_r ha (bs "else")
  revert hc hth
  generalize OD.get a (bs "condition") = c, OD.get a' (bs "condition") = c'
  generalize OD.get a (bs "then") = t, OD.get a' (bs "then") = t'
  intro hc hth
  cases hc with
  | none => exact sim_logged fun _ _ => .nil
  | some hc =>
    refine sim_bind (sim_anyField hr hs hc) fun W1 l1 c c' hc => ?_
    cases hth with
    | none => exact sim_logged fun _ _ => .nil
    | some hth =>
      refine sim_bind (sim_reduce hr (hth.mono l1)) fun W2 l2 t t' ht2 => ?_
      have l12 := l1.trans l2
      refine sim_bind (sim_optQuery hr (hel.mono fun _ _ z => z.mono l12)) fun W3 l3 e e' he => ?_
      rw [unexpected_r ha]
      split
      · exact sim_logged fun _ _ => .nil
      · refine sim_bind (ht (hc.mono (l2.trans l3)) ((l12.trans l3).sc hs)) fun W4 l4 b b' hb => ?_
        cases (hb : b = b')
        have l := (l12.trans l3).trans l4
        split
        · exact sim_evalBranch hr (l.sc hs) (ht2.mono (l3.trans l4))
        · cases he with
          | none => exact sim_pure .nil
          | some he => exact sim_evalBranch hr (l.sc hs) (he.mono l4)

variable [FloatOps F] {D : World F Obj} (hD : NoOps D)
include hD

theorem sim_stdTruth : TruthR H Z rec (stdTruth D) := by
  intro W a a' s s' ha hs
  unfold stdTruth
  refine sim_bind (sim_reduce hr ha) fun W1 l1 r r' h => sim_pure ?_
  exact truthy_r hD h

theorem sim_stdArith {op : Arith} {a a' b b' : V F} {s s' : Nat} (ha : VR H Z W a a') (hb : VR H Z W b b')
    (hs : W.sc s s') : Sim H Z rec (VR H Z) W (stdArith D op a b s) (stdArith D op a' b' s') := by
  unfold stdArith
  refine sim_bind (sim_reduce hr ha) fun W1 l1 a a' ha => ?_
  cases op with
  | add =>
    refine sim_bind (sim_reduce hr (hb.mono l1)) fun W2 l2 b b' hb => sim_pure ?_
    exact addV_r hD (ha.mono l2) hb
  | sub =>
    refine sim_bind (sim_reduce hr (hb.mono l1)) fun W2 l2 b b' hb => sim_pure ?_
    exact subV_r hD (ha.mono l2) hb
  | mul =>
    refine sim_bind (sim_reduce hr (hb.mono l1)) fun W2 l2 b b' hb => sim_pure ?_
    have := mulV_r hD (ha.mono l2) hb
    revert this
    generalize mulV D a b = x, mulV D a' b' = x'
    intro this
    cases this with
    | ok h => exact h
    | panic => exact .null
  | div => exact sim_pure (divV_r hD ha (hb.mono l1))

/-- Matching respects the relation. -/
def MatchR (H : Host F S) (Z : Cfg S) (matchF : V F → V F → Bool) : Prop :=
  ∀ {W a a' b b'}, VR H Z W a a' → VR H Z W b b' → matchF a b = matchF a' b'

/-- Printing respects the relation. -/
def FmtR (H : Host F S) (Z : Cfg S) (fmtV : V F → Str) : Prop :=
  ∀ {W a a'}, VR H Z W a a' → fmtV a = fmtV a'

theorem sim_stdRel {matchF : V F → V F → Bool} (hm : MatchR H Z matchF) {op : Rel} {a a' b b' : V F} {s s' : Nat}
    (ha : VR H Z W a a') (hb : VR H Z W b b') (hs : W.sc s s') :
    Sim H Z rec EqR W (stdRel D matchF op a b s) (stdRel D matchF op a' b' s') := by
  unfold stdRel
  refine sim_bind (sim_reduce hr ha) fun W1 l1 a a' ha => ?_
  refine sim_bind (sim_reduce hr (hb.mono l1)) fun W2 l2 b b' hb => sim_pure ?_
  cases op with
  | mem => exact memV_r hD (ha.mono l2) hb
  | lt => exact ltV_r hD (ha.mono l2) hb
  | eq => exact eqV_r hD (ha.mono l2) hb
  | gt => exact gtV_r hD (ha.mono l2) hb
  | match_ => exact hm (ha.mono l2) hb

omit hD in
theorem sim_text {fmtV : V F → Str} (hf : FmtR H Z fmtV) {a a' : V F} (ha : VR H Z W a a') :
    Sim H Z rec EqR W (do
      let v ← reduceP a
      pure (match v with
        | .str x => x
        | v => fmtV v)) (do
      let v ← reduceP a'
      pure (match v with
        | .str x => x
        | v => fmtV v)) := by
  refine sim_bind (sim_reduce hr ha) fun W1 l1 a a' ha => sim_pure ?_
  have h := hf ha
  cases ha <;> first | rfl | exact h

omit hr in
theorem sim_agg (hag : Z.ag = true) {m m' s s' : Nat} {c : List Str} (hn : Z.nd m m' c) (hs : W.sc s s')
    {op op' : AggOp F Obj} (ho : OpR H Z W op op') :
    Sim H Z rec (VR H Z) W (aggP D m s op) (aggP D m' s' op') := by
  cases Z.same hag hn
  unfold aggP
  refine sim_ag hag hs fun W1 l1 x y hx => ?_
  have ho1 : OpR H Z W1 op op' := by
    cases ho with
    | count => exact .count
    | sum i => exact .sum i
    | min h => exact .min (h.mono l1)
    | max h => exact .max (h.mono l1)
    | enumerate h => exact .enumerate (h.mono l1)
  have := aggCall_r hD (aggId m) hx ho1
  exact ⟨cellVal_r this.2, this.1⟩

theorem sim_items (hag : Z.ag = true) {m m' s s' : Nat} {c : List Str} (hn : Z.nd m m' c) (hs : W.sc s s')
    {op : V F → AggOp F Obj} (ho : ∀ W v v', VR H Z W v v' → OpR H Z W (op v) (op v')) {a a' : OD (V F)}
    (ha : VRD H Z W a a') : Sim H Z rec (VR H Z) W (itemsFnP D op m s a) (itemsFnP D op m' s' a') := by
  unfold itemsFnP
  have : Sim H Z rec (VR H Z) W (optFieldP s (OD.get a (bs "items"))) (optFieldP s' (OD.get a' (bs "items"))) := by
    have h := od_get_r ha (bs "items")
    revert h
    generalize OD.get a (bs "items") = x, OD.get a' (bs "items") = x'
    intro h
    cases h with
    | none => exact sim_pure .null
    | some h => exact sim_anyField hr hs h
  refine sim_bind this fun W1 l1 v v' hv => ?_
  rw [unexpected_r ha]
  split
  · exact sim_logged fun _ _ => .null
  · exact sim_agg hD hag hn (l1.sc hs) (ho _ _ _ hv)

/-! ## The rest of the library -/

omit hD in
theorem sim_force {s s' : Nat} {v v' : V F} (hs : W.sc s s') (hv : VR H Z W v v') :
    Sim H Z rec (VR H Z) W (forceP s v) (forceP s' v') := by
  unfold forceP
  rw [isQuery_r hv]
  split
  · exact sim_bind (sim_materialize hr hs hv) fun W1 l1 r r' h => sim_pure (.query h)
  · exact sim_pure hv

theorem sim_libTruth : TruthR H Z rec (libTruth D) := by
  intro W a a' s s' ha hs
  unfold libTruth
  refine sim_bind (sim_reduce hr ha) fun W1 l1 r r' h => ?_
  refine sim_bind (sim_force hr (l1.sc hs) h) fun W2 l2 r r' h => sim_pure ?_
  exact truthy_r hD h

theorem sim_libArith {op : Arith} {a a' b b' : V F} {s s' : Nat} (ha : VR H Z W a a') (hb : VR H Z W b b')
    (hs : W.sc s s') : Sim H Z rec (VR H Z) W (libArith D op a b s) (libArith D op a' b' s') := by
  cases op with
  | add =>
    simp only [libArith]
    refine sim_bind (sim_reduce hr ha) fun W1 l1 a a' ha => ?_
    refine sim_bind (sim_reduce hr (hb.mono l1)) fun W2 l2 b b' hb => ?_
    have ha := ha.mono l2
    have hs := l2.sc (l1.sc hs)
    have e : addForces a b = addForces a' b' := by
      unfold addForces
      rw [isQuery_r ha, isQuery_r hb, isArr_r ha, isArr_r hb]
    rw [e]
    split
    · refine sim_bind (sim_force hr hs ha) fun W3 l3 a a' ha => ?_
      refine sim_bind (sim_force hr (l3.sc hs) (hb.mono l3)) fun W4 l4 b b' hb => sim_pure ?_
      exact addV_r hD (ha.mono l4) hb
    · exact sim_pure (addV_r hD ha hb)
  | sub => exact sim_stdArith (op := .sub) hr hD ha hb hs
  | mul => exact sim_stdArith (op := .mul) hr hD ha hb hs
  | div => exact sim_stdArith (op := .div) hr hD ha hb hs

omit hD in
theorem sim_rowFields {s s' : Nat} {f f' : V F → Prog F S (V F)} {row row' : V F} (hs : W.sc s s')
    (hf : ∀ W', W.Le W' → ∀ v v', VR H Z W' v v' → Sim H Z rec (VR H Z) W' (f v) (f' v')) (hrow : VR H Z W row row') :
    Sim H Z rec (VRD H Z) W (rowFieldsP s f row) (rowFieldsP s' f' row') := by
  unfold rowFieldsP
  refine sim_bind (sim_members hr hrow hs) fun W1 l1 m m' hm => ?_
  cases (hm : m = m')
  refine sim_foldS (R := fun a b => a = b) (fun W2 l2 b b' a a' hb hab => ?_) .nil (All2.refl fun _ _ => rfl)
  cases (hab : a = a')
  have l := l1.trans l2
  refine sim_bind (sim_assoc hr (hrow.mono l) (.val (.str a)) (l.sc hs)) fun W3 l3 r r' hr2 => ?_
  obtain ⟨x, p⟩ := r
  obtain ⟨x', p'⟩ := r'
  obtain ⟨h1, h2⟩ := hr2
  dsimp only at h1 h2
  subst h2
  cases p with
  | false => exact sim_pure (VRD.mono l3 hb)
  | true =>
    refine sim_bind (hf W3 (l.trans l3) _ _ (getD_r h1)) fun W4 l4 v v' hv => sim_pure ?_
    exact od_set_r (VRD.mono (l3.trans l4) hb) _ hv

omit hD in
theorem sim_normalize : ∀ (n : Nat) {W} {s s' : Nat} {v v' : V F}, W.sc s s' → VR H Z W v v' →
    Sim H Z rec (VR H Z) W (normalizeP s n v) (normalizeP s' n v')
  | 0, _, _, _, _, _, _, _ => sim_pure .null
  | n + 1, W, s, s', v, v', hs, hv => by
    cases hv with
    | arr h =>
      simp only [normalizeP]
      refine sim_bind (sim_map (R := VR H Z) (Q := VR H Z) (fun l _ _ h => h.mono l) (fun l _ _ h => h.mono l)
        (fun W1 l1 a b hab => sim_normalize n (l1.sc hs) hab) h) fun W1 l1 r r' h => sim_pure (.arr h)
    | @obj o o' ho =>
      have other : (∀ c, o ≠ .lazy c) → (∀ c, o' ≠ .lazy c) →
          Sim H Z rec (VR H Z) W (if isQuery (.obj o : V F) then do
            let rows ← materializeP s (.obj o)
            pure (.arr rows) else pure (.obj o)) (if isQuery (.obj o' : V F) then do
            let rows ← materializeP s' (.obj o')
            pure (.arr rows) else pure (.obj o')) := by
        intro _ _
        rw [isQuery_r (VR.obj ho)]
        split
        · exact sim_bind (sim_materialize hr hs (.obj ho)) fun W1 l1 r r' h => sim_pure (.arr h)
        · exact sim_pure (.obj ho)
      cases o <;> cases o' <;>
        first
        | exact absurd ho id
        | (simp only [normalizeP]
           refine sim_bind (sim_lazyReduce hr ho) fun W1 l1 r r' h => ?_
           exact sim_normalize n (l1.sc hs) h)
        | exact other (fun _ => by simp) (fun _ => by simp)
    | dict h =>
      simp only [normalizeP, isQuery]
      exact sim_pure (.dict h)
    | query h =>
      simp only [normalizeP]
      rw [isQuery_r (VR.query h)]
      split
      · exact sim_bind (sim_materialize hr hs (.query h)) fun W1 l1 r r' h => sim_pure (.arr h)
      · exact sim_pure (.query h)
    | _ =>
      simp only [normalizeP, isQuery]
      exact sim_pure (by constructor)

omit hD in
theorem sim_rowToDict {s s' : Nat} {v v' : V F} (hs : W.sc s s') (hv : VR H Z W v v') :
    Sim H Z rec (VR H Z) W (rowToDictP s v) (rowToDictP s' v') := by
  unfold rowToDictP
  refine sim_bind (sim_rowFields hr hs (fun W1 l1 a b hab => sim_normalize hr 11 (l1.sc hs) hab) hv)
    fun W1 l1 r r' h => sim_pure (.dict h)

omit hD in
theorem sim_normalizeArgs {a a' : OD (V F)} (ha : VRD H Z W a a') :
    Sim H Z rec (VRD H Z) W (normalizeArgsP a) (normalizeArgsP a') := by
  unfold normalizeArgsP
  have h := od_get_r ha (bs "**")
  revert h
  generalize OD.get a (bs "**") = x, OD.get a' (bs "**") = x'
  intro h
  cases h with
  | none => exact sim_pure ha
  | some h =>
    refine sim_bind (sim_reduce hr h) fun W1 l1 r r' h => ?_
    cases h with
    | dict h => exact sim_pure h
    | _ => exact sim_pure (VRD.mono l1 ha)

omit hD in
theorem sim_elementText {fmtV : V F → Str} (hf : FmtR H Z fmtV) {s s' : Nat} {x x' : V F} (hs : W.sc s s')
    (hx : VR H Z W x x') : Sim H Z rec EqR W (elementTextP fmtV s x) (elementTextP fmtV s' x') := by
  unfold elementTextP
  rw [toStr_r hx]
  cases x'.toStr with
  | some t => exact sim_pure rfl
  | none =>
    refine sim_bind (sim_members hr hx hs) fun W1 l1 m m' hm => ?_
    cases (hm : m = m')
    have e : fmtV x = fmtV x' := hf hx
    have e2 : fmtV (.arr [x]) = fmtV (.arr [x']) := hf (.arr (.cons hx .nil))
    match m with
    | [] => exact sim_pure e
    | _ :: _ :: _ => exact sim_pure e
    | [m] =>
      refine sim_bind (sim_assoc hr (hx.mono l1) (.val (.str m)) (l1.sc hs)) fun W2 l2 r r' h => ?_
      obtain ⟨v, p⟩ := r
      obtain ⟨v', p'⟩ := r'
      obtain ⟨h1, h2⟩ := h
      dsimp only at h1 h2
      subst h2
      cases p with
      | false => exact sim_pure e
      | true =>
        dsimp only
        rw [toStr_r (getD_r h1), e, e2]
        split <;> exact sim_pure rfl

omit hD in
theorem sim_textP {fmtV : V F → Str} (hf : FmtR H Z fmtV) {s s' : Nat} {x x' : V F} (hs : W.sc s s')
    (hx : VR H Z W x x') : Sim H Z rec EqR W (textP fmtV s x) (textP fmtV s' x') := by
  have e := hf hx
  cases hx with
  | arr h =>
    cases h with
    | nil => exact sim_pure e
    | cons h h2 => cases h2 with
      | nil => exact sim_elementText hr hf hs h
      | cons _ _ => exact sim_pure e
  | str => exact sim_pure rfl
  | null => exact sim_pure rfl
  | _ => exact sim_pure e

theorem sim_field {fmtV : V F → Str} (hf : FmtR H Z fmtV) {s s' : Nat} {x x' : V F} (hs : W.sc s s')
    (hx : VR H Z W x x') (k : FieldKind) :
    Sim H Z rec (fun W => Opt2 (VR H Z W)) W (fieldP D fmtV s x k) (fieldP D fmtV s' x' k) := by
  cases k with
  | any => exact sim_bind (sim_anyField hr hs hx) fun W1 l1 r r' h => sim_pure (.some h)
  | int =>
    refine sim_bind (sim_reduce hr hx) fun W1 l1 r r' h => sim_pure ?_
    rw [toInt64_r h]
    cases r'.toInt64 with
    | none => exact .none
    | some i => exact .some (.int i)
  | str =>
    refine sim_bind (sim_reduce hr hx) fun W1 l1 r r' h => ?_
    refine sim_bind (sim_textP hr hf (l1.sc hs) h) fun W2 l2 t t' ht => sim_pure ?_
    cases (ht : t = t')
    exact .some (.str t)
  | bool =>
    refine sim_bind (sim_reduce hr hx) fun W1 l1 r r' h => ?_
    refine sim_bind (sim_libTruth hr hD h (l1.sc hs)) fun W2 l2 t t' ht => sim_pure ?_
    cases (ht : t = t')
    exact .some (.bool t)
  | lazy => exact sim_pure (.some hx)
  | query => exact sim_bind (sim_reduce hr hx) fun W1 l1 r r' h => sim_pure (.some h)

theorem sim_parseFields {fmtV : V F → Str} (hf : FmtR H Z fmtV) {s s' : Nat} {a a' : OD (V F)} :
    ∀ {W} {fs : List ArgField} {acc acc' : OD (V F)}, W.sc s s' → VRD H Z W a a' → VRD H Z W acc acc' →
    Sim H Z rec (fun W => Opt2 (VRD H Z W)) W (parseFieldsP D fmtV s a fs acc) (parseFieldsP D fmtV s' a' fs acc')
  | _, [], _, _, _, _, hacc => sim_pure (.some hacc)
  | W, f :: fs, acc, acc', hs, ha, hacc => by
    simp only [parseFieldsP]
    have h := od_get_r ha f.name
    revert h
    generalize OD.get a f.name = x, OD.get a' f.name = x'
    intro h
    cases h with
    | none =>
      dsimp only
      split
      · exact sim_pure .none
      · exact sim_parseFields hf hs ha hacc
    | some h =>
      refine sim_bind (sim_field hr hD hf hs h f.kind) fun W1 l1 r r' h => ?_
      cases h with
      | none => exact sim_pure .none
      | some h => exact sim_parseFields hf (l1.sc hs) (VRD.mono l1 ha) (od_set_r (VRD.mono l1 hacc) _ h)

theorem sim_parseArgs {fmtV : V F → Str} (hf : FmtR H Z fmtV) {s s' : Nat} {a a' : OD (V F)} {n : Str}
    {fs : List ArgField} (hs : W.sc s s') (ha : VRD H Z W a a') :
    Sim H Z rec (fun W => Opt2 (VRD H Z W)) W (parseArgsP D fmtV n s fs a) (parseArgsP D fmtV n s' fs a') := by
  unfold parseArgsP
  refine sim_bind (sim_normalizeArgs hr ha) fun W1 l1 a a' ha => ?_
  refine sim_bind (sim_parseFields hr hD hf (l1.sc hs) ha .nil) fun W2 l2 r r' h => ?_
  cases h with
  | none => exact sim_logged fun _ _ => .none
  | some h =>
    dsimp only
    rw [unexpected_r ha]
    split
    · exact sim_logged fun _ _ => .none
    · exact sim_pure (.some h)

omit hD hr in
theorem intOf_r {a a' : OD (V F)} (ha : VRD H Z W a a') (k : Str) : intOf a k = intOf a' k := by
  unfold intOf
  have h := od_get_r ha k
  revert h
  generalize OD.get a k = x, OD.get a' k = x'
  intro h
  cases h with
  | none => rfl
  | some h => cases h <;> rfl

omit hD hr in
theorem textOf_r {a a' : OD (V F)} (ha : VRD H Z W a a') (k : Str) : textOf a k = textOf a' k := by
  unfold textOf
  have h := od_get_r ha k
  revert h
  generalize OD.get a k = x, OD.get a' k = x'
  intro h
  cases h with
  | none => rfl
  | some h => cases h <;> rfl

omit hD in
theorem sim_getLoop {s s' : Nat} : ∀ {W} {v v' : V F} {l : List Str}, W.sc s s' → VR H Z W v v' →
    Sim H Z rec (VR H Z) W (getLoopP s v l) (getLoopP s' v' l)
  | _, _, _, [], _, hv => sim_pure hv
  | W, v, v', m :: l, hs, hv => by
    simp only [getLoopP]
    refine sim_bind (sim_assoc hr hv (k := match atoi m with
        | some i => .val (.int i)
        | none => .val (.str m)) (k' := match atoi m with
        | some i => .val (.int i)
        | none => .val (.str m)) (by split; exact .val (.int _); exact .val (.str _)) hs) fun W1 l1 r r' h => ?_
    obtain ⟨x, p⟩ := r
    obtain ⟨x', p'⟩ := r'
    obtain ⟨h1, h2⟩ := h
    dsimp only at h1 h2
    subst h2
    cases p with
    | false => exact sim_pure .null
    | true => exact sim_getLoop (l1.sc hs) (getD_r h1)

variable {fmtV : V F → Str} (hf : FmtR H Z fmtV)
include hf

theorem sim_getFn {s s' : Nat} {a a' : OD (V F)} (hs : W.sc s s') (ha : VRD H Z W a a') :
    Sim H Z rec (VR H Z) W (getFnP D fmtV s a) (getFnP D fmtV s' a') := by
  unfold getFnP
  refine sim_bind (sim_parseArgs hr hD hf hs ha) fun W1 l1 r r' h => ?_
  cases h with
  | none => exact sim_pure .null
  | @some r r' h =>
    dsimp only
    rw [textOf_r h]
    refine sim_getLoop hr (l1.sc hs) ?_
    have h := od_get_r h (bs "item")
    revert h
    generalize OD.get r (bs "item") = x, OD.get r' (bs "item") = x'
    intro h
    cases h with
    | none => exact .obj (l1.sc hs)
    | some h => exact h

theorem sim_lenFn {s s' : Nat} {a a' : OD (V F)} (hs : W.sc s s') (ha : VRD H Z W a a') :
    Sim H Z rec (VR H Z) W (lenFnP D fmtV s a) (lenFnP D fmtV s' a') := by
  unfold lenFnP
  refine sim_bind (sim_parseArgs hr hD hf hs ha) fun W1 l1 r r' h => ?_
  cases h with
  | none => exact sim_pure .null
  | @some r r' h =>
    dsimp only
    have h := getD_r (od_get_r h (bs "list"))
    revert h
    generalize (OD.get r (bs "list")).getD .null = x, (OD.get r' (bs "list")).getD .null = x'
    intro h
    have : lenF (fun _ => none) x = lenF (fun _ => none) x' := by
      cases h with
      | arr h => exact h.length
      | dict h => exact h.length
      | _ => rfl
    rw [this]
    exact sim_pure (.int _)

theorem sim_encodeFn {s s' : Nat} {a a' : OD (V F)} (hs : W.sc s s')
    (ha : VRD H Z W a a') : Sim H Z rec (VR H Z) W (encodeFnP D fmtV s a) (encodeFnP D fmtV s' a') := by
  unfold encodeFnP
  refine sim_bind (sim_parseArgs hr hD hf hs ha) fun W1 l1 r r' h => ?_
  cases h with
  | none => exact sim_pure .null
  | @some r r' h =>
    dsimp only
    rw [textOf_r h]
    have h := getD_r (od_get_r h (bs "string"))
    revert h
    generalize (OD.get r (bs "string")).getD .null = x, (OD.get r' (bs "string")).getD .null = x'
    intro h
    have : ∀ t, encodeF fmtV x t = encodeF fmtV x' t := by
      intro t
      have e := hf h
      unfold encodeF
      cases h <;> first | rfl | (simp only [e])
    rw [this]
    split
    · exact sim_pure (.str _)
    · exact sim_logged fun _ _ => .null

theorem sim_timestampFn {s s' : Nat} {a a' : OD (V F)} (hs : W.sc s s') (ha : VRD H Z W a a') :
    Sim H Z rec (VR H Z) W (timestampFnP D fmtV s a) (timestampFnP D fmtV s' a') := by
  unfold timestampFnP
  refine sim_bind (sim_parseArgs hr hD hf hs ha) fun W1 l1 r r' h => ?_
  cases h with
  | none => exact sim_pure .null
  | some h =>
    dsimp only
    rw [intOf_r h, intOf_r h]
    refine sim_pure ?_
    unfold timestampF
    (repeat' split) <;> constructor

theorem sim_splitFn {X : Extra F S} {s s' : Nat} {a a' : OD (V F)} (hs : W.sc s s') (ha : VRD H Z W a a') :
    Sim H Z rec (VR H Z) W (splitFnP D fmtV X s a) (splitFnP D fmtV X s' a') := by
  unfold splitFnP
  refine sim_bind (sim_parseArgs hr hD hf hs ha) fun W1 l1 r r' h => ?_
  have strs : ∀ l : List Str, VR H Z W1 (.arr (l.map .str)) (.arr (l.map .str)) := fun l =>
    .arr ((All2.refl (R := fun a b => a = b) fun _ _ => rfl).map fun i j hij => by
      cases (hij : i = j)
      exact .str _)
  cases h with
  | none => exact sim_pure .null
  | some h =>
    dsimp only
    rw [textOf_r h, textOf_r h, textOf_r h]
    split
    · split
      · exact sim_pure (strs _)
      · exact sim_logged fun _ _ => .null
    · split
      · exact sim_pure (strs _)
      · exact sim_logged fun _ _ => .null

omit hf hr hD in
theorem formatArgs_r {v v' : Option (V F)} (h : Opt2 (VR H Z W) v v') : VRL H Z W (formatArgs v) (formatArgs v') := by
  cases h with
  | none => exact .nil
  | some h => cases h with
    | arr h => exact h
    | obj h => exact .cons (.obj h) .nil
    | dict h => exact .cons (.dict h) .nil
    | query h => exact .cons (.query h) .nil
    | _ => exact .cons (by constructor) .nil

theorem sim_formatFn {X : Extra F S} (hX : ∀ {W l l'}, VRL H Z W l l' → ∀ f, X.sprintf f l = X.sprintf f l')
    {s s' : Nat} {a a' : OD (V F)} (hs : W.sc s s') (ha : VRD H Z W a a') :
    Sim H Z rec (VR H Z) W (formatFnP D fmtV X s a) (formatFnP D fmtV X s' a') := by
  unfold formatFnP
  refine sim_bind (sim_parseArgs hr hD hf hs ha) fun W1 l1 r r' h => ?_
  cases h with
  | none => exact sim_pure (.bool _)
  | some h =>
    dsimp only
    rw [textOf_r h, hX (formatArgs_r (od_get_r h (bs "args")))]
    exact sim_pure (.str _)

theorem sim_itemFn (hag : Z.ag = true) {m m' s s' : Nat} {c : List Str} (hn : Z.nd m m' c) (hs : W.sc s s')
    {op : V F → AggOp F Obj} (ho : ∀ W v v', VR H Z W v v' → OpR H Z W (op v) (op v')) {a a' : OD (V F)}
    (ha : VRD H Z W a a') : Sim H Z rec (VR H Z) W (itemFnP D fmtV op m s a) (itemFnP D fmtV op m' s' a') := by
  unfold itemFnP
  refine sim_bind (sim_parseArgs hr hD hf hs ha) fun W1 l1 r r' h => ?_
  cases h with
  | none => exact sim_pure .null
  | some h =>
    exact sim_bind (sim_reduce hr (getD_r (od_get_r h (bs "item")))) fun W2 l2 v v' hv =>
      sim_agg hD hag hn ((l1.trans l2).sc hs) (ho _ _ _ hv)

theorem sim_sumFn (hag : Z.ag = true) {m m' s s' : Nat} {c : List Str} (hn : Z.nd m m' c) (hs : W.sc s s')
    {a a' : OD (V F)} (ha : VRD H Z W a a') : Sim H Z rec (VR H Z) W (sumFnP D fmtV m s a) (sumFnP D fmtV m' s' a') := by
  unfold sumFnP
  refine sim_bind (sim_parseArgs hr hD hf hs ha) fun W1 l1 r r' h => ?_
  cases h with
  | none => exact sim_pure .null
  | some h =>
    dsimp only
    rw [intOf_r h]
    exact sim_agg hD hag hn (l1.sc hs) (.sum _)

omit hf
theorem sim_iterate {s s' : Nat} {v v' : V F} (hs : W.sc s s') (hv : VR H Z W v v') :
    Sim H Z rec (VRL H Z) W (iterateP D s v) (iterateP D s' v') := by
  unfold iterateP
  refine sim_bind (sim_reduce hr hv) fun W1 l1 v v' hv => ?_
  rw [isQuery_r hv]
  split
  · exact sim_evalQuery hr hv (l1.sc hs)
  · exact sim_pure (iterate_r hD hv)

omit hD in
theorem sim_foreachRow {s s' : Nat} {k : Str} {q q' : Option (V F)} {v v' : V F} (hs : W.sc s s')
    (hq : Opt2 (VR H Z W) q q') (hv : VR H Z W v v') :
    Sim H Z rec (VRL H Z) W (foreachRowP s k q v) (foreachRowP s' k q' v') := by
  unfold foreachRowP
  cases hq with
  | none =>
    by_cases hk : k = []
    · simp only [hk, if_true]
      exact sim_bind (sim_pure hv) fun W1 l1 v v' hv => sim_pure (.cons hv .nil)
    · simp only [hk, if_false]
      refine sim_bind (sim_assoc hr hv (.val (.str k)) hs) fun W1 l1 r r' h => ?_
      obtain ⟨x, p⟩ := r
      obtain ⟨x', p'⟩ := r'
      obtain ⟨h1, h2⟩ := h
      dsimp only at h1 h2
      subst h2
      cases p with
      | false => exact sim_bind (sim_pure .null) fun W1 l1 v v' hv => sim_pure (.cons hv .nil)
      | true => exact sim_bind (sim_pure (getD_r h1)) fun W1 l1 v v' hv => sim_pure (.cons hv .nil)
  | @some q q' hq =>
    have key : ∀ {W1} {v v' : V F}, W.Le W1 → VR H Z W1 v v' → Sim H Z rec (VRL H Z) W1 (do
          let child ← prim (.copy s)
          prim (.append child v)
          evalBranchP child q) (do
          let child ← prim (.copy s')
          prim (.append child v')
          evalBranchP child q') := by
      intro W1 v v' l1 hv
      refine sim_bind (sim_copy (l1.sc hs)) fun W2 l2 i j hij => ?_
      refine sim_bind (sim_append hij (hv.mono l2)) fun W3 l3 _ _ _ => ?_
      exact sim_evalBranch hr (l3.sc hij) (hq.mono ((l1.trans l2).trans l3))
    by_cases hk : k = []
    · simp only [hk, if_true]
      exact sim_bind (sim_pure hv) fun W1 l1 v v' hv => key l1 hv
    · simp only [hk, if_false]
      refine sim_bind (sim_assoc hr hv (.val (.str k)) hs) fun W1 l1 r r' h => ?_
      obtain ⟨x, p⟩ := r
      obtain ⟨x', p'⟩ := r'
      obtain ⟨h1, h2⟩ := h
      dsimp only at h1 h2
      subst h2
      cases p with
      | false => exact sim_bind (sim_pure .null) fun W2 l2 v v' hv => key (l1.trans l2) hv
      | true => exact sim_bind (sim_pure (getD_r h1)) fun W2 l2 v v' hv => key (l1.trans l2) hv

omit hD hr in
theorem flatten_r {R : V F → V F → Prop} {l l' : List (List (V F))} (h : All2 (All2 R) l l') :
    All2 R l.flatten l'.flatten := by
  induction h with
  | nil => exact .nil
  | cons h1 _ ih => exact h1.append ih

omit hD in
/-- Rows of programs, one after the other. -/
theorem sim_concat {α β : Type} {R : Corr → α → β → Prop} {f : α → Prog F S (List (V F))} {f' : β → Prog F S (List (V F))}
    (hR : ∀ {W W'}, W.Le W' → ∀ {a a'}, R W a a' → R W' a a') {l : List α} {l' : List β}
    (hf : ∀ W', W.Le W' → ∀ a a', R W' a a' → Sim H Z rec (VRL H Z) W' (f a) (f' a')) (hl : All2 (R W) l l') :
    Sim H Z rec (VRL H Z) W (do
      let out ← mapP f l
      pure out.flatten) (do
      let out ← mapP f' l'
      pure out.flatten) :=
  sim_bind (sim_map (Q := VRL H Z) hR (fun l _ _ h => VRL.mono l h) hf hl) fun W1 l1 r r' h => sim_pure (flatten_r h)

include hf in
theorem sim_foreach {s s' : Nat} {a a' : OD (V F)} (hs : W.sc s s') (ha : VRD H Z W a a') :
    Sim H Z rec (VRL H Z) W (foreachP D fmtV s a) (foreachP D fmtV s' a') := by
  unfold foreachP
  refine sim_bind (sim_parseArgs hr hD hf hs ha) fun W1 l1 r r' h => ?_
  cases h with
  | none => exact sim_pure .nil
  | some h =>
    dsimp only
    rw [textOf_r h]
    refine sim_bind (sim_iterate hr hD (l1.sc hs) (getD_r (od_get_r h (bs "row")))) fun W3 l3 r r' hrs => ?_
    exact sim_concat hr (R := VR H Z) (fun l _ _ h => h.mono l) (fun W4 l4 a b hab =>
      sim_foreachRow hr ((l1.trans (l3.trans l4)).sc hs)
        ((od_get_r h (bs "query")).mono fun _ _ z => z.mono (l3.trans l4)) hab) hrs

omit hD in
theorem sim_chain {s s' : Nat} {a a' : OD (V F)} (hs : W.sc s s') (ha : VRD H Z W a a') :
    Sim H Z rec (VRL H Z) W (chainP s a) (chainP s' a') := by
  unfold chainP
  refine sim_bind (sim_map (R := VR H Z) (Q := VR H Z) (fun l _ _ h => h.mono l) (fun l _ _ h => h.mono l)
    (fun W1 l1 a b hab => sim_reduce hr hab) (ha.map fun a b hab => hab.val)) fun W1 l1 q q' hq => ?_
  refine sim_concat hr (R := VR H Z) (fun l _ _ h => h.mono l) (fun W2 l2 a b hab => ?_) hq
  refine sim_bind (sim_copy (l2.sc (l1.sc hs))) fun W3 l3 i j hij => ?_
  exact sim_evalBranch hr hij (hab.mono l3)

omit hD hr in
theorem unwrapMember_r {v v' : V F} (h : VR H Z W v v') : VR H Z W (unwrapMember v) (unwrapMember v') := by
  cases h with
  | dict h =>
    simp only [unwrapMember]
    have hg := od_get_r h valueKey
    revert hg
    generalize OD.get _ valueKey = x, OD.get _ valueKey = x'
    intro hg
    cases hg with
    | none => exact .dict h
    | some h => exact h
  | arr h => exact .arr h
  | query h => exact .query h
  | obj h => exact .obj h
  | _ => constructor

omit hD hr in
theorem mergeFrom_r {a a' b b' : OD (V F)} (hb : VRD H Z W b b') (ha : VRD H Z W a a') :
    VRD H Z W (OD.mergeFrom a b) (OD.mergeFrom a' b') := by
  unfold OD.mergeFrom
  induction hb generalizing a a' with
  | nil => exact ha
  | @cons p q _ _ hp _ ih =>
    simp only [List.foldl_cons]
    refine ih ?_
    rw [hp.key]
    exact od_set_r ha _ hp.val

theorem sim_flattenRow : ∀ (n : Nat) {W} {s s' : Nat} {d d' : OD (V F)}, W.sc s s' → VRD H Z W d d' →
    Sim H Z rec (VRL H Z) W (flattenRowP D s n d) (flattenRowP D s' n d')
  | 0, _, _, _, _, _, _, hd => sim_pure (.cons (.dict hd) .nil)
  | n + 1, W, s, s', d, d', hs, hd => by
    simp only [flattenRowP]
    rw [od_keys_r hd]
    cases (OD.keys d')[n]? with
    | none => exact sim_pure .nil
    | some k =>
      dsimp only
      refine sim_bind (sim_iterate hr hD hs (getD_r (od_get_r hd k))) fun W1 l1 ms ms' hm => ?_
      have hm2 : VRL H Z W1 (ms.map unwrapMember) (ms'.map unwrapMember) := hm.map fun _ _ => unwrapMember_r
      have e : (ms.map unwrapMember).isEmpty = (ms'.map unwrapMember).isEmpty := by
        cases hm with
        | nil => rfl
        | cons _ _ => rfl
      rw [e]
      split
      · exact sim_flattenRow n (l1.sc hs) (VRD.mono l1 hd)
      · refine sim_concat hr (R := VR H Z) (fun l _ _ h => h.mono l) (fun W2 l2 a b hab => ?_) hm2
        exact sim_flattenRow n (l2.sc (l1.sc hs))
          (od_update_r (mergeFrom_r (VRD.mono (l1.trans l2) hd) .nil) k hab)

omit hD in
theorem sim_makeDict {s s' : Nat} {v v' : V F} (hs : W.sc s s') (hv : VR H Z W v v') :
    Sim H Z rec (VRD H Z) W (makeDictP s v) (makeDictP s' v') := by
  have other : ∀ {u u' : V F}, VR H Z W u u' → Sim H Z rec (VRD H Z) W (rowFieldsP s pure u) (rowFieldsP s' pure u') :=
    fun hu => sim_rowFields hr hs (fun W1 l1 a b hab => sim_pure hab) hu
  cases hv with
  | dict h => exact sim_pure h
  | arr h => exact other (.arr h)
  | query h => exact other (.query h)
  | obj h => exact other (.obj h)
  | _ => exact other (by constructor)

include hf in
theorem sim_flatten {s s' : Nat} {a a' : OD (V F)} (hs : W.sc s s') (ha : VRD H Z W a a') :
    Sim H Z rec (VRL H Z) W (flattenP D fmtV s a) (flattenP D fmtV s' a') := by
  unfold flattenP
  refine sim_bind (sim_parseArgs hr hD hf hs ha) fun W1 l1 r r' h => ?_
  cases h with
  | none => exact sim_pure .nil
  | some h =>
    refine sim_bind (sim_evalBranch hr (l1.sc hs) (getD_r (od_get_r h (bs "query")))) fun W2 l2 r r' hrs => ?_
    refine sim_concat hr (R := VR H Z) (fun l _ _ h => h.mono l) (fun W3 l3 a b hab => ?_) hrs
    have l := (l1.trans l2).trans l3
    refine sim_bind (sim_makeDict hr (l.sc hs) hab) fun W4 l4 d d' hd => ?_
    have e : (OD.keys d).length = (OD.keys d').length := by rw [od_keys_r hd]
    rw [e]
    exact sim_flattenRow hr hD _ (l4.sc (l.sc hs)) hd

include hf in
theorem sim_range {fuel s s' : Nat} {a a' : OD (V F)} (hs : W.sc s s') (ha : VRD H Z W a a') :
    Sim H Z rec (VRL H Z) W (rangeP D fmtV fuel s a) (rangeP D fmtV fuel s' a') := by
  unfold rangeP
  refine sim_bind (sim_parseArgs hr hD hf hs ha) fun W1 l1 r r' h => ?_
  cases h with
  | none => exact sim_pure .nil
  | some h =>
    dsimp only
    rw [intOf_r h, intOf_r h, intOf_r h]
    refine sim_pure ?_
    refine (All2.refl (R := fun a b => a = b) fun _ _ => rfl).map fun i j hij => ?_
    cases (hij : i = j)
    exact .dict (.cons (.mk (.int _)) .nil)

omit hD in
theorem sim_queryKey {s s' : Nat} {k k' : Key F Obj} : ∀ {W} {l l' acc acc' : List (V F)} (i : Nat), W.sc s s' →
    KeyR H Z W k k' → VRL H Z W acc acc' → VRL H Z W l l' →
    Sim H Z rec (OVR H Z) W (queryKeyP s k i acc l) (queryKeyP s' k' i acc' l')
  | W, _, _, _, _, i, hs, hk, hacc, .nil => sim_pure ⟨.some (.arr hacc), rfl⟩
  | W, _, _, acc, acc', i, hs, hk, hacc, .cons (a := r) (b := r') (l := rs) (l' := rs') hrow hl => by
    simp only [queryKeyP]
    have step : Sim H Z rec (OVR H Z) W (do
        match ← call (.assoc r k s) with
        | (v, true) => queryKeyP s k (i + 1) (acc ++ [v.getD .null]) rs
        | (_, false) => queryKeyP s k (i + 1) acc rs) (do
        match ← call (.assoc r' k' s') with
        | (v, true) => queryKeyP s' k' (i + 1) (acc' ++ [v.getD .null]) rs'
        | (_, false) => queryKeyP s' k' (i + 1) acc' rs') := by
      refine sim_bind (sim_assoc hr hrow hk hs) fun W1 l1 x x' h => ?_
      obtain ⟨x, p⟩ := x
      obtain ⟨x', p'⟩ := x'
      obtain ⟨h1, h2⟩ := h
      dsimp only at h1 h2
      subst h2
      have hk1 : KeyR H Z W1 k k' := by
        cases hk with
        | val h => exact .val (h.mono l1)
        | range x y => exact .range x y
      cases p with
      | false => exact sim_queryKey (i + 1) (l1.sc hs) hk1 (VRL.mono l1 hacc) (VRL.mono l1 hl)
      | true => exact sim_queryKey (i + 1) (l1.sc hs) hk1 ((VRL.mono l1 hacc).snoc (getD_r h1)) (VRL.mono l1 hl)
    cases hk with
    | range => exact step
    | val h =>
      simp only [toInt64_r h]
      split
      · exact sim_pure ⟨.some hrow, rfl⟩
      · exact step

end
end Vfilter.Vql
