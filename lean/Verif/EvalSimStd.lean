import Verif.EvalSimLib
/-!
# The package's library respects the relation, put together
-/
set_option linter.all false

namespace Vfilter.Vql

section
variable {F S : Type} [FloatOps F]

/-- The aggregate functions of the package (functions/aggregates.go). -/
def isAgg (n : Str) : Bool := n = bs "count" ∨ n = bs "sum" ∨ n = bs "min" ∨ n = bs "max" ∨ n = bs "enumerate"

/-- No references to the heap of the evaluator. -/
def Flat (v : V F) : Prop := ∀ (H : Host F S) (Z : Cfg S) (W : Corr), VR H Z W v v

section
variable {D : World F Obj} {matchF : V F → V F → Bool} {fmtV : V F → Str} {colName : Col → Str}
  {num : Str → Option (V F)} {sources : OD (List (V F))} {Z : Cfg S}

/-- The built-in functions and fixed sources. -/
theorem stdHost_r (hD : NoOps D)
    (hm : MatchR (stdHost D matchF fmtV colName num sources : Host F S) Z matchF)
    (hf : FmtR (stdHost D matchF fmtV colName num sources : Host F S) Z fmtV)
    (hnum : ∀ t v, num t = some v → Flat (S := S) v)
    (hsrc : ∀ n l, OD.get sources n = some l → ∀ v ∈ l, Flat (S := S) v)
    (hag : ∀ n, Z.okFn n → isAgg n = true → Z.ag = true) :
    HostR (stdHost D matchF fmtV colName num sources : Host F S) Z where
  fn := by
    intro rec hr W n m m' c s s' a a' hn hnd hs ha
    show Sim _ Z rec _ W (stdFn D (stdTruth D) n m s a) (stdFn D (stdTruth D) n m' s' a')
    unfold stdFn
    split
    · exact sim_ifFn hr (sim_stdTruth hr hD) hs ha
    split
    · exact sim_pure (.obj hs)
    split
    · rename_i h
      exact sim_items hr hD (hag n hn (by simp [isAgg, h])) hnd hs (fun _ _ _ _ => .count) ha
    split
    · rename_i h
      exact sim_items hr hD (hag n hn (by simp [isAgg, h])) hnd hs (fun _ _ _ => .enumerate) ha
    · exact sim_pure .null
  plugin := by
    intro rec hr W n s s' a a' hn hs ha
    simp only [stdHost]
    split
    · exact sim_ifPlugin hr (sim_stdTruth hr hD) hs ha
    split
    · exact sim_pure (.cons (.obj hs) .nil)
    · refine sim_pure (All2.refl fun v hv => ?_)
      revert hv
      cases h : OD.get sources n with
      | none => simp
      | some l => exact fun hv => hsrc n l h v hv _ _ _
  arith := fun hr _ _ _ _ _ _ _ _ ha hb hs => sim_stdArith hr hD ha hb hs
  rel := fun hr _ _ _ _ _ _ _ _ ha hb hs => sim_stdRel hr hD hm ha hb hs
  truth := fun hr _ _ _ _ _ ha hs => sim_stdTruth hr hD ha hs
  toStr := fun hr _ _ _ _ _ ha hs => sim_text hr hf ha
  sort := by
    intro rec hr W k d a a' s s' ha hs
    refine sim_pure (Q := VRL _ Z) (insertionSort_r (fun x x' y y' h1 h2 => ?_) ha)
    exact rowLess_r hD k d h1 h2
  assocImpl := fun _ _ _ _ _ _ _ _ _ _ _ => .none
  assocDefault := fun hr _ _ _ _ _ _ _ ha hk hs => sim_pure ⟨.some (flat_r ha hk).1, (flat_r ha hk).2⟩
  hostMembers := fun _ _ _ _ _ _ _ _ => sim_pure rfl
  num := fun h => hnum _ _ h _ _ _

end

section
variable {D : World F Obj} {matchF : V F → V F → Bool} {fmtV : V F → Str} {colName : Col → Str}
  {num : Str → Option (V F)} {text : Select → Str} {fuel : Nat} {X : Extra F S} {Z : Cfg S}

/-- One entry of a table of programs. -/
theorem sim_entry {H : Host F S} {rec : Rec F S} {W : Corr} {α : Type} {Q : Corr → α → α → Prop} {c : Prop} [Decidable c]
    {p p' r r' : Prog F S α} {q q' : Option (Prog F S α)} (h1 : c → Sim H Z rec Q W p p')
    (h2 : Sim H Z rec Q W (q.getD r) (q'.getD r')) :
    Sim H Z rec Q W ((if c then some p else q).getD r) ((if c then some p' else q').getD r') := by
  by_cases h : c
  · rw [if_pos h, if_pos h]
    exact h1 h
  · rw [if_neg h, if_neg h]
    exact h2

/-- What the application adds respects the relation. -/
structure ExtraR (H : Host F S) (Z : Cfg S) (X : Extra F S) : Prop where
  fn : ∀ {rec}, RecSim H Z rec → ∀ {n f}, OD.get X.fns n = some f → ∀ {W m m' c s s' a a'}, Z.okFn n → Z.nd m m' c →
    W.sc s s' → VRD H Z W a a' → Sim H Z rec (VR H Z) W (f m s a) (f m' s' a')
  plugin : ∀ {rec}, RecSim H Z rec → ∀ {n f}, OD.get X.plugins n = some f → ∀ {W s s' a a'}, Z.okPl n → W.sc s s' →
    VRD H Z W a a' → Sim H Z rec (VRL H Z) W (f s a) (f s' a')
  assocImpl : ∀ {rec}, RecSim H Z rec → ∀ {W a a' k k' s s'}, VR H Z W a a' → KeyR H Z W k k' → W.sc s s' →
    Opt2 (Sim H Z rec (OVR H Z) W) (X.assocImpl a k s) (X.assocImpl a' k' s')
  members : ∀ {rec}, RecSim H Z rec → ∀ {W a a' s s'}, VR H Z W a a' → W.sc s s' →
    Sim H Z rec EqR W (X.members a s) (X.members a' s')
  sprintf : ∀ {W l l'}, VRL H Z W l l' → ∀ f, X.sprintf f l = X.sprintf f l'

/-- The functions and plugins of the package. -/
theorem libHost_r (hD : NoOps D)
    (hX : ExtraR (libHost D matchF fmtV colName num text fuel X) Z X)
    (hm : MatchR (libHost D matchF fmtV colName num text fuel X) Z matchF)
    (hf : FmtR (libHost D matchF fmtV colName num text fuel X) Z fmtV)
    (hnum : ∀ t v, num t = some v → Flat (S := S) v)
    (hag : ∀ n, Z.okFn n → isAgg n = true → Z.ag = true) :
    HostR (libHost D matchF fmtV colName num text fuel X) Z where
  fn := by
    intro rec hr W n m m' c s s' a a' hn hnd hs ha
    show Sim _ Z rec _ W (match OD.get X.fns n with
      | some f => f m s a
      | none => (libFn D fmtV X n m s a).getD (pure .null)) (match OD.get X.fns n with
      | some f => f m' s' a'
      | none => (libFn D fmtV X n m' s' a').getD (pure .null))
    cases hfn : OD.get X.fns n with
    | some f => exact hX.fn hr hfn hn hnd hs ha
    | none =>
      show Sim _ Z rec _ W ((libFn D fmtV X n m s a).getD (pure .null)) ((libFn D fmtV X n m' s' a').getD (pure .null))
      unfold libFn
      refine sim_entry (fun _ => sim_rowToDict hr hs (.dict ha)) ?_
      refine sim_entry (fun _ => sim_timestampFn hr hD hf hs ha) ?_
      refine sim_entry (fun _ => sim_splitFn hr hD hf hs ha) ?_
      refine sim_entry (fun _ => sim_bind (sim_normalizeArgs hr ha) fun W1 l1 a a' ha =>
        sim_ifFn hr (sim_libTruth hr hD) (l1.sc hs) ha) ?_
      refine sim_entry (fun _ => sim_formatFn hr hD hf hX.sprintf hs ha) ?_
      refine sim_entry (fun _ => sim_getFn hr hD hf hs ha) ?_
      refine sim_entry (fun _ => sim_encodeFn hr hD hf hs ha) ?_
      refine sim_entry (fun h => sim_bind (sim_normalizeArgs hr ha) fun W1 l1 a a' ha =>
        sim_items hr hD (hag n hn (by simp [isAgg, h])) hnd (l1.sc hs) (fun _ _ _ _ => .count) ha) ?_
      refine sim_entry (fun h => sim_sumFn hr hD hf (hag n hn (by simp [isAgg, h])) hnd hs ha) ?_
      refine sim_entry (fun h => sim_itemFn hr hD hf (hag n hn (by simp [isAgg, h])) hnd hs (fun _ _ _ => .min) ha) ?_
      refine sim_entry (fun h => sim_itemFn hr hD hf (hag n hn (by simp [isAgg, h])) hnd hs (fun _ _ _ => .max) ha) ?_
      refine sim_entry (fun h => sim_bind (sim_normalizeArgs hr ha) fun W1 l1 a a' ha =>
        sim_items hr hD (hag n hn (by simp [isAgg, h])) hnd (l1.sc hs) (fun _ _ _ => .enumerate) ha) ?_
      refine sim_entry (fun _ => sim_lenFn hr hD hf hs ha) ?_
      refine sim_entry (fun _ => sim_pure (.obj hs)) ?_
      exact sim_pure .null
  plugin := by
    intro rec hr W n s s' a a' hn hs ha
    simp only [libHost]
    cases hfn : OD.get X.plugins n with
    | some f => exact hX.plugin hr hfn hn hs ha
    | none =>
      show Sim _ Z rec _ W ((libPlugin D fmtV fuel n s a).getD (pure [])) ((libPlugin D fmtV fuel n s' a').getD (pure []))
      unfold libPlugin
      refine sim_entry (fun _ => sim_bind (sim_normalizeArgs hr ha) fun W1 l1 a a' ha =>
        sim_ifPlugin hr (sim_libTruth hr hD) (l1.sc hs) ha) ?_
      refine sim_entry (fun _ => sim_flatten hr hD hf hs ha) ?_
      refine sim_entry (fun _ => sim_chain hr hs ha) ?_
      refine sim_entry (fun _ => sim_foreach hr hD hf hs ha) ?_
      refine sim_entry (fun _ => sim_range hr hD hf hs ha) ?_
      refine sim_entry (fun _ => sim_pure (.cons (.obj hs) .nil)) ?_
      exact sim_pure .nil
  arith := fun hr _ _ _ _ _ _ _ _ ha hb hs => sim_libArith hr hD ha hb hs
  rel := fun hr _ _ _ _ _ _ _ _ ha hb hs => sim_stdRel hr hD hm ha hb hs
  truth := fun hr _ _ _ _ _ ha hs => sim_libTruth hr hD ha hs
  toStr := fun hr _ _ _ _ _ ha hs => sim_text hr hf ha
  sort := by
    intro rec hr W k d a a' s s' ha hs
    refine sim_pure (Q := VRL _ Z) (insertionSort_r (fun x x' y y' h1 h2 => ?_) ha)
    exact rowLess_r hD k d h1 h2
  assocImpl := by
    intro rec hr W a a' k k' s s' ha hk hs
    simp only [libHost]
    have h := hX.assocImpl hr ha hk hs
    revert h
    generalize X.assocImpl a k s = x, X.assocImpl a' k' s' = x'
    intro h
    cases h with
    | some h => exact .some h
    | none =>
      have key : isQuery a = isQuery a' := isQuery_r ha
      have hit : Sim (libHost D matchF fmtV colName num text fuel X) Z rec
          (OVR (libHost D matchF fmtV colName num text fuel X) Z) W (do
            let ns ← prim (.copy s)
            let rows ← call (.evalQuery a ns)
            queryKeyP s k 0 [] rows) (do
            let ns ← prim (.copy s')
            let rows ← call (.evalQuery a' ns)
            queryKeyP s' k' 0 [] rows) := by
        refine sim_bind (sim_copy hs) fun W1 l1 i j hij => ?_
        refine sim_bind (sim_evalQuery hr (ha.mono l1) hij) fun W2 l2 r r' hrs => ?_
        have l := l1.trans l2
        refine sim_queryKey hr 0 (l.sc hs) ?_ .nil hrs
        cases hk with
        | val h => exact .val (h.mono l)
        | range x y => exact .range x y
      unfold libAssocImpl
      cases ha with
      | query h => exact .none
      | obj h =>
        dsimp only
        rw [key]
        split
        · exact .some hit
        · exact .none
      | _ => exact .none
  assocDefault := fun hr _ _ _ _ _ _ _ ha hk hs => sim_pure ⟨.some (flat_r ha hk).1, (flat_r ha hk).2⟩
  hostMembers := fun hr _ _ _ _ _ ha hs => hX.members hr ha hs
  num := fun h => hnum _ _ h _ _ _

end
end
end Vfilter.Vql
