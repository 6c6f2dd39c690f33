import Verif.EvalReach
import Verif.EvalTermStd
/-!
# The built-in functions and operators stay within what they are given

`stdHost` with no registered operator implementations satisfies `Host.Within`.  Its aggregate
function `enumerate()` stores its argument; the others do not, and `noEnum` leaves it out.
-/
set_option linter.all false

namespace Vfilter.Vql

section
variable {F S : Type} {gr : Bool} {K : Know}

theorem within_reduceP {v : V F} (hv : VW K v) {o : List Nat} : (reduceP v : Prog F S _).Within gr VW K o := by
  unfold reduceP
  split
  · exact ⟨vw_obj.1 hv, fun L r hL hr => hr⟩
  · exact hv

theorem within_anyFieldP {s : Nat} (hs : K.sc s) {v : V F} (hv : VW K v) {o : List Nat} :
    (anyFieldP s v : Prog F S _).Within gr VW K o := by
  unfold anyFieldP
  split
  · exact ⟨⟨vw_obj.1 hv, hs⟩, fun L r hL hr => hr⟩
  · exact hv

theorem qo_get {d : OD (V F)} (h : QD K d) (k : Str) : ∀ v, OD.get d k = some v → VW K v := fun v hv => h.get hv

theorem within_ifElseP {s : Nat} (hs : K.sc s) {e : Option (V F)} (he : ∀ v, e = some v → VW K v) {o : List Nat} :
    (ifElseP s e : Prog F S _).Within gr VW K o := by
  unfold ifElseP
  split
  · exact within_null
  · exact within_null
  · refine (within_anyFieldP hs (he _ rfl)).bind mono_VW (fun L t hL ht => ?_)
    split
    · exact ⟨⟨vw_obj.1 ht, hL.sc hs⟩, fun L r hL hr => hr⟩
    · exact ht

theorem within_ifThenP {s : Nat} (hs : K.sc s) {t e : Option (V F)} (ht : ∀ v, t = some v → VW K v)
    (he : ∀ v, e = some v → VW K v) {o : List Nat} :
    (ifThenP s t e : Prog F S _).Within gr VW K o := by
  unfold ifThenP
  split
  · exact within_null
  · exact within_null
  · refine (within_anyFieldP hs (ht _ rfl)).bind mono_VW (fun L t hL ht => ?_)
    split
    · refine within_call_bind.2 ⟨⟨vw_obj.1 ht, hL.sc hs⟩, fun M x hM hx => ?_⟩
      have hx : VW M x := hx
      split
      · exact hx
      · exact within_ifElseP ((hL.trans hM).sc hs) (fun v hv => VW.mono (hL.trans hM) (he v hv))
    · exact ht

theorem within_log {α : Type} {Q : Know → α → Prop} {m : Str} {a : α} (h : Q K a) {o : List Nat} :
    (do prim (.log m); pure a : Prog F S α).Within gr Q K o := h

/-- The truth test of a host. -/
def TruthW (gr : Bool) (truth : V F → Nat → Prog F S Bool) : Prop :=
  ∀ (K : Know) v s o, K.sc s → VW K v → (truth v s).Within gr QT K o

theorem within_ifFnP {truth : V F → Nat → Prog F S Bool} (ht : TruthW gr truth) {s : Nat} (hs : K.sc s)
    {args : OD (V F)} (ha : QD K args) {o : List Nat} : (ifFnP truth s args).Within gr VW K o := by
  unfold ifFnP
  split
  · exact within_log (show VW (F := F) K .null from vw_null)
  · rename_i c hc
    refine (within_anyFieldP hs (ha.get hc)).bind mono_VW (fun L c hL hc => ?_)
    split
    · exact within_log (show VW (F := F) L .null from vw_null)
    · refine (ht L c s o (hL.sc hs) hc).bind mono_VW (fun M b hM _ => ?_)
      have ha' := QD.mono (hL.trans hM) ha
      split
      · exact within_ifThenP ((hL.trans hM).sc hs) (fun v hv => ha'.get hv) (fun v hv => ha'.get hv)
      · exact within_ifElseP ((hL.trans hM).sc hs) (fun v hv => ha'.get hv)

theorem within_toRowP {s : Nat} (hs : K.sc s) {v : V F} (hv : VW K v) {o : List Nat} :
    (toRowP s v : Prog F S _).Within gr VW K o := by
  refine within_call_bind.2 ⟨⟨hv, hs⟩, fun L (ms : List Str) hL _ => within_pure ?_⟩
  split
  · exact vw_dict.2 (fun p hp => by rw [List.mem_singleton.1 hp]; exact VW.mono hL hv)
  · exact VW.mono hL hv

theorem within_wrapEvalP {s : Nat} (hs : K.sc s) {v : V F} (hv : VW K v) {o : List Nat} :
    (wrapEvalP s v : Prog F S _).Within gr QL K o := by
  unfold wrapEvalP
  split
  · rename_i l
    exact within_mapP (P := fun L (v : V F) => VW L v ∧ L.sc s) (Q := VW) (fun _ _ _ h hp => ⟨VW.mono h hp.1, h.sc hp.2⟩) mono_VW
      (fun L a ha => within_toRowP ha.2 ha.1) _ (fun a ha => ⟨vw_arr.1 hv a (List.mem_filter.1 ha).1, hs⟩)
  · exact within_pure (fun v hv => nomatch hv)
  · exact (within_toRowP hs hv).bind mono_QL (fun L r hL hr => within_pure (fun v hv => by rw [List.mem_singleton.1 hv]; exact hr))

theorem within_evalBranchP {s : Nat} (hs : K.sc s) {v : V F} (hv : VW K v) {o : List Nat} :
    (evalBranchP s v : Prog F S _).Within gr QL K o := by
  unfold evalBranchP
  split
  · exact ⟨⟨hv, hs⟩, fun L r hL hr => hr⟩
  · exact within_wrapEvalP hs hv

theorem within_ifPluginP {truth : V F → Nat → Prog F S Bool} (ht : TruthW gr truth) {s : Nat} (hs : K.sc s)
    {args : OD (V F)} (ha : QD K args) {o : List Nat} : (ifPluginP truth s args).Within gr QL K o := by
  have hnil : ∀ L : Know, QL (F := F) L [] := fun L v hv => nomatch hv
  unfold ifPluginP
  split
  · exact within_log (hnil _)
  · rename_i c hc
    refine (within_anyFieldP hs (ha.get hc)).bind mono_QL (fun L c hL hc => ?_)
    split
    · exact within_log (hnil _)
    · rename_i t htt
      refine (within_reduceP (VW.mono hL (ha.get htt))).bind mono_QL (fun M t hM ht' => ?_)
      have hmo : Mono (fun L (e : Option (V F)) => ∀ v, e = some v → VW L v) := fun _ _ _ h hp v hv => VW.mono h (hp v hv)
      have he : (optQueryP (OD.get args (bs "else")) : Prog F S _).Within gr (fun L e => ∀ v, e = some v → VW L v) M o := by
        unfold optQueryP
        split
        · exact within_pure (fun v hv => nomatch hv)
        · rename_i v hv
          exact (within_reduceP (VW.mono (hL.trans hM) (ha.get hv))).bind hmo
            (fun N q hN hq => within_pure (fun v hv => by cases hv; exact hq))
      refine he.bind mono_QL (fun N e hN he => ?_)
      have hKN := (hL.trans hM).trans hN
      split
      · exact within_log (hnil _)
      · refine (ht N c s o (hKN.sc hs) (VW.mono (hM.trans hN) hc)).bind mono_QL (fun P b hP _ => ?_)
        have hKP := hKN.trans hP
        split
        · exact within_evalBranchP (hKP.sc hs) (VW.mono (hN.trans hP) ht')
        · split
          · exact within_evalBranchP (hKP.sc hs) (VW.mono hP (he _ rfl))
          · exact within_pure (hnil _)

variable [FloatOps F]

theorem within_optFieldP {s : Nat} (hs : K.sc s) {v : Option (V F)} (hv : ∀ x, v = some x → VW K x) {o : List Nat} :
    (optFieldP s v : Prog F S _).Within gr VW K o := by
  unfold optFieldP
  split
  · exact within_null
  · exact within_anyFieldP hs (hv _ rfl)

omit [FloatOps F] in
theorem CtxW.set {c : AggCtx F Obj} (h : CtxW K c) (k : Str) {x : Cell F Obj} (hx : CW K x) : CtxW K (OD.set c k x) := by
  intro p hp
  simp only [OD.set, OD.erase, List.mem_append, List.mem_filter, List.mem_singleton] at hp
  rcases hp with hp | rfl
  · exact h p hp.1
  · exact hx

omit [FloatOps F] in
theorem CtxW.get {c : AggCtx F Obj} (h : CtxW K c) {k : Str} {x : Cell F Obj} (hx : OD.get c k = some x) : CW K x :=
  h _ (OD.mem_of_get hx)

omit [FloatOps F] in
theorem CW.toVal {x : Cell F Obj} (h : CW K x) : VW K x.toVal := by
  cases x with
  | val v => exact h
  | items l => exact vw_arr.2 h
  | _ => simp [Cell.toVal]

theorem vw_of_data : ∀ {v : V F}, Data v → VW K v := by
  have : ∀ n, (∀ v : V F, sizeOf v ≤ n → Data v → VW K v) := by
    intro n
    induction n with
    | zero => intro v hn; cases v <;> simp at hn
    | succ n ih =>
      intro v hn hv
      match v, hv with
      | .null, hv | .bool _, hv | .int _, hv | .float _, hv | .str _, hv | .time _, hv => simp
      | .arr l, hv =>
        refine vw_arr.2 (fun x hx => ih x ?_ (dataL_iff.1 (by simpa [Data] using hv) x hx))
        have := List.sizeOf_lt_of_mem hx
        simp at hn
        omega
      | .dict d, hv =>
        refine vw_dict.2 (fun p hp => ih p.2 ?_ (dataD_iff.1 (by simpa [Data] using hv) p hp))
        have := List.sizeOf_lt_of_mem hp
        obtain ⟨k, x⟩ := p
        simp at hn this ⊢
        omega
  exact fun {v} => this _ v (Nat.le_refl _)

/-- An argument an aggregate function may store. -/
def AggArg (gr : Bool) (K : Know) (v : V F) : Prop := (gr = false ∧ VW K v) ∨ Data v

/-- One call of an aggregate function: the values it may store are known, or it does not store
its argument. -/
theorem agW_call {W : World F Obj} {id : Str} {op : AggOp F Obj}
    (h : match op with | .min v => AggArg gr K v | .max v => AggArg gr K v | .enumerate v => AggArg gr K v | _ => True) :
    AgW gr K (fun ctx => ((aggCall W ctx id op).2.toVal, (aggCall W ctx id op).1)) := by
  intro L hL ctx hc
  have key : ∀ f : Option (Cell F Obj) → Cell F Obj, (∀ x, (∀ y, x = some y → CW L y) → CW L (f x)) →
      VW L (ctx.modify id f).2.toVal ∧ CtxW L (ctx.modify id f).1 := by
    intro f hf
    have := hf (OD.get ctx id) (fun y hy => hc.get hy)
    exact ⟨this.toVal, hc.set id this⟩
  cases op with
  | count =>
    refine key _ (fun x hx => ?_)
    unfold countMod
    split <;> trivial
  | sum i =>
    cases i with
    | none => exact ⟨vw_null, hc⟩
    | some i =>
      refine key _ (fun x hx => ?_)
      unfold sumMod
      split <;> trivial
  | min v =>
    have hv : VW L v := h.elim (fun h => VW.mono (hL h.1) h.2) vw_of_data
    refine key _ (fun x hx => ?_)
    unfold minMod
    split
    · exact hv
    · split
      · exact hx _ rfl
      · exact hv
  | max v =>
    have hv : VW L v := h.elim (fun h => VW.mono (hL h.1) h.2) vw_of_data
    refine key _ (fun x hx => ?_)
    unfold maxMod
    split
    · exact hv
    · split
      · exact hx _ rfl
      · exact hv
  | enumerate v =>
    have hv : VW L v := h.elim (fun h => VW.mono (hL h.1) h.2) vw_of_data
    refine key _ (fun x hx => ?_)
    unfold enumMod
    split
    · intro y hy
      rw [List.mem_singleton.1 hy]
      exact hv
    · intro y hy
      rcases List.mem_append.1 hy with hy | hy
      · exact hx _ rfl y hy
      · rw [List.mem_singleton.1 hy]
        exact hv
    · trivial

theorem within_itemsFnP {W : World F Obj} {op : V F → AggOp F Obj} {node s : Nat} (hs : K.sc s) {args : OD (V F)}
    (ha : QD K args) (h : ∀ (L : Know) v, VW L v → match op v with
      | .min v => AggArg gr L v | .max v => AggArg gr L v | .enumerate v => AggArg gr L v | _ => True)
    {o : List Nat} : (itemsFnP W op node s args : Prog F S _).Within gr VW K o := by
  refine (within_optFieldP hs (fun x hx => ha.get hx)).bind mono_VW (fun L v hL hv => ?_)
  split
  · exact within_log (show VW (F := F) L .null from vw_null)
  · exact ⟨hL.sc hs, agW_call (h L v hv), fun M r hM hr => hr⟩

omit [FloatOps F] in
theorem vw_convert {v : V F} (h : VW K v) : ∀ x ∈ convertToSlice v, VW K x := by
  unfold convertToSlice
  split
  · exact vw_arr.1 h
  · exact vw_query.1 h
  · intro x hx
    rw [List.mem_singleton.1 hx]
    exact h

theorem vw_add {a b : V F} (ha : VW K a) (hb : VW K b) : VW K (addV {} a b) := by
  unfold addV
  split
  · next h =>
    unfold addSwitch at h
    split at h
    · split at h
      · cases h; split <;> simp
      · cases h
    · cases h; simp
    · unfold intAdd at h
      (repeat' split at h) <;> (cases h <;> simp)
    · cases hb : b.toFloat with
      | none => rw [hb] at h; cases h
      | some g => rw [hb] at h; cases h; simp
    · cases h
  · simp only [search2]
    split
    · next h =>
      unfold storedQueryAdd at h
      split at h
      · cases h
        refine vw_arr.2 (fun x hx => ?_)
        rcases List.mem_append.1 hx with hx | hx
        · exact vw_query.1 ha x hx
        · exact vw_query.1 hb x hx
      · cases h
    · split
      · refine vw_arr.2 (fun x hx => ?_)
        rcases List.mem_append.1 hx with hx | hx
        · exact vw_convert ha x hx
        · exact vw_convert hb x hx
      · simp

theorem vw_index {a : V F} {k : Key F Obj} (ha : VW K a) : VW K (defaultAssocFlat a k).1 := by
  unfold defaultAssocFlat
  (repeat' split) <;> try (simp; done)
  · next l _ v h => exact vw_arr.1 ha _ (mem_index h)
  · next l _ r h => exact vw_arr.2 (fun v hv => vw_arr.1 ha v (mem_range h hv))

theorem within_stdTruth {W : World F Obj} : TruthW gr (stdTruth W : V F → Nat → Prog F S Bool) :=
  fun K v s o hs hv => (within_reduceP hv).bind mono_QT (fun _ _ _ _ => trivial)

theorem within_stdFn {W : World F Obj} {name : Str} (h : gr = false ∨ name ≠ bs "enumerate") {node s : Nat} (hs : K.sc s)
    {args : OD (V F)} (ha : QD K args) : (stdFn W (stdTruth W) name node s args : Prog F S _).Within gr VW K [] := by
  unfold stdFn
  split
  · exact within_ifFnP within_stdTruth hs ha
  · split
    · exact within_pure (vw_obj.2 hs)
    · split
      · exact within_itemsFnP hs ha (fun _ _ _ => trivial)
      · split
        · rename_i e
          exact within_itemsFnP (op := .enumerate) hs ha (fun L v hv => .inl ⟨h.resolve_right (fun h => h e), hv⟩)
        · exact within_null

/-- The host without `enumerate()`. -/
def noEnum (H : Host F S) : Host F S :=
  { H with fn := fun name node s args => if name = bs "enumerate" then pure .null else H.fn name node s args }

section
variable {matchF : V F → V F → Bool} {fmtV : V F → Str} {colName : Col → Str}
    {num : Str → Option (V F)} {sources : OD (List (V F))}

theorem stdHost_within_of (hok : StdOK num sources)
    {fn : Str → Nat → Nat → OD (V F) → Prog F S (V F)}
    (hfn : ∀ (K : Know) n node s args, K.sc s → QD K args → (fn n node s args).Within gr VW K []) :
    ({ (stdHost {} matchF fmtV colName num sources : Host F S) with fn := fn }).Within gr where
  fn := hfn
  plugin K n s args hs ha := by
    show Prog.Within gr QL (ite _ _ _) K []
    split
    · exact within_ifPluginP within_stdTruth hs ha
    · split
      · exact within_pure (fun v hv => by rw [List.mem_singleton.1 hv]; exact vw_obj.2 hs)
      · refine within_pure ?_
        cases h : OD.get sources n with
        | none => exact fun v hv => nomatch hv
        | some l => exact fun v hv => vw_of_data (dataL_iff.1 (hok.sources _ (OD.mem_of_get h)) v hv)
  arith K op a b s hs ha hb := by
    refine (within_reduceP ha).bind mono_VW (fun L a hL ha => ?_)
    cases op with
    | add => exact (within_reduceP (VW.mono hL hb)).bind mono_VW (fun M b hM hb => within_pure (vw_add (VW.mono hM ha) hb))
    | sub => exact (within_reduceP (VW.mono hL hb)).bind mono_VW (fun M b hM hb => within_pure (vw_of_data data_sub))
    | mul =>
      refine (within_reduceP (VW.mono hL hb)).bind mono_VW (fun M b hM hb => within_pure ?_)
      split
      · next h => exact vw_of_data (data_mul h)
      · simp
    | div => exact within_pure (vw_of_data data_div)
  rel K op a b s hs ha hb := (within_reduceP ha).bind mono_QT (fun L a hL _ =>
    (within_reduceP (VW.mono hL hb)).bind mono_QT (fun _ _ _ _ => trivial))
  truth K v s hs hv := within_stdTruth K v s [] hs hv
  toStr K v s hs hv := (within_reduceP hv).bind mono_QT (fun _ _ _ _ => trivial)
  sort K k d rows s hs hr := within_pure (fun v hv => hr v ((insertionSort_perm _ _).mem_iff.1 hv))
  assocImpl K a k s p hs ha hk h := nomatch h
  assocDefault K a k s hs ha hk := within_pure (qo_some (vw_index ha))
  hostMembers K v s hs hv := trivial
  num t v h := vw_of_data (hok.num t v h)

/-- The built-in host uses only what it is given. -/
theorem stdHost_within (hok : StdOK num sources) :
    (stdHost {} matchF fmtV colName num sources : Host F S).Within false :=
  stdHost_within_of (gr := false) hok (fn := stdFn {} (stdTruth {}))
    (fun K n node s args hs ha => within_stdFn (Or.inl rfl) hs ha)

/-- Without `enumerate()` no aggregate function stores its argument. -/
theorem noEnum_within (hok : StdOK num sources) :
    (noEnum (stdHost {} matchF fmtV colName num sources) : Host F S).Within true :=
  stdHost_within_of (gr := true) hok (fun K n node s args hs ha => by
    split
    · exact within_null
    · rename_i h
      exact within_stdFn (Or.inr h) hs ha)

end

end
end Vfilter.Vql
