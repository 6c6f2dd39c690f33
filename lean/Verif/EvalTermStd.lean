import Verif.EvalTerm
import Verif.EvalDemo
/-!
# The built-in functions, plugins and operators finish

`stdHost` with no registered operator implementations: everything but `scope()` and
`enumerate()` (which hand out scopes, or whatever was collected) belongs to the fragment of
`Verif.EvalTerm`.
-/
set_option linter.all false

namespace Vfilter.Vql

section
variable {F S : Type} [FloatOps F] {G : Frag} {H : Host F S}

omit [FloatOps F] in
theorem data_scalar_arr {l : List (V F)} : Data (.arr l : V F) ↔ DataL l := by simp [Data]

omit [FloatOps F] in
theorem convert_data {v : V F} (h : Data v) : DataL (convertToSlice v) := by
  cases v <;> simp_all [convertToSlice, Data, DataL]

theorem data_addSwitch {a b r : V F} (h : addSwitch a b = some r) : Data r := by
  unfold addSwitch at h
  split at h
  · split at h
    · cases h; split <;> simp [Data]
    · cases h
  · cases h; simp [Data]
  · unfold intAdd at h
    (repeat' split at h) <;> (cases h <;> simp [Data])
  · cases hb : b.toFloat with
    | none => rw [hb] at h; cases h
    | some g => rw [hb] at h; cases h; simp [Data]
  · cases h

theorem data_add {a b : V F} (ha : Data a) (hb : Data b) : Data (addV {} a b) := by
  unfold addV
  split
  · next h => exact data_addSwitch h
  · simp only [search2]
    have : storedQueryAdd a b = none := by
      cases a <;> simp_all [storedQueryAdd, Data]
    rw [this]
    simp only
    split
    · simp only [Data]
      exact dataL_append (convert_data ha) (convert_data hb)
    · simp [Data]

theorem data_sub {a b : V F} : Data (subV {} a b) := by
  unfold subV
  simp only [search2, Option.getD_none]
  (repeat' split) <;> simp [Data]

theorem data_mul {a b v : V F} (h : mulV {} a b = .ok v) : Data v := by
  unfold mulV at h
  simp only [search2, Option.getD_none] at h
  (repeat' split at h) <;> (cases h <;> simp [Data])

theorem data_div {a b : Opnd F Obj} : Data (divV {} a b) := by
  unfold divV
  simp only [search2, Option.getD_none]
  (repeat' split) <;> simp [Data]

theorem ends_reduce {v : V F} {st : St F S} (hv : Data v) : Ends G H (reduceP v) st Data := by
  match v, hv with
  | .null, hv | .bool _, hv | .int _, hv | .float _, hv | .str _, hv | .time _, hv | .arr _, hv | .dict _, hv =>
    exact ends_pure hv

theorem ends_anyField {v : V F} {s : Nat} {st : St F S} (hv : ArgOK G H st v) (hf : FnsOK G st) :
    Ends G H (anyFieldP s v) st Data := by
  rcases hv with hv | ⟨c, rfl, hc⟩
  · match v, hv with
    | .null, hv | .bool _, hv | .int _, hv | .float _, hv | .str _, hv | .time _, hv | .arr _, hv | .dict _, hv =>
      exact ends_pure hv
  · exact (hc st (Ext.refl _) hf).1 s

theorem ends_truth {W : World F Obj} {v : V F} {s : Nat} {st : St F S} (hv : Data v) :
    Ends G H (stdTruth W v s) st (fun _ => True) :=
  (ends_reduce hv).bind (fun _ _ _ _ => ends_pure trivial)

theorem not_lazy {v : V F} (hv : Data v) {α : Type} {p : Nat → α} {q : V F → α} :
    (match v with | .obj (.lazy c) => p c | t => q t) = q v := by
  match v, hv with
  | .null, hv | .bool _, hv | .int _, hv | .float _, hv | .str _, hv | .time _, hv | .arr _, hv | .dict _, hv => rfl

theorem ends_ifElse {s : Nat} {els : Option (V F)} {st : St F S} (he : ∀ v, els = some v → ArgOK G H st v)
    (hf : FnsOK G st) : Ends G H (ifElseP s els) st Data := by
  unfold ifElseP
  split
  · exact ends_pure (by simp [Data])
  · exact ends_pure (by simp [Data])
  · refine (ends_anyField (he _ rfl) hf).bind (fun t s1 x1 ht => ?_)
    split
    · simp [Data] at ht
    · exact ends_pure ht

theorem ends_ifThen {s : Nat} {thn els : Option (V F)} {st : St F S} (ht : ∀ v, thn = some v → ArgOK G H st v)
    (hf : FnsOK G st) : Ends G H (ifThenP s thn els) st Data := by
  unfold ifThenP
  split
  · exact ends_pure (by simp [Data])
  · exact ends_pure (by simp [Data])
  · refine (ends_anyField (ht _ rfl) hf).bind (fun t s1 x1 ht => ?_)
    split
    · simp [Data] at ht
    · exact ends_pure ht

theorem ends_ifFn {W : World F Obj} {s : Nat} {args : OD (V F)} {st : St F S}
    (ha : ∀ p ∈ args, ArgOK G H st p.2) (hf : FnsOK G st) : Ends G H (ifFnP (stdTruth W) s args) st Data := by
  unfold ifFnP
  split
  · exact ends_prim (ext_eq rfl rfl rfl rfl) (ends_pure (by simp [Data]))
  · next c hc =>
    refine (ends_anyField (ha _ (OD.mem_of_get hc)) hf).bind (fun c s1 x1 hc => ?_)
    split
    · exact ends_prim (ext_eq rfl rfl rfl rfl) (ends_pure (by simp [Data]))
    · refine (ends_truth hc).bind (fun b s2 x2 _ => ?_)
      have hx := x1.trans x2
      split
      · exact ends_ifThen (fun v hv => (ha _ (OD.mem_of_get hv)).ext hx) (hx.fns hf)
      · exact ends_ifElse (fun v hv => (ha _ (OD.mem_of_get hv)).ext hx) (hx.fns hf)

omit [FloatOps F] in
theorem ext_ag (st : St F S) (s : Nat) (f : AggCtx F Obj → V F × AggCtx F Obj) :
    Ext G st ((Prim.ag s f : Prim F S).step st).2 := by
  have h : Ext G st (st.getAg s).2 := by
    unfold St.getAg
    simp only
    split
    · exact Ext.refl _
    · exact (ext_setAg st _ _).trans (ext_eq rfl rfl rfl rfl)
  exact h.trans (ext_eq rfl rfl rfl rfl)

theorem ends_count {W : World F Obj} {node s : Nat} {args : OD (V F)} {st : St F S}
    (ha : ∀ p ∈ args, ArgOK G H st p.2) (hf : FnsOK G st) :
    Ends G H (itemsFnP W (fun _ => .count) node s args) st Data := by
  unfold itemsFnP
  have hopt : Ends G H (optFieldP s (OD.get args (bs "items"))) st Data := by
    unfold optFieldP
    split
    · exact ends_pure (by simp [Data])
    · next v hv => exact ends_anyField (ha _ (OD.mem_of_get hv)) hf
  refine hopt.bind (fun item s1 x1 _ => ?_)
  split
  · exact ends_prim (ext_eq rfl rfl rfl rfl) (ends_pure (by simp [Data]))
  · refine ⟨_, _, runs_prim.2 ⟨rfl, rfl⟩, ext_ag s1 s _, ?_⟩
    simp only [Prim.step, aggCall, AggCtx.modify]
    generalize Vfilter.OD.get _ _ = o
    unfold countMod
    (repeat' split) <;> simp [Cell.toVal, Data]

theorem ends_toRow {s : Nat} {v : V F} {st : St F S} (hv : Data v)
    (hm : ∀ st, Ends G H (call (.members v s)) st (fun _ => True)) : Ends G H (toRowP s v) st Data := by
  unfold toRowP
  refine (hm st).bind (fun ms s1 x1 _ => ends_pure ?_)
  split
  · simp [Data, DataD, hv]
  · exact hv

/-- What the built-in host needs: its constants are data. -/
structure StdOK (num : Str → Option (V F)) (sources : OD (List (V F))) : Prop where
  num : ∀ t v, num t = some v → Data v
  sources : ∀ p ∈ sources, DataL p.2

/-- Everything but `scope()` and `enumerate()`. -/
def stdFrag (isQ : Str → Prop) : Frag where
  okFn n := n ≠ bs "scope" ∧ n ≠ bs "enumerate"
  okPlugin n := n ≠ bs "scope"
  isQ := isQ

omit [FloatOps F] in
theorem mem_index {l : List (V F)} {i : I64} {v : V F} (h : indexOf l i = some v) : v ∈ l := by
  have hg : ∀ j, goIndex l j = some v → v ∈ l := by
    intro j hj
    unfold goIndex at hj
    split at hj
    · exact List.mem_of_getElem? hj
    · cases hj
  unfold indexOf at h
  simp only at h
  generalize (if BitVec.toInt i < 0 then BitVec.ofNat 64 l.length + i else i) = j at h
  split at h
  · cases h
  · exact hg _ h

omit [FloatOps F] in
theorem mem_range {l r : List (V F)} {a b : Option I64} {v : V F} (h : rangeOf l a b = some r) (hv : v ∈ r) :
    v ∈ l := by
  unfold rangeOf at h
  simp only at h
  split at h
  · cases h; cases hv
  · unfold goSlice at h
    split at h
    · cases h
      exact List.mem_of_mem_drop (List.mem_of_mem_take hv)
    · cases h

theorem data_index {a : V F} {k : Key F Obj} (ha : Data a) : Data (defaultAssocFlat a k).1 := by
  unfold defaultAssocFlat
  (repeat' split) <;> try (simp [Data]; done)
  · next l _ v h => exact dataL_iff.1 (by simpa [Data] using ha) _ (mem_index h)
  · next l _ r h =>
    simp only [Data]
    have := dataL_iff.1 (by simpa [Data] using ha : DataL l)
    exact dataL_iff.2 (fun v hv => this v (mem_range h hv))

theorem stdHost_members {matchF : V F → V F → Bool} {fmtV : V F → Str} {colName : Col → Str}
    {num : Str → Option (V F)} {sources : OD (List (V F))} : ∀ (v : V F) (s : Nat) (st : St F S), Data v →
    Ends G (stdHost {} matchF fmtV colName num sources : Host F S) (call (.members v s)) st (fun _ => True)
  | .null, s, st, hv | .dict _, s, st, hv => by
    refine ends_call ?_
    simp only [body]
    exact ends_pure trivial
  | .arr (x :: l), s, st, hv => by
    refine ends_call ?_
    simp only [body]
    exact stdHost_members x s st (by simp only [Data, DataL] at hv; exact hv.1)
  | .arr [], s, st, hv | .bool _, s, st, hv | .int _, s, st, hv | .float _, s, st, hv | .str _, s, st, hv
  | .time _, s, st, hv => by
    refine ends_call ?_
    simp only [body]
    exact ends_pure trivial

theorem ends_ifPlugin {W : World F Obj} {matchF : V F → V F → Bool} {fmtV : V F → Str} {colName : Col → Str}
    {num : Str → Option (V F)} {sources : OD (List (V F))} {s : Nat} {args : OD (V F)} {st : St F S}
    (ha : DataD args) : Ends G (stdHost {} matchF fmtV colName num sources : Host F S)
      (ifPluginP (stdTruth W) s args) st DataL := by
  have hrow : ∀ (v : V F) st, Data v → Ends G (stdHost {} matchF fmtV colName num sources : Host F S)
      (evalBranchP s v) st DataL := by
    intro v st hv
    unfold evalBranchP
    rw [hv.notQuery]
    simp only [Bool.false_eq_true, if_false]
    unfold wrapEvalP
    split
    · next l =>
      refine (ends_mapP (I := Data) (fun a s1 ha' x1 => ?_)).mono (fun r hr => dataL_iff.2 hr)
      have := dataL_iff.1 (by simpa [Data] using hv : DataL l) a (List.mem_filter.1 ha').1
      exact ends_toRow this (fun st => stdHost_members a s st this)
    · exact ends_pure (by simp [DataL])
    · exact (ends_toRow hv (fun st => stdHost_members v s st hv)).bind
        (fun r s1 _ hr => ends_pure (by simp [DataL, hr]))
  have hget : ∀ k v, OD.get args k = some v → Data v := fun k v h => dataD_iff.1 ha _ (OD.mem_of_get h)
  have hany : ∀ (v : V F) st, Data v → Ends G (stdHost {} matchF fmtV colName num sources : Host F S)
      (anyFieldP s v) st Data := by
    intro v st hv
    match v, hv with
    | .null, hv | .bool _, hv | .int _, hv | .float _, hv | .str _, hv | .time _, hv | .arr _, hv | .dict _, hv =>
      exact ends_pure hv
  unfold ifPluginP
  split
  · exact ends_prim (ext_eq rfl rfl rfl rfl) (ends_pure (by simp [DataL]))
  · next c hc =>
    refine (hany c st (hget _ _ hc)).bind (fun c s1 x1 hc => ?_)
    split
    · exact ends_prim (ext_eq rfl rfl rfl rfl) (ends_pure (by simp [DataL]))
    · next t ht =>
      unfold toQueryP
      refine (ends_reduce (hget _ _ ht)).bind (fun t s2 x2 ht => ?_)
      have hopt : Ends G (stdHost {} matchF fmtV colName num sources : Host F S)
          (optQueryP (OD.get args (bs "else"))) s2 (fun r => ∀ v, r = some v → Data v) := by
        unfold optQueryP
        split
        · exact ends_pure (by simp)
        · next v hv =>
          unfold toQueryP
          exact (ends_reduce (hget _ _ hv)).bind (fun v s3 x3 hv => ends_pure (by simpa using hv))
      refine hopt.bind (fun e s3 x3 he => ?_)
      split
      · exact ends_prim (ext_eq rfl rfl rfl rfl) (ends_pure (by simp [DataL]))
      · refine (ends_truth hc).bind (fun b s4 x4 _ => ?_)
        split
        · exact hrow t s4 ht
        · split
          · exact hrow _ s4 (he _ rfl)
          · exact ends_pure (by simp [DataL])

/-- The built-in host finishes on data. -/
theorem stdHost_total {matchF : V F → V F → Bool} {fmtV : V F → Str} {colName : Col → Str}
    {num : Str → Option (V F)} {sources : OD (List (V F))} (hok : StdOK num sources) (isQ : Str → Prop) :
    Total (stdFrag isQ) (stdHost {} matchF fmtV colName num sources : Host F S) where
  arith op a b s st ha hb := by
    refine (ends_reduce ha).bind (fun a s1 x1 ha => ?_)
    cases op with
    | add => exact (ends_reduce hb).bind (fun b s2 x2 hb => ends_pure (data_add ha hb))
    | sub => exact (ends_reduce hb).bind (fun b s2 x2 hb => ends_pure data_sub)
    | mul =>
      refine (ends_reduce hb).bind (fun b s2 x2 hb => ends_pure ?_)
      split
      · next h => exact data_mul h
      · simp [Data]
    | div => exact ends_pure data_div
  rel op a b s st ha hb :=
    (ends_reduce ha).bind (fun a s1 x1 ha => (ends_reduce hb).bind (fun b s2 x2 hb => ends_pure trivial))
  truth v s st hv := ends_truth (s := s) hv
  toStr v s st hv := (ends_reduce hv).bind (fun v s1 _ hv => ends_pure trivial)
  sort k d rows s st hr := ends_pure (dataL_iff.2 (fun v hv =>
    dataL_iff.1 hr v ((insertionSort_perm _ _).mem_iff.1 hv)))
  assocImpl a k s p ha hk h := nomatch h
  assocDefault a k s st ha hk := ends_pure (by simpa [AnsData] using data_index ha)
  hostMembers v s st hv := ends_pure trivial
  num := hok.num
  fn f hf node s args st ha hfn := by
    show Ends _ _ (stdFn {} (stdTruth {}) f node s args) st Data
    unfold stdFn
    split
    · exact ends_ifFn ha hfn
    · rw [if_neg hf.1]
      split
      · exact ends_count ha hfn
      · rw [if_neg hf.2]
        exact ends_pure (by simp [Data])
  plugin n hn s args st ha hfn := by
    show Ends _ _ (ite _ _ _) st DataL
    split
    · exact ends_ifPlugin ha
    · rw [if_neg hn]
      refine ends_pure ?_
      cases hs : OD.get sources n with
      | none => simp [DataL]
      | some l => exact hok.sources _ (OD.mem_of_get hs)

end
end Vfilter.Vql
