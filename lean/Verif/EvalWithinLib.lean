import Verif.EvalLib
import Verif.EvalWithinStd
/-!
# The package's functions and plugins stay within what they are given

`libHost` with no registered operator implementations satisfies `Host.Within`.  The aggregate
functions `min`, `max` and `enumerate` store their argument; `plainAgg` lets them store plain data
only.
-/
set_option linter.all false

namespace Vfilter.Vql

section
variable {F S : Type} [FloatOps F] {gr : Bool} {K : Know}

omit [FloatOps F] in
theorem within_forceP {s : Nat} (hs : K.sc s) {v : V F} (hv : VW K v) {o : List Nat} :
    (forceP s v : Prog F S _).Within gr VW K o := by
  unfold forceP
  split
  · exact (within_materializeP hs hv).bind mono_VW (fun L r hL hr => within_pure (vw_query.2 hr))
  · exact hv

theorem within_libTruth : TruthW gr (libTruth {} : V F → Nat → Prog F S Bool) :=
  fun K v s o hs hv => (within_reduceP hv).bind mono_QT (fun L v hL hv =>
    (within_forceP (hL.sc hs) hv).bind mono_QT (fun _ _ _ _ => trivial))

theorem within_stdArith {op : Arith} {s : Nat} (hs : K.sc s) {a b : V F} (ha : VW K a) (hb : VW K b) {o : List Nat} :
    (stdArith {} op a b s : Prog F S _).Within gr VW K o := by
  refine (within_reduceP ha).bind mono_VW (fun L a hL ha => ?_)
  cases op with
  | add => exact (within_reduceP (VW.mono hL hb)).bind mono_VW (fun M b hM hb => within_pure (vw_add (VW.mono hM ha) hb))
  | sub => exact (within_reduceP (VW.mono hL hb)).bind mono_VW (fun M b hM hb => within_pure (vw_of_data data_sub))
  | mul =>
    refine (within_reduceP (VW.mono hL hb)).bind mono_VW (fun M b hM hb => within_pure ?_)
    split
    · next h => exact vw_of_data (data_mul h)
    · simp
  | div => exact within_pure (vw_of_data data_div)

theorem within_libArith {op : Arith} {s : Nat} (hs : K.sc s) {a b : V F} (ha : VW K a) (hb : VW K b) {o : List Nat} :
    (libArith {} op a b s : Prog F S _).Within gr VW K o := by
  cases op with
  | add =>
    refine (within_reduceP ha).bind mono_VW (fun L a hL ha => ?_)
    refine (within_reduceP (VW.mono hL hb)).bind mono_VW (fun M b hM hb => ?_)
    split
    · refine (within_forceP ((hL.trans hM).sc hs) (VW.mono hM ha)).bind mono_VW (fun N a hN ha => ?_)
      refine (within_forceP (((hL.trans hM).trans hN).sc hs) (VW.mono hN hb)).bind mono_VW (fun P b hP hb => ?_)
      exact within_pure (vw_add (VW.mono hP ha) hb)
    · exact within_pure (vw_add (VW.mono hM ha) hb)
  | sub => exact show (stdArith {} .sub a b s : Prog F S _).Within gr VW K o from within_stdArith hs ha hb
  | mul => exact show (stdArith {} .mul a b s : Prog F S _).Within gr VW K o from within_stdArith hs ha hb
  | div => exact show (stdArith {} .div a b s : Prog F S _).Within gr VW K o from within_stdArith hs ha hb

omit [FloatOps F] in
theorem within_rowFieldsP {s : Nat} (hs : K.sc s) {f : V F → Prog F S (V F)} {row : V F} (hr : VW K row) {o : List Nat}
    (h : ∀ L v, K.Le L → VW L v → (f v).Within gr VW L o) : (rowFieldsP s f row).Within gr QD K o := by
  refine within_call_bind.2 ⟨⟨hr, hs⟩, fun L (ms : List Str) hL _ => ?_⟩
  refine within_foldP (P := fun _ _ => True) (Q := QD) (K0 := L) (fun _ _ _ _ h => h) mono_QD (fun M acc m hM ha _ => ?_)
    ms [] (Know.Le.refl L) (by intro p hp; cases hp) (fun _ _ => trivial)
  have hKM := hL.trans hM
  refine within_call_bind.2 ⟨⟨VW.mono hKM hr, kw_str, hKM.sc hs⟩, fun N r hN hret => ?_⟩
  have hret : QA N r := hret
  obtain ⟨x, p⟩ := r
  cases p with
  | true =>
    exact (h N _ (hKM.trans hN) (QA.getD hret)).bind mono_QD (fun P v hP hv =>
      within_pure ((QD.mono (hN.trans hP) ha).set m hv))
  | false => exact within_pure (QD.mono hN ha)

omit [FloatOps F] in
theorem within_normalizeP {s : Nat} {o : List Nat} : ∀ (n : Nat) {K : Know} {v : V F}, K.sc s → VW K v →
    (normalizeP s n v : Prog F S _).Within gr VW K o
  | 0, K, v, _, _ => within_null
  | n + 1, K, v, hs, hv => by
    unfold normalizeP
    split
    · exact within_call_bind.2 ⟨vw_obj.1 hv, fun L r hL hr => within_normalizeP n (hL.sc hs) hr⟩
    · refine (within_mapP (P := fun L (v : V F) => VW L v ∧ L.sc s) (Q := VW)
        (fun _ _ _ h hp => ⟨VW.mono h hp.1, h.sc hp.2⟩) mono_VW (fun L a ha => within_normalizeP n ha.2 ha.1) _
        (fun a ha => ⟨vw_arr.1 hv a ha, hs⟩)).bind mono_VW (fun L l hL hl => within_pure (vw_arr.2 hl))
    · split
      · exact (within_materializeP hs hv).bind mono_VW (fun L r hL hr => within_pure (vw_arr.2 hr))
      · exact hv

omit [FloatOps F] in
theorem within_normalizeArgsP {a : OD (V F)} (ha : QD K a) {o : List Nat} :
    (normalizeArgsP a : Prog F S _).Within gr QD K o := by
  unfold normalizeArgsP
  split
  · exact ha
  · rename_i v hv
    refine (within_reduceP (ha.get hv)).bind mono_QD (fun L v hL hv => ?_)
    split
    · exact within_pure (vw_dict.1 hv)
    · exact within_pure (QD.mono hL ha)

omit [FloatOps F] in
theorem within_elementTextP {fmtV : V F → Str} {s : Nat} (hs : K.sc s) {x : V F} (hx : VW K x) {o : List Nat} :
    (elementTextP fmtV s x : Prog F S _).Within gr QT K o := by
  unfold elementTextP
  split
  · trivial
  · refine within_call_bind.2 ⟨⟨hx, hs⟩, fun L (ms : List Str) hL _ => ?_⟩
    split
    · refine within_call_bind.2 ⟨⟨VW.mono hL hx, kw_str, hL.sc hs⟩, fun M r hM _ => ?_⟩
      obtain ⟨y, p⟩ := r
      cases p with
      | true =>
        dsimp only
        split <;> trivial
      | false => trivial
    · trivial

omit [FloatOps F] in
theorem within_textP {fmtV : V F → Str} {s : Nat} (hs : K.sc s) {x : V F} (hx : VW K x) {o : List Nat} :
    (textP fmtV s x : Prog F S _).Within gr QT K o := by
  unfold textP
  split
  · exact within_elementTextP hs (vw_arr.1 hx _ List.mem_cons_self)
  all_goals trivial

theorem within_fieldP {fmtV : V F → Str} {s : Nat} (hs : K.sc s) {v : V F} (hv : VW K v) (k : FieldKind) {o : List Nat} :
    (fieldP {} fmtV s v k : Prog F S _).Within gr QO K o := by
  cases k with
  | any => exact (within_anyFieldP hs hv).bind mono_QO (fun L v hL hv => within_pure (qo_some hv))
  | int =>
    refine (within_reduceP hv).bind mono_QO (fun L v hL hv => within_pure (fun w hw => ?_))
    cases h : v.toInt64 with
    | none => rw [h] at hw; cases hw
    | some i => rw [h] at hw; cases hw; simp
  | str =>
    exact (within_reduceP hv).bind mono_QO (fun L v hL hv => (within_textP (hL.sc hs) hv).bind mono_QO
      (fun M t hM _ => within_pure (qo_some (by simp))))
  | bool =>
    exact (within_reduceP hv).bind mono_QO (fun L v hL hv => (within_libTruth L v s o (hL.sc hs) hv).bind mono_QO
      (fun M t hM _ => within_pure (qo_some (by simp))))
  | lazy => exact qo_some hv
  | query => exact (within_reduceP hv).bind mono_QO (fun L v hL hv => within_pure (qo_some hv))

/-- The parsed arguments are known. -/
def QOD (K : Know) (r : Option (OD (V F))) : Prop := ∀ a, r = some a → QD K a

omit [FloatOps F] in
theorem mono_QOD : Mono (QOD (F := F)) := fun _ _ _ h hr a ha => QD.mono h (hr a ha)

theorem within_parseFieldsP {fmtV : V F → Str} {s : Nat} {a : OD (V F)} {o : List Nat} :
    ∀ (fs : List ArgField) {K : Know} {acc : OD (V F)}, K.sc s → QD K a → QD K acc →
      (parseFieldsP {} fmtV s a fs acc : Prog F S _).Within gr QOD K o
  | [], K, acc, _, _, hacc => by
    intro b hb
    cases hb
    exact hacc
  | f :: fs, K, acc, hs, ha, hacc => by
    unfold parseFieldsP
    split
    · split
      · exact within_pure (fun b hb => nomatch hb)
      · exact within_parseFieldsP fs hs ha hacc
    · rename_i v hv
      refine (within_fieldP hs (ha.get hv) f.kind).bind mono_QOD (fun L r hL hr => ?_)
      cases r with
      | none => exact within_pure (fun b hb => nomatch hb)
      | some x => exact within_parseFieldsP fs (hL.sc hs) (QD.mono hL ha) ((QD.mono hL hacc).set _ (hr x rfl))

theorem within_parseArgsP {fmtV : V F → Str} {n : Str} {s : Nat} (hs : K.sc s) {fs : List ArgField} {a : OD (V F)}
    (ha : QD K a) {o : List Nat} : (parseArgsP {} fmtV n s fs a : Prog F S _).Within gr QOD K o := by
  refine (within_normalizeArgsP ha).bind mono_QOD (fun L a hL ha => ?_)
  refine (within_parseFieldsP fs (hL.sc hs) ha (by intro p hp; cases hp)).bind mono_QOD (fun M r hM hr => ?_)
  cases r with
  | none => exact within_log (show QOD (F := F) _ none from fun b hb => nomatch hb)
  | some b =>
    dsimp only
    split
    · exact within_log (show QOD (F := F) _ none from fun b hb => nomatch hb)
    · exact within_pure hr

omit [FloatOps F] in
theorem within_getLoopP {s : Nat} {o : List Nat} : ∀ (l : List Str) {K : Know} {v : V F}, K.sc s → VW K v →
    (getLoopP s v l : Prog F S _).Within gr VW K o
  | [], K, v, _, hv => hv
  | m :: l, K, v, hs, hv => by
    unfold getLoopP
    refine within_call_bind.2 ⟨⟨hv, ?_, hs⟩, fun L r hL hr => ?_⟩
    · split <;> simp [KeyW]
    · have hr : QA L r := hr
      obtain ⟨x, p⟩ := r
      cases p with
      | false => exact within_null
      | true => exact within_getLoopP l (hL.sc hs) (QA.getD hr)

theorem vw_iterate {v : V F} (hv : VW K v) : QL K (iterate {} v) := by
  intro x hx
  unfold iterate at hx
  split at hx
  · exact vw_query.1 hv x hx
  · rw [List.mem_singleton.1 hx]; exact hv
  · obtain ⟨y, hy, hs⟩ := List.mem_filterMap.1 hx
    have hy := vw_arr.1 hv y hy
    unfold sliceRow at hs
    split at hs
    · cases hs
    · cases hs; exact hy
    · cases hs
      exact vw_dict.2 (fun p hp => by rw [List.mem_singleton.1 hp]; exact hy)
  · simp only [search1] at hx
    split at hx
    · cases hx
    · rw [List.mem_singleton.1 hx]
      exact vw_dict.2 (fun p hp => by rw [List.mem_singleton.1 hp]; exact hv)

theorem within_iterateP {s : Nat} (hs : K.sc s) {v : V F} (hv : VW K v) {o : List Nat} :
    (iterateP {} s v : Prog F S _).Within gr QL K o := by
  refine (within_reduceP hv).bind mono_QL (fun L v hL hv => ?_)
  split
  · exact ⟨⟨hv, hL.sc hs⟩, fun M r hM hr => hr⟩
  · exact within_pure (vw_iterate hv)

omit [FloatOps F] in
theorem within_foreachRowP {s : Nat} (hs : K.sc s) {k : Str} {q : Option (V F)} (hq : QO K q) {row : V F} (hr : VW K row)
    {o : List Nat} : (foreachRowP s k q row : Prog F S _).Within gr QL K o := by
  have key : ∀ (L : Know) (row : V F), L.sc s → QO L q → VW L row → (match (generalizing := false) q with
      | none => pure [row]
      | some q => do
        let child ← prim (.copy s)
        prim (.append child row)
        evalBranchP child q : Prog F S (List (V F))).Within gr QL L o := by
    intro L row hs hq hr
    cases q with
    | none => exact within_pure (fun v hv => by rw [List.mem_singleton.1 hv]; exact hr)
    | some q =>
      refine within_copy_bind.2 ⟨hs, fun M i hM h1 h2 => ?_⟩
      exact ⟨List.mem_cons_self, VW.mono hM hr, within_evalBranchP h1 (VW.mono hM (hq q rfl))⟩
  unfold foreachRowP
  by_cases hk : k = []
  · simp only [hk, if_true]
    exact key K row hs hq hr
  · simp only [hk, if_false]
    refine within_call_bind.2 ⟨⟨hr, kw_str, hs⟩, fun L r hL hret => ?_⟩
    have hret : QA L r := hret
    obtain ⟨x, p⟩ := r
    cases p with
    | true => exact key L _ (hL.sc hs) (QO.mono hL hq) (QA.getD hret)
    | false => exact key L _ (hL.sc hs) (QO.mono hL hq) vw_null

omit [FloatOps F] in
theorem QD.update {d : OD (V F)} (hd : QD K d) (k : Str) {v : V F} (hv : VW K v) : QD K (OD.update d k v) := by
  intro p hp
  rcases mem_update hp with hp | rfl
  · exact hd p hp
  · exact hv

omit [FloatOps F] in
theorem QD.merge {d e : OD (V F)} (hd : QD K d) (he : QD K e) : QD K (OD.mergeFrom d e) := by
  unfold OD.mergeFrom
  induction e generalizing d with
  | nil => exact hd
  | cons p e ih =>
    exact ih (hd.set p.1 (he p List.mem_cons_self)) (fun q hq => he q (List.mem_cons_of_mem _ hq))

omit [FloatOps F] in
theorem vw_unwrap {v : V F} (hv : VW K v) : VW K (unwrapMember v) := by
  unfold unwrapMember
  split
  · split
    · rename_i d x hx
      exact QD.get (vw_dict.1 hv) hx
    · exact hv
  · exact hv

omit [FloatOps F] in
theorem ql_flatten {l : List (List (V F))} (h : ∀ x ∈ l, QL K x) : QL K l.flatten := by
  intro v hv
  obtain ⟨x, hx, hm⟩ := List.mem_flatten.1 hv
  exact h x hx v hm

theorem within_flattenRowP {s : Nat} {o : List Nat} : ∀ (n : Nat) {K : Know} {d : OD (V F)}, K.sc s → QD K d →
    (flattenRowP {} s n d : Prog F S _).Within gr QL K o
  | 0, K, d, _, hd => within_pure (fun v hv => by rw [List.mem_singleton.1 hv]; exact vw_dict.2 hd)
  | n + 1, K, d, hs, hd => by
    unfold flattenRowP
    split
    · exact within_pure (fun v hv => nomatch hv)
    · rename_i column hc
      have hcell : VW K ((OD.get d column).getD .null) := QO.getD (fun v hv => hd.get hv)
      refine (within_iterateP hs hcell).bind mono_QL (fun L ms hL hms => ?_)
      dsimp only
      split
      · exact within_flattenRowP n (hL.sc hs) (QD.mono hL hd)
      · refine (within_mapP (P := fun L (v : V F) => VW L v ∧ L.sc s ∧ QD L d) (Q := QL)
          (fun _ _ _ h hp => ⟨VW.mono h hp.1, h.sc hp.2.1, QD.mono h hp.2.2⟩) mono_QL
          (fun M m hm => within_flattenRowP n hm.2.1
            ((QD.merge (by intro p hp; cases hp) hm.2.2).update _ hm.1)) _ (fun m hm => ?_)).bind mono_QL
          (fun M out hM ho => within_pure (ql_flatten ho))
        obtain ⟨x, hx, rfl⟩ := List.mem_map.1 hm
        exact ⟨vw_unwrap (hms x hx), hL.sc hs, QD.mono hL hd⟩

omit [FloatOps F] in
theorem within_makeDictP {s : Nat} (hs : K.sc s) {v : V F} (hv : VW K v) {o : List Nat} :
    (makeDictP s v : Prog F S _).Within gr QD K o := by
  unfold makeDictP
  split
  · exact within_pure (vw_dict.1 hv)
  · exact within_rowFieldsP hs hv (fun L v hL hv => hv)

omit [FloatOps F] in
theorem within_ite {α : Type} {Q : Know → α → Prop} {c : Prop} [Decidable c] {p q : Prog F S α} {o : List Nat}
    (h1 : p.Within gr Q K o) (h2 : q.Within gr Q K o) : (if c then p else q).Within gr Q K o := by
  split
  · exact h1
  · exact h2

theorem within_queryKeyP {s : Nat} {k : Key F Obj} {o : List Nat} : ∀ (l : List (V F)) (i : Nat) {K : Know} {acc : List (V F)},
    K.sc s → KeyW K k → QL K l → QL K acc → (queryKeyP s k i acc l : Prog F S _).Within gr QA K o
  | [], _, K, acc, _, _, _, hacc => within_pure (qo_some (vw_arr.2 hacc))
  | r :: l, i, K, acc, hs, hk, hl, hacc => by
    unfold queryKeyP
    have hr := hl r List.mem_cons_self
    refine within_ite (within_pure (qo_some hr)) (within_call_bind.2 ⟨⟨hr, hk, hs⟩, fun L x hL hx => ?_⟩)
    have hx : QA L x := hx
    have hl' : QL L l := fun v hv => VW.mono hL (hl v (List.mem_cons_of_mem _ hv))
    obtain ⟨y, p⟩ := x
    cases p with
    | true => exact within_queryKeyP l _ (hL.sc hs) (hk.mono hL) hl' ((QL.mono hL hacc).snoc (QA.getD hx))
    | false => exact within_queryKeyP l _ (hL.sc hs) (hk.mono hL) hl' (QL.mono hL hacc)

/-- What an application adds uses only what it is given. -/
structure Extra.Within (gr : Bool) (X : Extra F S) : Prop where
  fns : ∀ n f, OD.get X.fns n = some f → ∀ K node s args, K.sc s → QD K args → (f node s args).Within gr VW K []
  plugins : ∀ n f, OD.get X.plugins n = some f → ∀ K s args, K.sc s → QD K args → (f s args).Within gr QL K []
  assocImpl : ∀ K a k s p, K.sc s → VW K a → KeyW K k → X.assocImpl a k s = some p → p.Within gr QA K []
  members : ∀ K v s, K.sc s → VW K v → (X.members v s).Within gr QT K []

omit [FloatOps F] in
theorem within_entry {α : Type} {Q : Know → α → Prop} {c : Prop} [Decidable c] {p r : Prog F S α} {q : Option (Prog F S α)}
    (h1 : c → p.Within gr Q K []) (h2 : (q.getD r).Within gr Q K []) : ((if c then some p else q).getD r).Within gr Q K [] := by
  split
  · rename_i h; exact h1 h
  · exact h2

theorem within_itemFnP {fmtV : V F → Str} {op : V F → AggOp F Obj} {node s : Nat} (hs : K.sc s) {args : OD (V F)}
    (ha : QD K args) (h : ∀ (L : Know) v, VW L v → match op v with
      | .min v => AggArg gr L v | .max v => AggArg gr L v | .enumerate v => AggArg gr L v | _ => True)
    {o : List Nat} : (itemFnP {} fmtV op node s args : Prog F S _).Within gr VW K o := by
  refine (within_parseArgsP hs ha).bind mono_VW (fun L r hL hr => ?_)
  cases r with
  | none => exact within_null
  | some a =>
    refine (within_reduceP (QO.getD (fun v hv => (hr a rfl).get hv))).bind mono_VW (fun M v hM hv => ?_)
    exact ⟨(hL.trans hM).sc hs, agW_call (h M v hv), fun N r hN hr => hr⟩

mutual
/-- Plain data, as a test. -/
def isData : V F → Bool
  | .arr l => isDataL l
  | .dict d => isDataD d
  | .query _ => false
  | .obj _ => false
  | _ => true
def isDataL : List (V F) → Bool
  | [] => true
  | v :: l => isData v && isDataL l
def isDataD : List (Str × V F) → Bool
  | [] => true
  | (_, v) :: l => isData v && isDataD l
end

mutual
theorem isData_iff : ∀ (v : V F), isData v = true ↔ Data v
  | .arr l => by rw [isData, Data]; exact isDataL_iff l
  | .dict d => by rw [isData, Data]; exact isDataD_iff d
  | .query _ => by simp [isData, Data]
  | .obj _ => by simp [isData, Data]
  | .null => by simp [isData, Data]
  | .bool _ => by simp [isData, Data]
  | .int _ => by simp [isData, Data]
  | .float _ => by simp [isData, Data]
  | .str _ => by simp [isData, Data]
  | .time _ => by simp [isData, Data]
theorem isDataL_iff : ∀ (l : List (V F)), isDataL l = true ↔ DataL l
  | [] => by simp [isDataL, DataL]
  | v :: l => by rw [isDataL, DataL, Bool.and_eq_true, isData_iff v, isDataL_iff l]
theorem isDataD_iff : ∀ (l : List (Str × V F)), isDataD l = true ↔ DataD l
  | [] => by simp [isDataD, DataD]
  | (_, v) :: l => by rw [isDataD, DataD, Bool.and_eq_true, isData_iff v, isDataD_iff l]
end

variable {matchF : V F → V F → Bool} {fmtV : V F → Str}
  {colName : Col → Str} {num : Str → Option (V F)} {text : Select → Str} {fuel : Nat}

/-- The aggregate functions that store their argument. -/
def storing : List Str := [bs "min", bs "max", bs "enumerate"]

theorem within_libFn {X : Extra F S} {n : Str} (h : gr = false ∨ n ∉ storing) {node s : Nat} (hs : K.sc s) {args : OD (V F)}
    (ha : QD K args) : ((libFn {} fmtV X n node s args).getD (pure .null)).Within gr VW K [] := by
  have pa : ∀ (n : Str) (fs : List ArgField), (parseArgsP {} fmtV n s fs args : Prog F S _).Within gr QOD K [] :=
    fun n fs => within_parseArgsP hs ha
  have na : (normalizeArgsP args : Prog F S _).Within gr QD K [] := within_normalizeArgsP ha
  have hst : n ∈ storing → gr = false := fun hn => h.resolve_right (fun h => h hn)
  unfold libFn
  refine within_entry (fun _ => ?_) ?_
  · exact (within_rowFieldsP hs (vw_dict.2 ha) (fun L v hL hv => within_normalizeP 11 (hL.sc hs) hv)).bind mono_VW
      (fun L d hL hd => within_pure (vw_dict.2 hd))
  refine within_entry (fun _ => (pa _ _).bind mono_VW fun L r hL hr => ?_) ?_
  · cases r with
    | none => exact within_null
    | some a =>
      refine within_pure ?_
      unfold timestampF
      (repeat' split) <;> simp
  refine within_entry (fun _ => (pa _ _).bind mono_VW fun L r hL hr => ?_) ?_
  · cases r with
    | none => exact within_null
    | some a =>
      have hstr : ∀ l : List Str, VW (F := F) L (.arr (l.map .str)) := by
        intro l
        refine vw_arr.2 (fun v hv => ?_)
        obtain ⟨t, _, rfl⟩ := List.mem_map.1 hv
        simp
      dsimp only
      split
      · split
        · exact within_pure (hstr _)
        · exact within_log (show VW (F := F) L .null from vw_null)
      · split
        · exact within_pure (hstr _)
        · exact within_log (show VW (F := F) L .null from vw_null)
  refine within_entry (fun _ => na.bind mono_VW fun L a hL ha => within_ifFnP within_libTruth (hL.sc hs) ha) ?_
  refine within_entry (fun _ => (pa _ _).bind mono_VW fun L r hL hr => ?_) ?_
  · cases r <;> exact within_pure (by simp)
  refine within_entry (fun _ => (pa _ _).bind mono_VW fun L r hL hr => ?_) ?_
  · cases r with
    | none => exact within_null
    | some a =>
      refine within_getLoopP _ (hL.sc hs) ?_
      cases hg : OD.get a (bs "item") with
      | none => exact vw_obj.2 (hL.sc hs)
      | some v => exact (hr a rfl).get hg
  refine within_entry (fun _ => (pa _ _).bind mono_VW fun L r hL hr => ?_) ?_
  · cases r with
    | none => exact within_null
    | some a =>
      dsimp only
      split
      · exact within_pure (by simp)
      · exact within_log (show VW (F := F) L .null from vw_null)
  refine within_entry (fun _ => na.bind mono_VW fun L a hL ha => within_itemsFnP (hL.sc hs) ha (fun _ _ _ => trivial)) ?_
  refine within_entry (fun _ => (pa _ _).bind mono_VW fun L r hL hr => ?_) ?_
  · cases r with
    | none => exact within_null
    | some a => exact ⟨hL.sc hs, agW_call trivial, fun N r hN hr => hr⟩
  refine within_entry (fun e => within_itemFnP (op := .min) hs ha (fun L v hv => .inl ⟨hst (by simp [storing, e]), hv⟩)) ?_
  refine within_entry (fun e => within_itemFnP (op := .max) hs ha (fun L v hv => .inl ⟨hst (by simp [storing, e]), hv⟩)) ?_
  refine within_entry (fun e => na.bind mono_VW fun L a hL ha =>
    within_itemsFnP (op := .enumerate) (hL.sc hs) ha (fun L v hv => .inl ⟨hst (by simp [storing, e]), hv⟩)) ?_
  refine within_entry (fun _ => (pa _ _).bind mono_VW fun L r hL hr => ?_) ?_
  · cases r <;> exact within_pure (by simp)
  exact within_entry (fun _ => within_pure (vw_obj.2 hs)) within_null

theorem within_libPlugin {n : Str} {s : Nat} (hs : K.sc s) {args : OD (V F)} (ha : QD K args) :
    ((libPlugin {} fmtV fuel n s args).getD (pure []) : Prog F S _).Within gr QL K [] := by
  have pa : ∀ (n : Str) (fs : List ArgField), (parseArgsP {} fmtV n s fs args : Prog F S _).Within gr QOD K [] :=
    fun n fs => within_parseArgsP hs ha
  have hnil : ∀ L : Know, QL (F := F) L [] := fun L v hv => nomatch hv
  have na : (normalizeArgsP args : Prog F S _).Within gr QD K [] := within_normalizeArgsP ha
  have hmo : Mono (fun L (v : V F) => VW L v ∧ L.sc s) := fun _ _ _ h hp => ⟨VW.mono h hp.1, h.sc hp.2⟩
  unfold libPlugin
  refine within_entry (fun _ => na.bind mono_QL fun L a hL ha => within_ifPluginP within_libTruth (hL.sc hs) ha) ?_
  refine within_entry (fun _ => (pa _ _).bind mono_QL fun L r hL hr => ?_) ?_
  · cases r with
    | none => exact within_pure (hnil _)
    | some a =>
      refine (within_evalBranchP (hL.sc hs) (QO.getD (fun v hv => (hr a rfl).get hv))).bind mono_QL (fun M rows hM hrows => ?_)
      refine (within_mapP hmo mono_QL (fun N r hr => ?_) _ (fun r h => ⟨hrows r h, (hL.trans hM).sc hs⟩)).bind mono_QL
        (fun N out hN ho => within_pure (ql_flatten ho))
      exact (within_makeDictP hr.2 hr.1).bind mono_QL (fun P d hP hd => within_flattenRowP _ (hP.sc hr.2) hd)
  refine within_entry (fun _ => ?_) ?_
  · refine (within_mapP (P := VW) (Q := VW) mono_VW mono_VW (fun L a ha => within_reduceP ha) _ (fun a hm => ?_)).bind mono_QL
      (fun L qs hL hq => ?_)
    · obtain ⟨p, hp, rfl⟩ := List.mem_map.1 hm
      exact ha p hp
    · refine (within_mapP hmo mono_QL (fun N q hq => ?_) _ (fun q h => ⟨hq q h, hL.sc hs⟩)).bind mono_QL
        (fun N out hN ho => within_pure (ql_flatten ho))
      exact within_copy_bind.2 ⟨hq.2, fun M i hM h1 h2 => within_evalBranchP h1 (VW.mono hM hq.1)⟩
  refine within_entry (fun _ => (pa _ _).bind mono_QL fun L r hL hr => ?_) ?_
  · cases r with
    | none => exact within_pure (hnil _)
    | some a =>
      refine (within_iterateP (hL.sc hs) (QO.getD (fun v hv => (hr a rfl).get hv))).bind mono_QL (fun M rows hM hrows => ?_)
      refine (within_mapP (P := fun L (v : V F) => VW L v ∧ L.sc s ∧ QO L (OD.get a (bs "query")))
        (fun _ _ _ h hp => ⟨VW.mono h hp.1, h.sc hp.2.1, QO.mono h hp.2.2⟩) mono_QL
        (fun N r hr => within_foreachRowP hr.2.1 hr.2.2 hr.1) _
        (fun r h => ⟨hrows r h, (hL.trans hM).sc hs, fun v hv => VW.mono hM ((hr a rfl).get hv)⟩)).bind mono_QL
        (fun N out hN ho => within_pure (ql_flatten ho))
  refine within_entry (fun _ => (pa _ _).bind mono_QL fun L r hL hr => ?_) ?_
  · cases r with
    | none => exact within_pure (hnil _)
    | some a =>
      refine within_pure (fun v hv => ?_)
      obtain ⟨i, _, rfl⟩ := List.mem_map.1 hv
      simp
  exact within_entry (fun _ => within_pure (fun v hv => by rw [List.mem_singleton.1 hv]; exact vw_obj.2 hs))
    (within_pure (hnil _))

theorem libHost_within_of {X : Extra F S} (hX : X.Within gr) (hnum : ∀ t v, num t = some v → Data v)
    (hst : gr = false ∨ ∀ n ∈ storing, (OD.get X.fns n).isSome = true) :
    (libHost {} matchF fmtV colName num text fuel X).Within gr where
  fn K n node s args hs ha := by
    show Prog.Within gr VW (match OD.get X.fns n with
      | some f => f node s args
      | none => (libFn {} fmtV X n node s args).getD (pure .null)) K []
    cases h : OD.get X.fns n with
    | some f => exact hX.fns n f h K node s args hs ha
    | none =>
      refine within_libFn (hst.imp id (fun hg hn => ?_)) hs ha
      have := hg n hn
      rw [h] at this
      cases this
  plugin K n s args hs ha := by
    show Prog.Within gr QL (match OD.get X.plugins n with
      | some f => f s args
      | none => (libPlugin {} fmtV fuel n s args).getD (pure [])) K []
    cases h : OD.get X.plugins n with
    | some f => exact hX.plugins n f h K s args hs ha
    | none => exact within_libPlugin hs ha
  arith K op a b s hs ha hb := within_libArith hs ha hb
  rel K op a b s hs ha hb := (within_reduceP ha).bind mono_QT (fun L a hL _ =>
    (within_reduceP (VW.mono hL hb)).bind mono_QT (fun _ _ _ _ => trivial))
  truth K v s hs hv := within_libTruth K v s [] hs hv
  toStr K v s hs hv := (within_reduceP hv).bind mono_QT (fun _ _ _ _ => trivial)
  sort K k d rows s hs hr := within_pure (fun v hv => hr v ((insertionSort_perm _ _).mem_iff.1 hv))
  assocImpl K a k s p hs ha hk h := by
    have h' : (match X.assocImpl a k s with
      | some p => some p
      | none => libAssocImpl a k s) = some p := h
    cases hx : X.assocImpl a k s with
    | some q =>
      rw [hx] at h'
      cases h'
      exact hX.assocImpl K a k s _ hs ha hk hx
    | none =>
      rw [hx] at h'
      simp only [libAssocImpl] at h'
      split at h'
      · cases h'
      · split at h'
        · cases h'
          refine within_copy_bind.2 ⟨hs, fun L ns hL h1 h2 => within_call_bind.2 ⟨⟨VW.mono hL ha, h1⟩, fun M rows hM hr => ?_⟩⟩
          exact within_queryKeyP _ _ ((hL.trans hM).sc hs) (hk.mono (hL.trans hM)) hr (fun v hv => nomatch hv)
        · cases h'
  assocDefault K a k s hs ha hk := within_pure (qo_some (vw_index ha))
  hostMembers K v s hs hv := hX.members K v s hs hv
  num t v h := vw_of_data (hnum t v h)

/-- The package's functions, plugins and operators use only what they are given. -/
theorem libHost_within {X : Extra F S} (hX : X.Within false) (hnum : ∀ t v, num t = some v → Data v) :
    (libHost {} matchF fmtV colName num text fuel X).Within false := libHost_within_of hX hnum (.inl rfl)

/-- An aggregate function that ignores arguments other than plain data. -/
def dataOnly (op : V F → AggOp F Obj) (v : V F) : AggOp F Obj := if isData v then op v else .sum none

/-- `min`, `max` and `enumerate` as the package defines them, but for plain data only: for other
arguments they give NULL and store nothing. -/
def Extra.plainAgg (fmtV : V F → Str) (X : Extra F S) : Extra F S :=
  { X with fns := [(bs "min", itemFnP {} fmtV (dataOnly .min)), (bs "max", itemFnP {} fmtV (dataOnly .max)),
      (bs "enumerate", fun node s args => do
        let args ← normalizeArgsP args
        itemsFnP {} (dataOnly .enumerate) node s args)] ++ X.fns }

theorem dataOnly_ok {op : V F → AggOp F Obj} (h : op = .min ∨ op = .max ∨ op = .enumerate) (L : Know) (v : V F) :
    match dataOnly op v with
      | .min v => AggArg gr L v | .max v => AggArg gr L v | .enumerate v => AggArg gr L v | _ => True := by
  unfold dataOnly
  by_cases hd : isData v = true
  · rw [if_pos hd]
    rcases h with rfl | rfl | rfl <;> exact .inr ((isData_iff v).1 hd)
  · rw [if_neg hd]
    trivial

omit [FloatOps F] in
theorem od_get_three {β : Type 1} {a b c : Str} {x y z : β} {l : List (Str × β)} {n : Str} :
    OD.get ([(a, x), (b, y), (c, z)] ++ l) n =
      if a = n then some x else if b = n then some y else if c = n then some z else OD.get l n := by
  rfl

theorem plainAgg_within {X : Extra F S} (hX : X.Within gr) : (X.plainAgg fmtV).Within gr where
  fns n f h K node s args hs ha := by
    have e : OD.get (X.plainAgg fmtV).fns n = if bs "min" = n then some (itemFnP {} fmtV (dataOnly .min))
        else if bs "max" = n then some (itemFnP {} fmtV (dataOnly .max))
        else if bs "enumerate" = n then some (fun node s args => do
          let args ← normalizeArgsP args
          itemsFnP {} (dataOnly .enumerate) node s args)
        else OD.get X.fns n := by
      exact od_get_three
    rw [e] at h
    split at h
    · cases h
      exact within_itemFnP hs ha (fun L v _ => dataOnly_ok (.inl rfl) L v)
    · split at h
      · cases h
        exact within_itemFnP hs ha (fun L v _ => dataOnly_ok (.inr (.inl rfl)) L v)
      · split at h
        · cases h
          exact (within_normalizeArgsP ha).bind mono_VW fun L a hL ha =>
            within_itemsFnP (hL.sc hs) ha (fun L v _ => dataOnly_ok (.inr (.inr rfl)) L v)
        · exact hX.fns n f h K node s args hs ha
  plugins := hX.plugins
  assocImpl := hX.assocImpl
  members := hX.members

/-- The package with `min`, `max` and `enumerate` of plain data: what aggregate functions store
refers to nothing. -/
theorem libHost_plain_within {X : Extra F S} (hX : X.Within gr) (hnum : ∀ t v, num t = some v → Data v) :
    (libHost {} matchF fmtV colName num text fuel (X.plainAgg fmtV)).Within gr := by
  refine libHost_within_of (plainAgg_within hX) hnum (.inr (fun n hn => ?_))
  simp only [storing, List.mem_cons, List.not_mem_nil, or_false] at hn
  show (OD.get ([(bs "min", _), (bs "max", _), (bs "enumerate", _)] ++ X.fns) n).isSome = true
  rw [od_get_three]
  rcases hn with rfl | rfl | rfl
  · rw [if_pos rfl]; rfl
  · rw [if_neg (by decide), if_pos rfl]; rfl
  · rw [if_neg (by decide), if_neg (by decide), if_pos rfl]; rfl

/-- Nothing added. -/
theorem extra_within : ({} : Extra F S).Within gr :=
  ⟨nofun, nofun, nofun, fun _ _ _ _ _ => trivial⟩

end
end Vfilter.Vql
