import Verif.EvalSimBody
import Verif.Aggregates
/-!
# The operators respect the relation

Without registered protocols, the operators only look at the shape of their operands.
-/
set_option linter.all false

namespace Vfilter.Vql

section
variable {F S : Type} {H : Host F S} {Z : Cfg S} {W : Corr}

/-- Nothing is registered. -/
structure NoOps (D : World F Obj) : Prop where
  addI : D.addI = []
  subI : D.subI = []
  mulI : D.mulI = []
  divI : D.divI = []
  eqI : D.eqI = []
  ltI : D.ltI = []
  gtI : D.gtI = []
  memI : D.memI = []
  boolI : D.boolI = []
  iterI : D.iterI = []
  assocI : D.assocI = []
  objGet : ∀ x k, D.objGet x k = (.null, false)
  timeGet : ∀ t k, D.timeGet t k = (.null, false)
  dictMethod : ∀ d k, D.dictMethod d k = (.null, false)

theorem plain_empty : NoOps ({} : World F Obj) where
  addI := rfl
  subI := rfl
  mulI := rfl
  divI := rfl
  eqI := rfl
  ltI := rfl
  gtI := rfl
  memI := rfl
  boolI := rfl
  iterI := rfl
  assocI := rfl
  objGet := fun _ _ => rfl
  timeGet := fun _ _ => rfl
  dictMethod := fun _ _ => rfl

variable [FloatOps F] {D : World F Obj} {a a' b b' : V F}

theorem isNil_r (ha : VR H Z W a a') : a.isNil = a'.isNil := by cases ha <;> rfl
theorem isArr_r (ha : VR H Z W a a') : a.isArr = a'.isArr := by cases ha <;> rfl
theorem toFloat_r (ha : VR H Z W a a') : a.toFloat = a'.toFloat := by cases ha <;> rfl
theorem toTime_r (ha : VR H Z W a a') : a.toTime = a'.toTime := by cases ha <;> rfl
theorem toStr_r (ha : VR H Z W a a') : a.toStr = a'.toStr := by cases ha <;> rfl
theorem intEq_r (i : I64) (ha : VR H Z W a a') : intEq i a = intEq i a' := by cases ha <;> rfl
theorem intLt_r (i : I64) (ha : VR H Z W a a') : intLt i a = intLt i a' := by cases ha <;> rfl
theorem intGt_r (i : I64) (ha : VR H Z W a a') : intGt i a = intGt i a' := by cases ha <;> rfl

theorem slice_r (ha : VR H Z W a a') : VRL H Z W (convertToSlice a) (convertToSlice a') := by
  cases ha with
  | arr h => exact h
  | query h => exact h
  | dict h => exact .cons (.dict h) .nil
  | obj h => exact .cons (.obj h) .nil
  | _ => exact .cons (by constructor) .nil

theorem search2_nil {R : Type} (a b : V F) : search2 ([] : List (BinImpl (V F) R)) a b = none := rfl

theorem addSwitch_r (ha : VR H Z W a a') (hb : VR H Z W b b') : Opt2 (VR H Z W) (addSwitch a b) (addSwitch a' b') := by
  cases ha <;> cases hb <;>
    simp only [addSwitch, intAdd, Val.toFloat, Option.map] <;>
    first
    | exact .none
    | (split <;> exact .some (by constructor))
    | exact .some (by constructor)

theorem storedQueryAdd_r (ha : VR H Z W a a') (hb : VR H Z W b b') :
    Opt2 (VR H Z W) (storedQueryAdd a b) (storedQueryAdd a' b') := by
  cases ha <;> cases hb <;>
    first
    | exact .none
    | (rename_i h1 _ _ h2; exact .some (.arr (h1.append h2)))

theorem addV_r (hD : NoOps D) (ha : VR H Z W a a') (hb : VR H Z W b b') : VR H Z W (addV D a b) (addV D a' b') := by
  unfold addV
  simp only [hD.addI, search2_nil]
  have h1 := addSwitch_r ha hb
  have h2 := storedQueryAdd_r ha hb
  rw [isArr_r ha, isArr_r hb]
  revert h1 h2
  generalize addSwitch a b = x, addSwitch a' b' = x', storedQueryAdd a b = y, storedQueryAdd a' b' = y'
  intro h1 h2
  cases h1 with
  | some h => exact h
  | none =>
    cases h2 with
    | some h => exact h
    | none =>
      dsimp only
      split
      · exact .arr ((slice_r ha).append (slice_r hb))
      · exact .null

theorem subV_r (hD : NoOps D) (ha : VR H Z W a a') (hb : VR H Z W b b') : VR H Z W (subV D a b) (subV D a' b') := by
  cases ha <;> cases hb <;>
    simp only [subV, hD.subI, search2_nil, Val.toFloat, Val.toInt64, Option.getD_none] <;> constructor

/-- Results of multiplication. -/
inductive OutR (H : Host F S) (Z : Cfg S) (W : Corr) : Outcome (V F) → Outcome (V F) → Prop
  | ok {x y} : VR H Z W x y → OutR H Z W (.ok x) (.ok y)
  | panic : OutR H Z W .panic .panic

theorem mulV_r (hD : NoOps D) (ha : VR H Z W a a') (hb : VR H Z W b b') :
    OutR H Z W (mulV D a b) (mulV D a' b') := by
  cases ha <;> cases hb <;>
    simp only [mulV, hD.mulI, search2_nil, Val.toFloat, Val.toInt64, Option.getD_none] <;>
    first
    | exact .ok (by constructor)
    | ((repeat' split) <;> first | exact .ok (by constructor) | exact .panic)

theorem divV_r (hD : NoOps D) (ha : VR H Z W a a') (hb : VR H Z W b b') :
    VR H Z W (divV D (.val a) (.val b)) (divV D (.val a') (.val b')) := by
  cases ha <;> cases hb <;>
    simp only [divV, hD.divI, search2_nil, Val.toFloat, Option.getD_none, Opnd.raw, Opnd.reduce, Option.bind] <;>
    ((repeat' split) <;> constructor)

theorem truthy_r (hD : NoOps D) (ha : VR H Z W a a') : truthy D a = truthy D a' := by
  cases ha with
  | arr h => simp only [truthy, h.length]
  | dict h => simp only [truthy, h.length]
  | query h => simp only [truthy, hD.boolI, search1, h.length]
  | obj h => simp only [truthy, hD.boolI, search1]
  | _ => rfl

mutual
theorem eqV_r (hD : NoOps D) : ∀ {a a' b b' : V F}, VR H Z W a a' → VR H Z W b b' → eqV D a b = eqV D a' b'
  | .arr la, _, b, b', .arr ha, hb => by
    cases hb with
    | arr hb =>
      simp only [eqV, eqSwitch, eqNum, Val.toInt64]
      exact eqArr_r hD ha hb
    | _ => simp only [eqV, eqSwitch, eqNum, Val.toInt64, hD.eqI, search2_nil]
  | .dict da, _, b, b', .dict ha, hb => by
    cases hb with
    | dict hb =>
      simp only [eqV, eqSwitch, eqNum, Val.toInt64, hD.eqI, search2_nil]
      rw [ha.length, hb.length, eqDict_r hD ha hb]
    | _ => simp only [eqV, eqSwitch, eqNum, Val.toInt64, hD.eqI, search2_nil]
  | .null, _, b, b', .null, hb => by
    cases hb <;> simp only [eqV, eqSwitch, eqNum, Val.toInt64, Val.isNil, hD.eqI, search2_nil]
  | .bool _, _, b, b', .bool _, hb => by
    cases hb <;> simp only [eqV, eqSwitch, eqNum, Val.toInt64, hD.eqI, search2_nil]
  | .int _, _, b, b', .int _, hb => by
    cases hb <;> simp only [eqV, eqSwitch, eqNum, Val.toInt64, intEq, hD.eqI, search2_nil]
  | .float _, _, b, b', .float _, hb => by
    cases hb <;> simp only [eqV, eqSwitch, eqNum, Val.toInt64, Val.toFloat, Option.map, hD.eqI, search2_nil]
  | .str _, _, b, b', .str _, hb => by
    cases hb <;> simp only [eqV, eqSwitch, eqNum, Val.toInt64, hD.eqI, search2_nil]
  | .time _, _, b, b', .time _, hb => by
    cases hb <;> simp only [eqV, eqSwitch, eqNum, Val.toInt64, Val.toTime, Option.map, hD.eqI, search2_nil]
  | .query _, _, b, b', .query _, hb => by
    cases hb <;> simp only [eqV, eqSwitch, eqNum, Val.toInt64, hD.eqI, search2_nil]
  | .obj _, _, b, b', .obj _, hb => by
    cases hb <;> simp only [eqV, eqSwitch, eqNum, Val.toInt64, hD.eqI, search2_nil]
theorem eqArr_r (hD : NoOps D) : ∀ {a a' b b' : List (V F)}, All2 (VR H Z W) a a' → All2 (VR H Z W) b b' →
    eqArr D a b = eqArr D a' b'
  | [], _, _, _, .nil, hb => by cases hb <;> simp only [eqArr]
  | x :: xs, _, _, _, .cons hx hxs, hb => by
    cases hb with
    | nil => simp only [eqArr]
    | cons hy hys =>
      simp only [eqArr]
      rw [eqV_r hD hx hy, eqArr_r hD hxs hys]
theorem eqDict_r (hD : NoOps D) : ∀ {a a' b b' : List (Str × V F)}, All2 (EntR (VR H Z W)) a a' →
    All2 (EntR (VR H Z W)) b b' → eqDict D a b = eqDict D a' b'
  | [], _, _, _, .nil, hb => by simp only [eqDict]
  | (k, x) :: xs, _, _, _, .cons (.mk hx) hxs, hb => by
    simp only [eqDict]
    have hg := od_get_r hb k
    revert hg
    generalize OD.get _ k = y, OD.get _ k = y'
    intro hg
    cases hg with
    | none => rfl
    | some hy =>
      dsimp only
      rw [eqV_r hD hx hy, eqDict_r hD hxs hb]
end

theorem ltV_r (hD : NoOps D) (ha : VR H Z W a a') (hb : VR H Z W b b') : ltV D a b = ltV D a' b' := by
  cases ha <;> cases hb <;>
    simp only [ltV, hD.ltI, search2_nil, Val.toFloat, Val.toTime, intGt, intEq, intLt] <;> rfl

theorem gtV_r (hD : NoOps D) (ha : VR H Z W a a') (hb : VR H Z W b b') : gtV D a b = gtV D a' b' := by
  cases ha <;> cases hb <;>
    simp only [gtV, hD.gtI, search2_nil, Val.toFloat, Val.toTime, intGt, intEq, intLt] <;> rfl

theorem isSome_r {R : V F → V F → Prop} {x y : Option (V F)} (h : Opt2 R x y) : x.isSome = y.isSome := by
  cases h <;> rfl

theorem memV_r (hD : NoOps D) (ha : VR H Z W a a') (hb : VR H Z W b b') : memV D a b = memV D a' b' := by
  have key : ∀ {l l' : List (V F)}, VRL H Z W l l' →
      l.any (fun item => eqV D a item) = l'.any (fun item => eqV D a' item) :=
    fun h => h.any fun x y hx => eqV_r hD ha hx
  cases hb with
  | arr h => simp only [memV, hD.memI, search2_nil, key h]
  | dict h =>
    cases ha with
    | str s => simp only [memV, isSome_r (od_get_r h s)]
    | _ => simp only [memV, hD.memI, search2_nil]
  | str t => cases ha <;> simp only [memV, hD.memI, search2_nil]
  | _ => cases ha <;> simp only [memV, hD.memI, search2_nil]

theorem indexOf_r {α β : Type} {R : α → β → Prop} {l : List α} {l' : List β} (h : All2 R l l') (i : I64) :
    Opt2 R (indexOf l i) (indexOf l' i) := by
  unfold indexOf goIndex
  rw [h.length]
  dsimp only
  generalize (if i.toInt < 0 then BitVec.ofNat 64 l'.length + i else i) = j
  split
  · exact .none
  · split
    · exact h.get _
    · exact .none

theorem rangeOf_r {α β : Type} {R : α → β → Prop} {l : List α} {l' : List β} (h : All2 R l l') (s e : Option I64) :
    Opt2 (All2 R) (rangeOf l s e) (rangeOf l' s e) := by
  unfold rangeOf goSlice
  rw [h.length]
  dsimp only
  split
  · exact .some .nil
  · split
    · exact .some ((h.drop _).take _)
    · exact .none

theorem flat_r {k k' : Key F Obj} (ha : VR H Z W a a') (hk : KeyR H Z W k k') :
    VR H Z W (defaultAssocFlat a k).1 (defaultAssocFlat a' k').1 ∧
      (defaultAssocFlat a k).2 = (defaultAssocFlat a' k').2 := by
  cases hk with
  | range s e =>
    cases ha with
    | str x =>
      unfold defaultAssocFlat
      dsimp only
      cases rangeOf x s e with
      | none => exact ⟨.null, rfl⟩
      | some r => exact ⟨.str _, rfl⟩
    | arr h =>
      simp only [defaultAssocFlat]
      have := rangeOf_r h s e
      revert this
      generalize rangeOf _ s e = x, rangeOf _ s e = x'
      intro this
      cases this with
      | none => exact ⟨.null, rfl⟩
      | some h => exact ⟨.arr h, rfl⟩
    | _ => exact ⟨.null, rfl⟩
  | @val kv kv' hv =>
    simp only [defaultAssocFlat, toInt64_r hv]
    cases kv'.toInt64 with
    | none => exact ⟨.null, rfl⟩
    | some i =>
      cases ha with
      | str x =>
        dsimp only
        cases indexOf x i with
        | none => exact ⟨.null, rfl⟩
        | some r => exact ⟨.int _, rfl⟩
      | arr h =>
        dsimp only
        have := indexOf_r h i
        revert this
        generalize indexOf _ i = x, indexOf _ i = x'
        intro this
        cases this with
        | none => exact ⟨.null, rfl⟩
        | some h => exact ⟨h, rfl⟩
      | _ => exact ⟨.null, rfl⟩

/-- A looked up value. -/
def HitR (H : Host F S) (Z : Cfg S) (W : Corr) (x y : V F × Bool) : Prop := VR H Z W x.1 y.1 ∧ x.2 = y.2

mutual
theorem assocStr_r (hD : NoOps D) (k : Str) : ∀ {a a' : V F}, VR H Z W a a' →
    HitR H Z W (assocStr D a k) (assocStr D a' k)
  | .query l, _, .query h => by
    simp only [assocStr]
    exact ⟨.arr (queryCol_r hD k h), rfl⟩
  | .arr l, _, .arr h => by
    simp only [assocStr, hD.assocI, searchA]
    exact ⟨.arr (arrCol_r hD k h), rfl⟩
  | .dict d, _, .dict h => by
    simp only [assocStr, hD.dictMethod]
    split
    · exact ⟨.null, rfl⟩
    · have hg := od_get_r h k
      revert hg
      generalize OD.get _ k = y, OD.get _ k = y'
      intro hg
      cases hg with
      | none => exact ⟨.null, rfl⟩
      | some hy => exact ⟨hy, rfl⟩
  | .null, _, .null => by simp only [assocStr]; exact ⟨.null, rfl⟩
  | .bool _, _, .bool _ => by simp only [assocStr, hD.assocI, searchA]; exact ⟨.null, rfl⟩
  | .int _, _, .int _ => by simp only [assocStr, hD.assocI, searchA]; exact ⟨.null, rfl⟩
  | .float _, _, .float _ => by simp only [assocStr, hD.assocI, searchA]; exact ⟨.null, rfl⟩
  | .str _, _, .str _ => by simp only [assocStr, hD.assocI, searchA]; exact ⟨.null, rfl⟩
  | .time _, _, .time _ => by simp only [assocStr, hD.assocI, searchA, hD.timeGet]; exact ⟨.null, rfl⟩
  | .obj _, _, .obj _ => by simp only [assocStr, hD.assocI, searchA, hD.objGet]; exact ⟨.null, rfl⟩
theorem queryCol_r (hD : NoOps D) (k : Str) : ∀ {l l' : List (V F)}, All2 (VR H Z W) l l' →
    All2 (VR H Z W) (queryCol D l k) (queryCol D l' k)
  | [], _, .nil => by simp only [queryCol]; exact .nil
  | a :: l, _, .cons ha hl => by
    simp only [queryCol]
    refine .cons ?_ (queryCol_r hD k hl)
    have h := assocStr_r hD k ha
    revert h
    generalize assocStr D _ k = x, assocStr D _ k = x'
    obtain ⟨x, p⟩ := x
    obtain ⟨x', p'⟩ := x'
    rintro ⟨h1, h2⟩
    dsimp only at h1 h2
    rw [h2]
    cases p
    · exact .null
    · exact h1
theorem arrCol_r (hD : NoOps D) (k : Str) : ∀ {l l' : List (V F)}, All2 (VR H Z W) l l' →
    All2 (VR H Z W) (arrCol D l k) (arrCol D l' k)
  | [], _, .nil => by simp only [arrCol]; exact .nil
  | a :: l, _, .cons ha hl => by
    simp only [arrCol]
    have h := assocStr_r hD k ha
    have ih := arrCol_r hD k hl
    revert h
    generalize assocStr D _ k = x, assocStr D _ k = x'
    obtain ⟨x, p⟩ := x
    obtain ⟨x', p'⟩ := x'
    rintro ⟨h1, h2⟩
    dsimp only at h1 h2
    rw [h2]
    cases p
    · exact ih
    · exact .cons h1 ih
end

theorem rowLess_r (hD : NoOps D) (k : Str) (desc : Bool) (ha : VR H Z W a a') (hb : VR H Z W b b') :
    rowLess D (fun r => assocStr D r k) desc a b = rowLess D (fun r => assocStr D r k) desc a' b' := by
  obtain ⟨h1, h2⟩ := assocStr_r hD k ha
  obtain ⟨h3, h4⟩ := assocStr_r hD k hb
  unfold rowLess
  simp only [h2, h4, isNil_r h1, isNil_r h3]
  split
  · rfl
  · have fix : ∀ {x y : V F}, VR H Z W x y → VR H Z W (if y.isNil = true then Val.str [] else x)
        (if y.isNil = true then .str [] else y) := by
      intro x y h
      split
      · exact .str _
      · exact h
    rw [ltV_r hD (fix h1) (fix h3)]

theorem insertLeft_r {α β : Type} {R : α → β → Prop} {f : α → α → Bool} {g : β → β → Bool}
    (hf : ∀ a b c d, R a b → R c d → f a c = g b d) {x : α} {y : β} (hx : R x y) {l : List α} {l' : List β}
    (h : All2 R l l') : All2 R (insertLeft f x l) (insertLeft g y l') := by
  induction h with
  | nil => exact .cons hx .nil
  | cons hab hl ih =>
    simp only [insertLeft]
    rw [hf _ _ _ _ hx hab]
    split
    · exact .cons hab ih
    · exact .cons hx (.cons hab hl)

theorem insertionSort_r {α β : Type} {R : α → β → Prop} {f : α → α → Bool} {g : β → β → Bool}
    (hf : ∀ a b c d, R a b → R c d → f a c = g b d) {l : List α} {l' : List β}
    (h : All2 R l l') : All2 R (insertionSort f l) (insertionSort g l') := by
  unfold insertionSort
  suffices ∀ acc acc', All2 R acc acc' →
      All2 R (l.foldl (fun acc x => insertLeft f x acc) acc) (l'.foldl (fun acc x => insertLeft g x acc) acc') from
    (this _ _ .nil).reverse
  induction h with
  | nil => exact fun _ _ h => h
  | cons hab hl ih => exact fun _ _ h => ih _ _ (insertLeft_r hf hab h)

theorem sliceRow_r (ha : VR H Z W a a') : Opt2 (VR H Z W) (sliceRow a) (sliceRow a') := by
  cases ha with
  | null => exact .none
  | dict h => exact .some (.dict h)
  | arr h => exact .some (.dict (.cons (.mk (.arr h)) .nil))
  | query h => exact .some (.dict (.cons (.mk (.query h)) .nil))
  | obj h => exact .some (.dict (.cons (.mk (.obj h)) .nil))
  | _ => exact .some (.dict (.cons (.mk (by constructor)) .nil))

theorem filterMap_r {α β γ δ : Type} {R : α → β → Prop} {Q : γ → δ → Prop} {f : α → Option γ} {g : β → Option δ}
    (hf : ∀ a b, R a b → Opt2 Q (f a) (g b)) {l : List α} {l' : List β} (h : All2 R l l') :
    All2 Q (l.filterMap f) (l'.filterMap g) := by
  induction h with
  | nil => exact .nil
  | @cons a b _ _ hab hl ih =>
    rw [List.filterMap_cons, List.filterMap_cons]
    have := hf a b hab
    revert this
    generalize f a = x, g b = y
    intro this
    cases this with
    | none => exact ih
    | some h => exact .cons h ih

theorem iterate_r (hD : NoOps D) (ha : VR H Z W a a') : VRL H Z W (iterate D a) (iterate D a') := by
  cases ha with
  | query h => exact h
  | dict h => exact .cons (.dict h) .nil
  | arr h => exact filterMap_r (fun _ _ => sliceRow_r) h
  | obj h =>
    simp only [iterate, hD.iterI, search1, Val.isNil]
    exact .cons (.dict (.cons (.mk (.obj h)) .nil)) .nil
  | null =>
    simp only [iterate, hD.iterI, search1, Val.isNil]
    exact .nil
  | _ =>
    simp only [iterate, hD.iterI, search1, Val.isNil]
    exact .cons (.dict (.cons (.mk (by constructor)) .nil)) .nil

/-! ## Aggregate functions -/

theorem cellVal_r {x y : Cell F Obj} (h : CellR H Z W x y) : VR H Z W x.toVal y.toVal := by
  cases h with
  | val h => exact h
  | items h => exact .arr h
  | _ => constructor

/-- Related calls of aggregate functions. -/
inductive OpR (H : Host F S) (Z : Cfg S) (W : Corr) : AggOp F Obj → AggOp F Obj → Prop
  | count : OpR H Z W .count .count
  | sum (i) : OpR H Z W (.sum i) (.sum i)
  | min {x y} : VR H Z W x y → OpR H Z W (.min x) (.min y)
  | max {x y} : VR H Z W x y → OpR H Z W (.max x) (.max y)
  | enumerate {x y} : VR H Z W x y → OpR H Z W (.enumerate x) (.enumerate y)

theorem modify_r {c c' : AggCtx F Obj} {id : Str} {f f' : Option (Cell F Obj) → Cell F Obj}
    (hc : CtxR H Z W c c') (hf : ∀ x y, Opt2 (CellR H Z W) x y → CellR H Z W (f x) (f' y)) :
    CtxR H Z W (c.modify id f).1 (c'.modify id f').1 ∧ CellR H Z W (c.modify id f).2 (c'.modify id f').2 := by
  have h := hf _ _ (od_get_r hc id)
  exact ⟨od_set_r hc id h, h⟩

theorem aggCall_r (hD : NoOps D) {c c' : AggCtx F Obj} (id : Str) {op op' : AggOp F Obj} (hc : CtxR H Z W c c')
    (ho : OpR H Z W op op') :
    CtxR H Z W (aggCall D c id op).1 (aggCall D c' id op').1 ∧ CellR H Z W (aggCall D c id op).2 (aggCall D c' id op').2 := by
  cases ho with
  | count =>
    refine modify_r hc fun x y h => ?_
    cases h with
    | none => exact .count _
    | some h => cases h <;> constructor
  | sum i =>
    cases i with
    | none => exact ⟨hc, .null⟩
    | some i =>
      refine modify_r hc fun x y h => ?_
      cases h with
      | none => exact .sum _
      | some h => cases h <;> constructor
  | min hv =>
    refine modify_r hc fun x y h => ?_
    cases h with
    | none => exact .val hv
    | some h =>
      simp only [minMod]
      rw [ltV_r hD hv (cellVal_r h)]
      split
      · exact h
      · exact .val hv
  | max hv =>
    refine modify_r hc fun x y h => ?_
    cases h with
    | none => exact .val hv
    | some h =>
      simp only [maxMod]
      rw [ltV_r hD hv (cellVal_r h)]
      split
      · exact h
      · exact .val hv
  | enumerate hv =>
    refine modify_r hc fun x y h => ?_
    cases h with
    | none => exact .items (.cons hv .nil)
    | some h =>
      cases h with
      | items hl => exact .items (hl.snoc hv)
      | _ => exact .nil

end
end Vfilter.Vql
