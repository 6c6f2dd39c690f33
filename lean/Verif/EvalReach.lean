import Verif.EvalWithin
/-!
# The evaluator stays within what it knows

The code of every method of the evaluator is `Within`: it uses the scopes, values and rows it is
given, and what it finds in them.  The embedding application is assumed to have the same
discipline (`Host.Within`): its functions, plugins and operators build their results from their
arguments, the scope they are called with and plain data.
-/
set_option linter.all false

namespace Vfilter.Vql

section
variable {F S : Type}

/-- The application uses only what it is given. -/
structure Host.Within (gr : Bool) (H : Host F S) : Prop where
  fn : ∀ K n node s args, K.sc s → QD K args → (H.fn n node s args).Within gr VW K []
  plugin : ∀ K n s args, K.sc s → QD K args → (H.plugin n s args).Within gr QL K []
  arith : ∀ K o a b s, K.sc s → VW K a → VW K b → (H.arith o a b s).Within gr VW K []
  rel : ∀ K o a b s, K.sc s → VW K a → VW K b → (H.rel o a b s).Within gr QT K []
  truth : ∀ K v s, K.sc s → VW K v → (H.truth v s).Within gr QT K []
  toStr : ∀ K v s, K.sc s → VW K v → (H.toStr v s).Within gr QT K []
  sort : ∀ K k d rows s, K.sc s → QL K rows → (H.sort k d rows s).Within gr QL K []
  assocImpl : ∀ K a k s p, K.sc s → VW K a → KeyW K k → H.assocImpl a k s = some p → p.Within gr QA K []
  assocDefault : ∀ K a k s, K.sc s → VW K a → KeyW K k → (H.assocDefault a k s).Within gr QA K []
  hostMembers : ∀ K v s, K.sc s → VW K v → (H.hostMembers v s).Within gr QT K []
  num : ∀ t v, H.num t = some v → VW Know.none v

theorem kw_str {K : Know} {b : Str} : KeyW (F := F) K (.val (.str b)) := by simp [KeyW]

theorem mono_VW : Mono (VW (F := F)) := fun _ _ _ h hv => VW.mono h hv
theorem mono_QL : Mono (QL (F := F)) := fun _ _ _ h hv => QL.mono h hv
theorem mono_QD : Mono (QD (F := F)) := fun _ _ _ h hv => QD.mono h hv
theorem mono_QO : Mono (QO (F := F)) := fun _ _ _ h hv => QO.mono h hv
theorem mono_QA : Mono (QA (F := F)) := fun _ _ _ h hv => QA.mono h hv
theorem mono_QG : Mono (QG (F := F)) := fun _ _ _ h hv => QG.mono h hv
theorem mono_QT {α : Type} : Mono (QT (α := α)) := fun _ _ _ _ _ => trivial

variable {gr : Bool}

theorem Prog.Within.own {α : Type} {Q : Know → α → Prop} (hQ : Mono Q) {p : Prog F S α} {K : Know} (o : List Nat)
    (h : p.Within gr Q K []) : p.Within gr Q K o :=
  h.mono hQ (Know.Le.refl K) (fun _ hi => nomatch hi)

theorem within_mapP {α β : Type} {f : α → Prog F S β} {P : Know → α → Prop} {Q : Know → β → Prop}
    (hP : Mono P) (hQ : Mono Q) {o : List Nat}
    (h : ∀ K a, P K a → (f a).Within gr Q K o) : ∀ l {K : Know}, (∀ a ∈ l, P K a) →
    (mapP f l).Within gr (fun K r => ∀ b ∈ r, Q K b) K o
  | [], K, _ => fun b hb => nomatch hb
  | a :: r, K, hl => by
    have hm : Mono (fun K (r : List β) => ∀ b ∈ r, Q K b) := fun K L l hL hl b hb => hQ _ _ _ hL (hl b hb)
    refine (h K a (hl a List.mem_cons_self)).bind hm (fun L b hL hb => ?_)
    refine (within_mapP hP hQ h r (fun x hx => hP _ _ _ hL (hl x (List.mem_cons_of_mem _ hx)))).bind hm
      (fun M bs hM hbs => ?_)
    intro x hx
    rcases List.mem_cons.1 hx with rfl | hx
    · exact hQ _ _ _ hM hb
    · exact hbs x hx

theorem within_foldP {α β : Type} {f : β → α → Prog F S β} {P : Know → α → Prop} {Q : Know → β → Prop}
    (hP : Mono P) (hQ : Mono Q) {K0 : Know} {o : List Nat}
    (h : ∀ K b a, K0.Le K → Q K b → P K a → (f b a).Within gr Q K o) : ∀ l {K : Know} b, K0.Le K → Q K b →
    (∀ a ∈ l, P K a) → (foldP f b l).Within gr Q K o
  | [], K, b, _, hb, _ => hb
  | a :: r, K, b, hK, hb, hl => by
    refine (h K b a hK hb (hl a List.mem_cons_self)).bind hQ (fun L b' hL hb' => ?_)
    exact within_foldP hP hQ h r b' (hK.trans hL) hb' (fun x hx => hP _ _ _ hL (hl x (List.mem_cons_of_mem _ hx)))

theorem within_call_bind {α : Type} {Q : Know → α → Prop} {c : Call F} {f : c.Ret → Prog F S α} {K : Know} {o : List Nat} :
    (call c >>= f).Within gr Q K o ↔ CallW K c ∧ ∀ L r, K.Le L → RetW L c r → (f r).Within gr Q L o := Iff.rfl
theorem within_copy_bind {α : Type} {Q : Know → α → Prop} {s : Nat} {f : Nat → Prog F S α} {K : Know} {o : List Nat} :
    (prim (.copy s) >>= f).Within gr Q K o ↔
      K.sc s ∧ ∀ L i, K.Le L → L.sc i → L.gs i → (f i).Within gr Q L (i :: o) := Iff.rfl
theorem within_pure {α : Type} {Q : Know → α → Prop} {a : α} {K : Know} {o : List Nat} (h : Q K a) :
    (pure a : Prog F S α).Within gr Q K o := h
theorem within_null {K : Know} {o : List Nat} : (pure .null : Prog F S (V F)).Within gr VW K o :=
  show VW (F := F) K .null from vw_null

variable {H : Host F S} (hH : H.Within gr)
include hH

theorem within_truth {K : Know} {v : V F} {s : Nat} {o : List Nat} (hs : K.sc s) (hv : VW K v) :
    (H.truth v s).Within gr QT K o := (hH.truth K v s hs hv).own mono_QT o

theorem within_andLoopP {s : Nat} {o : List Nat} : ∀ l {K : Know} last, K.sc s → VW K last →
    (andLoopP H s last l).Within gr VW K o
  | [], K, last, hs, hv => hv
  | .mk op t :: r, K, last, hs, hv => by
    refine ⟨hs, fun L v hL hvL => ?_⟩
    refine (within_truth hH (hL.sc hs) hvL).bind mono_VW (fun M b hM _ => ?_)
    have hvM : VW M v := VW.mono hM hvL
    split
    · exact vw_bool
    · refine within_andLoopP r _ (hM.sc (hL.sc hs)) ?_
      split
      · exact hvM
      · exact vw_bool

theorem within_orLoopP {s : Nat} {o : List Nat} : ∀ l {K : Know} last, K.sc s → VW K last →
    (orLoopP H s last l).Within gr VW K o
  | [], K, last, hs, hv => hv
  | .mk op t :: r, K, last, hs, hv => by
    refine ⟨hs, fun L v hL hvL => ?_⟩
    refine (within_truth hH (hL.sc hs) hvL).bind mono_VW (fun M b hM _ => ?_)
    have hvM : VW M v := VW.mono hM hvL
    split
    · split
      · exact hvM
      · exact vw_bool
    · exact within_orLoopP r _ (hM.sc (hL.sc hs)) hvM

theorem within_relP (op : Str) {a b : V F} {s : Nat} {K : Know} {o : List Nat} (hs : K.sc s) (ha : VW K a)
    (hb : VW K b) : (relP H op a b s).Within gr QT K o := by
  have hr : ∀ {L : Know} r x y, K.Le L → VW K x → VW K y → (H.rel r x y s).Within gr QT L o :=
    fun r x y hL hx hy => (hH.rel _ r x y s (hL.sc hs) (VW.mono hL hx) (VW.mono hL hy)).own mono_QT o
  have hK := Know.Le.refl K
  unfold relP
  repeat' split
  all_goals first
    | exact hr _ _ _ hK ha hb
    | exact hr _ _ _ hK hb ha
    | exact (hr _ _ _ hK ha hb).bind mono_QT (fun _ _ _ _ => trivial)
    | trivial
    | (refine (hr _ _ _ hK ha hb).bind mono_QT (fun L r hL _ => ?_)
       split
       · trivial
       · exact hr _ _ _ hL ha hb)

theorem within_addStepP {s : Nat} {acc : V F} (t : AddT) {K : Know} {o : List Nat} (hs : K.sc s)
    (ha : VW K acc) : (addStepP H s acc t).Within gr VW K o := by
  obtain ⟨op, t⟩ := t
  refine ⟨hs, fun L v hL hvL => ?_⟩
  have hr : ∀ r, (H.arith r acc v s).Within gr VW L o :=
    fun r => (hH.arith _ r acc v s (hL.sc hs) (VW.mono hL ha) hvL).own mono_VW o
  show Prog.Within gr VW (ite _ _ _) L o
  split
  · exact hr _
  · split
    · exact hr _
    · exact VW.mono hL ha

theorem within_mulStepP {s : Nat} {acc : V F} (t : MulT) {K : Know} {o : List Nat} (hs : K.sc s)
    (ha : VW K acc) : (mulStepP H s acc t).Within gr VW K o := by
  obtain ⟨op, t⟩ := t
  refine ⟨hs, fun L v hL hvL => ?_⟩
  have hr : ∀ r, (H.arith r acc v s).Within gr VW L o :=
    fun r => (hH.arith _ r acc v s (hL.sc hs) (VW.mono hL ha) hvL).own mono_VW o
  show Prog.Within gr VW (ite _ _ _) L o
  split
  · exact hr _
  · split
    · exact hr _
    · exact VW.mono hL ha

omit hH
theorem within_boundP [FloatOps F] {s : Nat} (e : Option Value) {K : Know} {o : List Nat} (hs : K.sc s) :
    (boundP s e : Prog F S _).Within gr QT K o := by
  cases e with
  | none => trivial
  | some e =>
    refine ⟨hs, fun L v hL hvL => ?_⟩
    show Prog.Within gr QT (match Val.toInt64 v with | none => _ | some i => _) L o
    split <;> trivial

theorem within_memberLoopP [FloatOps F] {s : Nat} {o : List Nat} : ∀ l {K : Know} lhs, K.sc s → VW K lhs →
    (memberLoopP s lhs l : Prog F S _).Within gr VW K o
  | [], K, lhs, hs, hv => hv
  | .range a b :: r, K, lhs, hs, hv => by
    refine (within_boundP a hs).bind mono_VW (fun L x hL _ => ?_)
    split
    · exact vw_null
    · refine (within_boundP b (hL.sc hs)).bind mono_VW (fun M y hM _ => ?_)
      split
      · exact vw_null
      · have hKM := hL.trans hM
        refine ⟨⟨VW.mono hKM hv, trivial, hKM.sc hs⟩, fun N z hN hz => ?_⟩
        obtain ⟨z1, z2⟩ := z
        cases z2
        · exact vw_null
        · exact within_memberLoopP r _ (hN.sc (hKM.sc hs)) (QA.getD hz)
  | .index i :: r, K, lhs, hs, hv => by
    refine ⟨hs, fun L k hL hk => ⟨⟨VW.mono hL hv, hk, hL.sc hs⟩, fun M z hM hz => ?_⟩⟩
    obtain ⟨z1, z2⟩ := z
    cases z2
    · exact vw_null
    · exact within_memberLoopP r _ (hM.sc (hL.sc hs)) (QA.getD hz)
  | .field f :: r, K, lhs, hs, hv => by
    refine ⟨⟨hv, kw_str, hs⟩, fun M z hM hz => ?_⟩
    obtain ⟨z1, z2⟩ := z
    cases z2
    · exact vw_null
    · exact within_memberLoopP r _ (hM.sc hs) (QA.getD hz)
  | .empty :: r, K, lhs, hs, hv => vw_null

theorem within_commaLoopP {s : Nat} {o : List Nat} : ∀ l {K : Know} acc, K.sc s → QL K acc →
    (commaLoopP s acc l : Prog F S _).Within gr VW K o
  | [], K, acc, hs, hv => vw_arr.2 hv
  | .mk none :: r, K, acc, hs, hv => vw_arr.2 hv
  | .mk (some e) :: r, K, acc, hs, hv =>
    ⟨hs, fun L v hL hvL => within_commaLoopP r _ (hL.sc hs) ((hv.mono hL).snoc hvL)⟩

theorem within_buildArgsP {s : Nat} (ps : List Arg) {K : Know} {o : List Nat} (hs : K.sc s) :
    (buildArgsP s ps : Prog F S _).Within gr QD K o := by
  refine within_foldP (P := QT) mono_QT mono_QD (K0 := K) (fun L b a hL hb _ => ?_) _ _ (Know.Le.refl K)
    (fun p hp => nomatch hp) (fun _ _ => trivial)
  obtain ⟨n, r⟩ := a
  cases r with
  | expr e => exact ⟨hL.sc hs, fun M v hM hv => (hb.mono hM).set _ hv⟩
  | select q => exact hb.set _ (vw_obj.2 trivial)
  | array c => exact ⟨hL.sc hs, fun M v hM hv => (hb.mono hM).set _ hv⟩
  | empty => exact hb.set _ (vw_arr.2 (fun v hv => nomatch hv))

theorem within_applyDefaultsP {s : Nat} (ds : List (Str × Arg)) {args : OD (V F)} {K : Know} {o : List Nat}
    (hs : K.sc s) (ha : QD K args) : (applyDefaultsP s ds args : Prog F S _).Within gr QD K o := by
  refine within_foldP (P := QT) mono_QT mono_QD (K0 := K) (fun L b a hL hb _ => ?_) _ _ (Know.Le.refl K)
    ha (fun _ _ => trivial)
  obtain ⟨k, n, r⟩ := a
  show Prog.Within gr QD (match OD.get b k with | some _ => _ | none => _) L o
  split
  · exact hb
  · cases r with
    | expr e => exact ⟨hL.sc hs, fun M v hM hv => (hb.mono hM).set _ hv⟩
    | select q => exact hb.set _ (vw_obj.2 trivial)
    | array c => exact ⟨hL.sc hs, fun M v hM hv => (hb.mono hM).set _ hv⟩
    | empty => exact hb.set _ (vw_arr.2 (fun v hv => nomatch hv))

theorem within_materializeP {s : Nat} {q : V F} {K : Know} {o : List Nat} (hs : K.sc s) (hq : VW K q) :
    (materializeP s q : Prog F S _).Within gr QL K o :=
  ⟨hs, fun L i hL h1 _ => ⟨⟨VW.mono hL hq, h1⟩, fun M r hM hr => hr⟩⟩

theorem within_fnArgsP {s : Nat} (ps : List Arg) {K : Know} {o : List Nat} (hs : K.sc s) :
    (fnArgsP s ps : Prog F S _).Within gr QD K o := by
  refine within_foldP (P := QT) mono_QT mono_QD (K0 := K) (fun L b a hL hb _ => ?_) _ _ (Know.Le.refl K)
    (fun p hp => nomatch hp) (fun _ _ => trivial)
  obtain ⟨n, r⟩ := a
  cases r with
  | expr e => exact ⟨hL.sc hs, fun M v hM hv => (hb.mono hM).set _ (vw_obj.2 hv)⟩
  | select q => exact hb.set _ (vw_obj.2 trivial)
  | array c => exact ⟨hL.sc hs, fun M v hM hv => (hb.mono hM).set _ hv⟩
  | empty => exact hb.set _ (vw_arr.2 (fun v hv => nomatch hv))

theorem qo_none {K : Know} : QO (F := F) K none := fun v hv => nomatch hv
theorem qo_some {K : Know} {v : V F} (hv : VW K v) : QO K (some v) := fun w hw => by cases hw; exact hv

theorem within_walkP {s : Nat} {o : List Nat} : ∀ l first {K : Know} v, K.sc s → VW K v →
    (walkP s first v l : Prog F S _).Within gr QO K o
  | [], first, K, v, hs, hv => qo_some hv
  | c :: r, first, K, v, hs, hv => by
    refine ⟨⟨hv, kw_str, hs⟩, fun L z hL hz => ?_⟩
    obtain ⟨z1, z2⟩ := z
    cases z2
    · cases first
      · exact qo_none
      · exact qo_none
    · exact within_walkP r _ _ (hL.sc hs) (QA.getD hz)

theorem within_negateP (neg : Bool) {v : V F} {s : Nat} {K : Know} {o : List Nat} (hs : K.sc s) (hv : VW K v) :
    (negateP neg v s : Prog F S _).Within gr VW K o := by
  unfold negateP
  split
  · exact ⟨⟨hv, hs⟩, fun L r hL hr => hr⟩
  · exact hv

theorem within_argsP (called : Bool) {s : Nat} (ps : List Arg) {K : Know} {o : List Nat} (hs : K.sc s) :
    (argsP called s ps : Prog F S _).Within gr QD K o := by
  unfold argsP
  split
  · exact within_buildArgsP ps hs
  · exact fun p hp => nomatch hp

theorem within_agP (called : Bool) {s : Nat} {K : Know} {o : List Nat} (h : s ∈ o) :
    (agP called s : Prog F S _).Within gr QT K o := by
  unfold agP
  split
  · exact ⟨h, fun _ _ => trivial⟩
  · trivial

theorem within_queryDefaultsP {s : Nat} (v : V F) {a : OD (V F)} {K : Know} {o : List Nat} (hs : K.sc s)
    (ha : QD K a) : (queryDefaultsP s v a : Prog F S _).Within gr QD K o := by
  unfold queryDefaultsP
  split
  · exact within_applyDefaultsP _ hs ha
  · exact ha

theorem within_findP (isReg : Str → Bool) (mk : Str → Obj) (hmk : ∀ K n, OW K (mk n)) (called : Bool)
    (comps : List Str) {s : Nat} {K : Know} {o : List Nat} (hs : K.sc s) :
    (findP isReg mk called comps s : Prog F S _).Within gr QO K o := by
  have hsc : VW (F := F) K (.obj (.scope s)) := vw_obj.2 hs
  unfold findP
  split
  · split
    · exact qo_some (vw_obj.2 (hmk _ _))
    · exact within_walkP _ _ _ hs hsc
  · exact within_walkP _ _ _ hs hsc

include hH
theorem within_callFunctionP (node : Nat) (name : Str) (ps : List Arg) {s : Nat} {K : Know} {o : List Nat}
    (hs : K.sc s) : (callFunctionP H node name ps s).Within gr VW K o :=
  (within_fnArgsP ps hs).bind mono_VW (fun L args hL ha => fun f =>
    (hH.fn L _ _ _ _ (hL.sc hs) ha).own mono_VW o)

theorem within_symValueP (node : Nat) (symbol : Str) (called : Bool) (ps : List Arg) (neg : Bool)
    {s : Nat} {v : V F} {K : Know} {o : List Nat} (hs : K.sc s) (hv : VW K v) :
    (symValueP H node symbol called ps neg s v).Within gr VW K o := by
  unfold symValueP
  split
  · split
    · exact (show VW (F := F) K .null from vw_null)
    · exact (within_callFunctionP hH _ _ _ hs).bind mono_VW (fun L v hL hvL => within_negateP _ (hL.sc hs) hvL)
  · refine within_copy_bind.2 ⟨hs, fun L sub hL h1 h2 => ?_⟩
    refine Prog.Within.bind mono_VW (within_agP _ List.mem_cons_self) (fun M _ hM _ => ?_)
    intro d
    show Prog.Within gr VW (ite _ _ _) _ _
    split
    · exact vw_null
    · have hsM := hM.sc (hL.sc hs)
      refine (within_argsP _ _ hsM).bind mono_VW (fun N a1 hN ha1 => ?_)
      refine (within_applyDefaultsP _ (hN.sc hsM) ha1).bind mono_VW (fun O a2 hO ha2 => ?_)
      refine ⟨List.mem_cons_self, vw_dict.2 ha2, ⟨hO.sc (hN.sc (hM.sc h1)), fun P v hP hvP => ?_⟩⟩
      exact within_negateP _ (hP.sc (hO.sc (hN.sc hsM))) hvP
  · split
    · refine ⟨hs, fun L sub hL h1 h2 => ⟨List.mem_cons_self, fun M hM d => ?_⟩⟩
      show Prog.Within gr VW (ite _ _ _) _ _
      split
      · exact vw_null
      · have hsM := hM.sc (hL.sc hs)
        refine (within_argsP _ _ hsM).bind mono_VW (fun N a1 hN ha1 => ?_)
        refine (within_queryDefaultsP _ (hN.sc hsM) ha1).bind mono_VW (fun O a2 hO ha2 => ?_)
        refine ⟨List.mem_cons_self, vw_dict.2 ha2, ?_⟩
        have hKO := hL.trans (hM.trans (hN.trans hO))
        refine ⟨VW.mono hKO hv, hO.sc (hN.sc (hM.sc h1)), fun P c hP hc => ?_⟩
        exact within_negateP _ (hP.sc (hO.sc (hN.sc hsM))) (vw_obj.2 hc)
    · split
      · exact (show VW (F := F) K .null from vw_null)
      · exact within_negateP _ hs hv

theorem within_symP (node : Nat) (symbol : Str) (called : Bool) (ps : List Arg)
    {s : Nat} {K : Know} {o : List Nat} (hs : K.sc s) : (symP H node symbol called ps s).Within gr VW K o := by
  intro first
  refine (within_findP H.isFn Obj.fn (fun _ _ => trivial) _ _ hs).bind mono_VW (fun L found hL hf => ?_)
  split
  · exact vw_null
  · exact within_symValueP hH _ _ _ _ _ (hL.sc hs) (hf _ rfl)

omit hH
theorem within_starP (dedup : Bool) {s : Nat} {row : V F} {cols : List (Str × Getter F)} {K : Know} {o : List Nat}
    (hs : K.sc s) (hr : VW K row) (hc : QG K cols) :
    (starP dedup s row cols : Prog F S _).Within gr QG K o := by
  refine ⟨⟨hr, hs⟩, fun L ms hL _ => ?_⟩
  refine within_foldP (P := QT) mono_QT mono_QG (K0 := L) (fun M b a hM hb _ => ?_) _ _ (Know.Le.refl L)
    (hc.mono hL) (fun _ _ => trivial)
  show Prog.Within gr QG (ite _ _ _) _ _
  split
  · exact hb
  · have hKM := hL.trans hM
    refine ⟨⟨VW.mono hKM hr, kw_str, hKM.sc hs⟩, fun N z hN hz => ?_⟩
    obtain ⟨z1, z2⟩ := z
    cases z2
    · exact hb.mono hN
    · intro p hp
      rcases List.mem_append.1 hp with hp | hp
      · exact (hb.mono hN) p hp
      · rw [List.mem_singleton.1 hp]
        exact QA.getD hz

theorem within_allColsP (all : Bool) {s : Nat} {row : V F} {K : Know} {o : List Nat}
    (hs : K.sc s) (hr : VW K row) : (allColsP all s row : Prog F S _).Within gr QG K o := by
  unfold allColsP
  split
  · exact within_starP _ hs hr (fun p hp => nomatch hp)
  · exact fun p hp => nomatch hp

/-- The new lazy row is known, with its getters. -/
def QR (K : Know) (c : Nat) : Prop := K.rw c ∧ K.rg c
theorem mono_QR : Mono QR := fun _ _ _ h hc => ⟨h.rw hc.1, h.rg hc.2⟩

theorem within_transformP (all : Bool) (cols : List Col) {s : Nat} {row : V F} {K : Know} {o : List Nat}
    (hs : K.sc s) (hr : VW K row) : (transformP H all cols s row).Within gr QR K o := by
  refine Prog.Within.bind mono_QR (within_allColsP all hs hr) (fun L init hL hi => ?_)
  refine ⟨hL.sc hs, fun M ns hM h1 h2 => ⟨List.mem_cons_self, VW.mono (hL.trans hM) hr, ?_⟩⟩
  have hKM := hL.trans hM
  refine Prog.Within.bind mono_QR (Q := QG)
    (within_foldP (P := QT) mono_QT mono_QG (K0 := M) (fun N b a hN hb _ => ?_) _ _ (Know.Le.refl M)
      (hi.mono hM) (fun _ _ => trivial)) (fun N g hN hg => ⟨hg, fun O i hO h3 h4 => ⟨h3, h4⟩⟩)
  unfold addColP
  split
  · exact within_starP _ (hN.sc (hKM.sc hs)) (VW.mono (hKM.trans hN) hr) hb
  · intro p hp
    rcases List.mem_append.1 hp with hp | hp
    · exact hb p hp
    · rw [List.mem_singleton.1 hp]
      exact ⟨hN.gs h2, hN.sc h1⟩

theorem getter_mem_cols {r : RowCell F} {k : Str} {g : Getter F} (h : r.getter k = some g) : (k, g) ∈ r.cols := by
  simp only [RowCell.getter, Option.map_eq_some_iff] at h
  obtain ⟨p, h1, h2⟩ := h
  have h3 := List.find?_some h1
  have h4 := List.mem_of_find?_eq_some h1
  obtain ⟨a, b⟩ := p
  simp only [decide_eq_true_eq] at h3 h2
  subst h3 h2
  simpa using h4

theorem within_matColP {cell : Nat} {acc : OD (V F)} (c : Str) {K : Know} {o : List Nat} (hc : QR K cell)
    (ha : QD K acc) : (matColP cell acc c : Prog F S _).Within gr QD K o := by
  refine ⟨hc.1, fun L r hL h1 h2 => ?_⟩
  show Prog.Within gr QD (match OD.get r.cache c with | some v => _ | none => _) _ _
  split
  · rename_i v hv
    exact (ha.mono hL).set _ (h1 _ (OD.mem_of_get hv))
  · split
    · exact ha.mono hL
    · rename_i g hg
      exact ⟨(h2 hc.2) _ (getter_mem_cols hg), fun M v hM hv => (ha.mono (hL.trans hM)).set _ hv⟩

theorem within_matRowP {cell : Nat} {K : Know} {o : List Nat} (hc : QR K cell) :
    (matRowP cell : Prog F S _).Within gr VW K o := by
  refine ⟨hc.1, fun L r hL h1 h2 => ?_⟩
  refine Prog.Within.bind mono_VW (Q := QD)
    (within_foldP (P := QT) mono_QT mono_QD (K0 := L) (fun N b a hN hb _ => ?_) _ _ (Know.Le.refl L)
      (fun p hp => nomatch hp) (fun _ _ => trivial)) (fun M d hM hd => vw_dict.2 hd)
  exact within_matColP a (mono_QR _ _ _ (hL.trans hN) hc) hb

include hH
theorem ql_one {K : Know} {v : V F} (h : VW K v) : QL K [v] := fun w hw => by rw [List.mem_singleton.1 hw]; exact h
theorem ql_nil {K : Know} : QL (F := F) K [] := fun w hw => nomatch hw

theorem within_processRowP (all : Bool) (cols : List Col) (w : Option Comma) {s : Nat} {row : V F}
    {K : Know} {o : List Nat} (hs : K.sc s) (hr : VW K row) :
    (processRowP H all cols w s row).Within gr QL K o := by
  refine ⟨hs, fun L sub hL h1 h2 => ?_⟩
  refine (within_transformP all cols h1 (VW.mono hL hr)).bind mono_QL (fun M cell hM hc => ?_)
  cases w with
  | none => exact (within_matRowP hc).bind mono_QL (fun N v hN hv => ql_one hH hv)
  | some w =>
    refine ⟨hM.sc h1, fun N ns hN h3 h4 => ?_⟩
    refine ⟨List.mem_cons_self, VW.mono (hL.trans (hM.trans hN)) hr, List.mem_cons_self,
      vw_obj.2 (hN.rw hc.1), h3, fun P v hP hv => ?_⟩
    refine (within_truth hH ((hL.trans (hM.trans (hN.trans hP))).sc hs) hv).bind mono_QL (fun Q b hQ _ => ?_)
    split
    · exact (within_matRowP (mono_QR _ _ _ (hN.trans (hP.trans hQ)) hc)).bind mono_QL (fun R v hR hv => ql_one hH hv)
    · exact ql_nil hH

/-- Bins of the grouper: contexts and rows are known. -/
def QB (K : Know) (b : OD (Bin F)) : Prop := ∀ p ∈ b, K.cx p.2.ctx ∧ VW K p.2.row
omit hH in
theorem mono_QB : Mono (QB (F := F)) := fun _ _ _ h hb p hp => ⟨h.cx (hb p hp).1, (hb p hp).2.mono h⟩

omit hH in
theorem mem_update_bin {β : Type} {d : OD β} {k : Str} {v : β} {p : Str × β} (h : p ∈ OD.update d k v) :
    p ∈ d ∨ p.2 = v := by
  unfold OD.update at h
  split at h
  · simp only [List.mem_map] at h
    obtain ⟨q, h1, h2⟩ := h
    split at h2
    · subst h2; exact Or.inr rfl
    · subst h2; exact Or.inl h1
  · rcases List.mem_append.1 h with h | h
    · exact Or.inl h
    · rw [List.mem_singleton.1 h]; exact Or.inr rfl

theorem within_passP (w : Option Comma) {ns g : Nat} {K : Know} {o : List Nat} (h1 : K.sc ns) (hg : K.sc g) :
    (passP H w ns g).Within gr QT K o := by
  unfold passP
  cases w with
  | none => trivial
  | some w => exact ⟨h1, fun L v hL hv => within_truth hH (hL.sc hg) hv⟩

omit hH in
theorem within_binCtxP {bins : OD (Bin F)} (key : Str) {K : Know} {o : List Nat} (hb : QB K bins) :
    (binCtxP bins key : Prog F S _).Within gr (fun K c => K.cx c) K o := by
  unfold binCtxP
  split
  · rename_i b hbk
    exact (hb _ (OD.mem_of_get hbk)).1
  · exact fun L i hL h1 => h1

theorem within_groupRowP (all : Bool) (cols : List Col) (w : Option Comma) (gb : Comma) {g : Nat}
    {bins : OD (Bin F)} {row : V F} {K : Know} {o : List Nat} (hs : K.sc g) (hb : QB K bins) (hr : VW K row) :
    (groupRowP H all cols w gb g bins row).Within gr QB K o := by
  refine ⟨hs, fun L ns hL h1 h2 => ?_⟩
  refine (within_transformP all cols h1 (VW.mono hL hr)).bind mono_QB (fun M cell hM hc => ?_)
  have hKM := hL.trans hM
  refine ⟨List.mem_cons_self, VW.mono hKM hr, List.mem_cons_self, vw_obj.2 hc.1, ?_⟩
  refine (within_passP hH w (hM.sc h1) (hKM.sc hs)).bind mono_QB (fun N pass hN _ => ?_)
  have hKN := hKM.trans hN
  split
  · exact mono_QB _ _ _ hKN hb
  · refine ⟨hN.sc (hM.sc h1), fun P k hP hk => ?_⟩
    refine ((hH.toStr P k ns (hP.sc (hN.sc (hM.sc h1))) hk).own mono_QT _).bind mono_QB (fun Q key hQ _ => ?_)
    have hKQ := hKN.trans (hP.trans hQ)
    refine (within_binCtxP key (mono_QB _ _ _ hKQ hb)).bind mono_QB (fun R c hR hcx => ?_)
    refine ⟨List.mem_cons_self, hcx, ?_⟩
    refine (within_matRowP (mono_QR _ _ _ (hN.trans (hP.trans (hQ.trans hR))) hc)).bind mono_QB
      (fun T out hT hout => ?_)
    intro p hp
    rcases mem_update_bin hp with hp | hp
    · exact mono_QB _ _ _ (hKQ.trans (hR.trans hT)) hb p hp
    · rw [hp]
      exact ⟨hT.cx hcx, hout⟩

omit hH
theorem within_storeArgP {sub : Nat} {v : V F} {K : Know} {o : List Nat} (hs : K.sc sub) (hv : VW K v) :
    (storeArgP sub v : Prog F S _).Within gr VW K o := by
  unfold storeArgP
  split
  · exact ⟨vw_obj.1 hv, fun L r hL hr => hr⟩
  · exact vw_arr.2 (vw_query.1 hv)
  · split
    · exact (within_materializeP hs hv).bind mono_VW (fun L rows hL hr => vw_arr.2 hr)
    · exact hv

theorem within_logsP {α : Type} {Q : Know → α → Prop} {p : Unit → Prog F S α} {K : Know} {o : List Nat} :
    ∀ msgs : List Str, (p ()).Within gr Q K o → (logsP msgs >>= p : Prog F S α).Within gr Q K o
  | [], h => h
  | _ :: r, h => within_logsP r h

theorem within_storedQueryCallP (q : SQuery) {s : Nat} {args : OD (V F)} {K : Know} {o : List Nat} (hs : K.sc s)
    (ha : QD K args) : (storedQueryCallP q s args : Prog F S _).Within gr QL K o := by
  refine ⟨hs, fun L sub hL h1 h2 => ⟨List.mem_cons_self, fun M hM => ?_⟩⟩
  refine within_logsP _ ?_
  refine Prog.Within.bind mono_QL (Q := QD)
    (within_foldP (P := fun K (p : Str × V F) => VW K p.2) (fun _ _ _ h hp => VW.mono h hp) mono_QD (K0 := M)
      (fun N b a hN hb ha => ?_) _ _ (Know.Le.refl M) (fun p hp => nomatch hp)
      (fun p hp => VW.mono (hL.trans hM) (ha p hp))) (fun N vars hN hv => ?_)
  · exact (within_storeArgP (hN.sc (hM.sc h1)) ha).bind mono_QD (fun P v hP hv => (hb.mono hP).set _ hv)
  · exact ⟨List.mem_cons_self, vw_dict.2 hv, ⟨vw_obj.2 trivial, hN.sc (hM.sc h1)⟩, fun P r hP hr => hr⟩

theorem within_resolveLoopP {s : Nat} (name : Str) {o : List Nat} : ∀ l {K : Know} d, K.sc s → QO K d →
    QL K l → (resolveLoopP s name d l : Prog F S _).Within gr QA K o
  | [], K, d, hs, hd, hl => hd
  | r :: rs, K, d, hs, hd, hl => by
    refine ⟨⟨hl r List.mem_cons_self, kw_str, hs⟩, fun L z hL hz => ?_⟩
    obtain ⟨z1, z2⟩ := z
    cases z2
    · refine within_resolveLoopP name rs _ (hL.sc hs) ?_ (fun v hv => (hl v (List.mem_cons_of_mem _ hv)).mono hL)
      split
      · exact hz
      · exact hd.mono hL
    · exact qo_some (QA.getD hz)

theorem within_unwrapP {s : Nat} {i : V F} {K : Know} {o : List Nat} (hs : K.sc s) (hi : VW K i) :
    (unwrapP s i : Prog F S _).Within gr QL K o := by
  refine within_call_bind.2 ⟨⟨hi, hs⟩, fun L (ms : List Str) hL _ => ?_⟩
  split
  · refine ⟨⟨VW.mono hL hi, kw_str, hL.sc hs⟩, fun M z hM hz => ?_⟩
    obtain ⟨z1, z2⟩ := z
    cases z2
    · exact fun v hv => nomatch hv
    · intro v hv
      rw [List.mem_singleton.1 hv]
      exact QA.getD hz
  · intro v hv
    rw [List.mem_singleton.1 hv]
    exact VW.mono hL hi

include hH
theorem within_assocStrP {a : V F} (k : Str) {s : Nat} {K : Know} {o : List Nat} (hs : K.sc s) (ha : VW K a) :
    (assocStrP H a k s).Within gr QA K o := by
  have hd : ∀ k, KeyW K k → (H.assocDefault a k s).Within gr QA K o :=
    fun k hk => (hH.assocDefault K a k s hs ha hk).own mono_QA o
  unfold assocStrP
  split
  · exact qo_some vw_null
  · exact ⟨vw_obj.1 ha, fun L r hL hr => hr⟩
  · exact ⟨hs, fun L sub hL h1 _ => ⟨h1, fun M v hM hv =>
      ⟨⟨hv, kw_str, (hL.trans hM).sc hs⟩, fun N r hN hr => hr⟩⟩⟩
  · exact ⟨vw_obj.1 ha, fun L r hL hr => hr⟩
  · split
    · exact hd _ kw_str
    · split
      · rename_i v hv
        exact qo_some (vw_dict.1 ha _ (OD.mem_of_get hv))
      · exact qo_none
  · split
    · refine within_call_bind.2 ⟨⟨ha, hs⟩, fun L rows hL hrows => ?_⟩
      refine Prog.Within.bind mono_QA (Q := QL) (within_mapP (P := fun K r => VW K r ∧ K.sc s)
        (fun _ _ _ h hp => ⟨VW.mono h hp.1, h.sc hp.2⟩) mono_VW (fun M r hr => ?_) _
        (fun r hr => ⟨hrows r hr, hL.sc hs⟩)) (fun M vs hM hvs => qo_some (vw_arr.2 hvs))
      refine ⟨⟨hr.1, kw_str, hr.2⟩, fun N z hN hz => ?_⟩
      obtain ⟨z1, z2⟩ := z
      cases z2
      · exact vw_null
      · exact QA.getD hz
    · split
      · rename_i p hp
        exact (hH.assocImpl _ _ _ _ _ hs ha kw_str hp).own mono_QA o
      · split
        · refine Prog.Within.bind mono_QA (Q := QL) (within_foldP (P := VW) mono_VW mono_QL (K0 := K)
            (fun M b x hM hb hx => ?_) _ _ (Know.Le.refl K) (fun v hv => nomatch hv)
            (vw_arr.1 ha)) (fun M vs hM hvs => qo_some (vw_arr.2 hvs))
          refine ⟨⟨hx, kw_str, hM.sc hs⟩, fun N z hN hz => ?_⟩
          obtain ⟨z1, z2⟩ := z
          cases z2
          · exact hb.mono hN
          · exact (hb.mono hN).snoc (QA.getD hz)
        · exact hd _ kw_str

/-- The code of every method but the two that fill the caches stays within what it is given. -/
theorem within_body [FloatOps F] (c : Call F) {K : Know} (hc : CallW K c)
    (h1 : ∀ i k, c ≠ .rowGet i k) (h2 : ∀ i, c ≠ .lazyReduce i) :
    (body H c).Within gr (fun K r => RetW K c r) K [] := by
  cases c with
  | and e s =>
    obtain ⟨l, r⟩ := e
    refine ⟨hc, fun L left hL hl => ?_⟩
    show Prog.Within gr _ (match r with | [] => _ | r => _) _ _
    split
    · exact hl
    · refine (within_truth hH (hL.sc hc) hl).bind mono_VW (fun M b hM _ => ?_)
      split
      · exact vw_bool
      · exact within_andLoopP hH _ _ (hM.sc (hL.sc hc)) (VW.mono hM hl)
  | or e s =>
    obtain ⟨l, r⟩ := e
    refine ⟨hc, fun L left hL hl => ?_⟩
    show Prog.Within gr _ (match r with | [] => _ | r => _) _ _
    split
    · exact hl
    · refine (within_truth hH (hL.sc hc) hl).bind mono_VW (fun M b hM _ => ?_)
      split
      · exact VW.mono hM hl
      · exact within_orLoopP hH _ _ (hM.sc (hL.sc hc)) (VW.mono hM hl)
  | cond e s =>
    cases e with
    | not c =>
      exact ⟨hc, fun L v hL hv => (within_truth hH (hL.sc hc) hv).bind mono_VW (fun M b hM _ => vw_bool)⟩
    | cmp l r =>
      cases r with
      | none => exact ⟨hc, fun L v hL hv => hv⟩
      | some t =>
        obtain ⟨op, r⟩ := t
        exact ⟨hc, fun L a hL ha => ⟨hL.sc hc, fun M b hM hb =>
          (within_relP hH _ (hM.sc (hL.sc hc)) (VW.mono hM ha) hb).bind mono_VW (fun _ _ _ _ => vw_bool)⟩⟩
  | add e s =>
    obtain ⟨l, r⟩ := e
    exact ⟨hc, fun L v hL hv => within_foldP (P := QT) mono_QT mono_VW (K0 := L)
      (fun M b a hM hb _ => within_addStepP hH a (hM.sc (hL.sc hc)) hb) _ _ (Know.Le.refl L) hv (fun _ _ => trivial)⟩
  | mul e s =>
    obtain ⟨l, r⟩ := e
    exact ⟨hc, fun L v hL hv => within_foldP (P := QT) mono_QT mono_VW (K0 := L)
      (fun M b a hM hb _ => within_mulStepP hH a (hM.sc (hL.sc hc)) hb) _ _ (Know.Le.refl L) hv (fun _ _ => trivial)⟩
  | member e s =>
    obtain ⟨l, r⟩ := e
    exact ⟨hc, fun L v hL hv => within_memberLoopP _ _ (hL.sc hc) hv⟩
  | comma e s =>
    obtain ⟨l, r⟩ := e
    refine ⟨hc, fun L v hL hv => ?_⟩
    show Prog.Within gr _ (match r with | [] => _ | r => _) _ _
    split
    · exact hv
    · exact within_commaLoopP _ _ (hL.sc hc) (ql_one hH hv)
  | value e s =>
    cases e with
    | num t =>
      show Prog.Within gr _ (match H.num t with | some v => _ | none => _) _ _
      split
      · rename_i v hv
        exact VW.mono K.none_le (hH.num _ _ hv)
      · exact (show VW (F := F) K .null from vw_null)
    | sub c => exact ⟨hc, fun L v hL hv => hv⟩
    | sym e => exact ⟨hc, fun L v hL hv => hv⟩
    | str t => exact (show VW (F := F) K (.str t) from vw_str)
    | bool t => exact (show VW (F := F) K (.bool (decide (t.map upperByte = bs "TRUE"))) from vw_bool)
    | null => exact (show VW (F := F) K .null from vw_null)
  | sym e s =>
    obtain ⟨node, symbol, called, ps⟩ := e
    exact within_symP hH _ _ _ _ hc
  | negate v s =>
    obtain ⟨hv, hs⟩ := hc
    show Prog.Within gr _ (match v with | .obj (.lazy c) => _ | .bool b => _ | .float f => _ | .int i => _ | _ => _) _ _
    split
    · exact ⟨⟨vw_obj.1 hv, hs⟩, fun L v hL hv => ⟨⟨hv, hL.sc hs⟩, fun M r hM hr => hr⟩⟩
    · show VW (F := F) K _
      exact vw_bool
    · show VW (F := F) K _
      exact vw_float
    · show VW (F := F) K _
      exact vw_int
    · show VW (F := F) K _
      exact vw_null
  | col c s =>
    obtain ⟨b, a⟩ := c
    cases b with
    | star => exact (show VW (F := F) K .null from vw_null)
    | expr e => exact ⟨hc, fun L v hL hv => hv⟩
    | select q =>
      refine within_call_bind.2 ⟨hc, fun L items hL hi => ?_⟩
      refine Prog.Within.bind mono_VW (Q := QL) (within_foldP (P := VW) mono_VW mono_QL (K0 := L)
        (fun M b a hM hb ha => (within_unwrapP (hM.sc (hL.sc hc)) ha).bind mono_QL
          (fun N r hN hr => within_pure ((hb.mono hN).append hr))) _ _ (Know.Le.refl L) (fun v hv => nomatch hv) hi)
        (fun M rows hM hr => ?_)
      split
      · exact hr _ List.mem_cons_self
      · exact vw_arr.2 hr
  | getter g =>
    cases g with
    | const v => exact hc
    | col c n ns =>
      refine ⟨hc.1, hc.2, fun L item hL hi => ?_⟩
      show Prog.Within gr _ (colValueP _ _) _ _
      unfold colValueP
      split
      · exact vw_arr.2 (vw_query.1 hi)
      · split
        · exact (within_materializeP (hL.sc hc.2) hi).bind mono_VW (fun M rows hM hr => vw_arr.2 hr)
        · exact hi
  | rowGet c k => exact absurd rfl (h1 _ _)
  | lazyWith c s =>
    refine ⟨hc.1, fun L l hL hl => ⟨hl.scope, fun M r hM hr => ?_⟩⟩
    have hr : VW M r := hr
    show Prog.Within gr _ (match r with | .query rows => _ | .obj (.lazy c') => _ | r => _) _ _
    split
    · exact vw_arr.2 (vw_query.1 hr)
    · exact ⟨vw_obj.1 hr, fun N v hN hv => hv⟩
    · exact hr
  | lazyReduce c => exact absurd rfl (h2 _)
  | resolve s name =>
    intro d
    show Prog.Within gr _ (ite _ _ _) _ _
    split
    · exact qo_some vw_null
    · exact ⟨hc, fun L vars hL hv => within_resolveLoopP _ _ _ (hL.sc hc) qo_none
        (fun v hv' => hv v (List.mem_reverse.1 hv'))⟩
  | assoc a k s =>
    obtain ⟨ha, hk, hs⟩ := hc
    show Prog.Within gr _ (match k with | .val (.str n) => _ | k => _) _ _
    split
    · exact within_assocStrP hH _ hs ha
    · split
      · exact qo_some vw_null
      · split
        · rename_i p hp
          exact hH.assocImpl _ _ _ _ _ hs ha hk hp
        · split
          · exact ⟨⟨vw_arr.2 (vw_query.1 ha), hk, hs⟩, fun L r hL hr => hr⟩
          · exact hH.assocDefault _ _ _ _ hs ha hk
  | members v s =>
    obtain ⟨hv, hs⟩ := hc
    show Prog.Within gr _ (match v with
      | .obj (.scope _) => _ | .obj (.row c) => _ | .dict d => _ | .null => _
      | .arr (x :: _) => _ | .query (x :: _) => _ | v => _) _ _
    split
    · trivial
    · exact ⟨vw_obj.1 hv, fun L r hL _ _ => trivial⟩
    · trivial
    · trivial
    · exact ⟨⟨vw_arr.1 hv _ List.mem_cons_self, hs⟩, fun L r hL hr => trivial⟩
    · exact ⟨⟨vw_query.1 hv _ List.mem_cons_self, hs⟩, fun L r hL hr => trivial⟩
    · exact (hH.hostMembers _ _ _ hs hv)
  | select q s =>
    obtain ⟨ex, all, cols, from_, w, gb, ob, lim⟩ := q
    cases lim with
    | some n => exact ⟨hc, fun L rows hL hr => fun v hv => hr v (List.mem_of_mem_take hv)⟩
    | none =>
      cases gb with
      | some gb =>
        refine ⟨hc, fun L rows hL hr => ⟨hL.sc hc, fun M g hM h3 h4 => ?_⟩⟩
        refine Prog.Within.bind mono_QL (Q := QB) (within_foldP (P := VW) mono_VW mono_QB (K0 := M)
          (fun N b a hN hb ha => within_groupRowP hH _ _ _ _ (hN.sc h3) hb ha) _ _ (Know.Le.refl M)
          (fun p hp => nomatch hp) (hr.mono hM)) (fun N bins hN hb => ?_)
        have hout : QL N (bins.map (fun b => b.2.row)) := by
          intro v hv
          obtain ⟨b, hb', rfl⟩ := List.mem_map.1 hv
          exact (hb b hb').2
        cases ob with
        | none => exact hout
        | some kd =>
          obtain ⟨k, d⟩ := kd
          exact (hH.sort _ _ _ _ _ (hN.sc (hM.sc (hL.sc hc))) hout).own mono_QL _
      | none =>
        cases ob with
        | some kd =>
          obtain ⟨k, d⟩ := kd
          exact ⟨hc, fun L rows hL hr => hH.sort _ _ _ _ _ (hL.sc hc) hr⟩
        | none =>
          refine ⟨hc, fun L rows hL hr => ?_⟩
          exact within_foldP (P := VW) mono_VW mono_QL (K0 := L)
            (fun M b a hM hb ha => (within_processRowP hH _ _ _ (hM.sc (hL.sc hc)) ha).bind mono_QL
              (fun N r hN hr => within_pure ((hb.mono hN).append hr))) _ _ (Know.Le.refl L) (fun v hv => nomatch hv) hr
  | plugin p s =>
    obtain ⟨name, called, args⟩ := p
    refine (within_findP H.isPlugin Obj.plugin (fun _ _ => trivial) _ _ hc).bind mono_QL (fun L found hL hf => ?_)
    split
    · exact fun v hv => nomatch hv
    · split
      · exact ⟨⟨hf _ rfl, hL.sc hc⟩, fun M r hM hr => hr⟩
      · exact ⟨⟨hf _ rfl, hL.sc hc⟩, fun M r hM hr => hr⟩
  | evalSymbolWithArgs ps v s =>
    obtain ⟨hv, hs⟩ := hc
    intro d
    show Prog.Within gr _ (ite _ _ _) _ _
    split
    · exact fun v hv => nomatch hv
    · split
      · refine ⟨hs, fun L sub hL h3 h4 => ?_⟩
        refine (within_buildArgsP _ (hL.sc hs)).bind mono_QL (fun M a1 hM ha1 => ?_)
        refine (within_applyDefaultsP _ (hM.sc (hL.sc hs)) ha1).bind mono_QL (fun N a2 hN ha2 => ?_)
        exact ⟨List.mem_cons_self, vw_dict.2 ha2, hN.sc (hM.sc h3), fun P r hP hr =>
          ⟨⟨hr, hP.sc (hN.sc (hM.sc (hL.sc hs)))⟩, fun Q r hQ hr => hr⟩⟩
      · exact (within_buildArgsP _ hs).bind mono_QL (fun L a1 hL ha1 => hH.plugin _ _ _ _ (hL.sc hs) ha1)
      · refine (within_buildArgsP _ hs).bind mono_QL (fun M a1 hM ha1 => ?_)
        refine (within_applyDefaultsP _ (hM.sc hs) ha1).bind mono_QL (fun N a2 hN ha2 => ?_)
        exact within_storedQueryCallP _ (hN.sc (hM.sc hs)) ha2
      · exact fun v hv => nomatch hv
  | evalSymbol v s =>
    obtain ⟨hv, hs⟩ := hc
    intro d
    show Prog.Within gr _ (ite _ _ _) _ _
    split
    · exact fun v hv => nomatch hv
    · split
      · exact ⟨hs, fun L r hL hr => ⟨⟨hr, hL.sc hs⟩, fun M r hM hr => hr⟩⟩
      · exact vw_arr.1 hv
      · split
        · exact ⟨⟨hv, hs⟩, fun L r hL hr => hr⟩
        · exact ql_one hH hv
  | evalQuery v s =>
    obtain ⟨hv, hs⟩ := hc
    show Prog.Within gr _ (match v with
      | .obj (.squery q) => _ | .obj (.select q) => _ | .obj (.site c) => _ | .query rows => _ | _ => _) _ _
    split
    · exact ⟨hs, fun L ns hL h3 _ => ⟨h3, fun M r hM hr => hr⟩⟩
    · exact ⟨hs, fun M r hM hr => hr⟩
    · refine ⟨vw_obj.1 hv, fun L x hL hx => ?_⟩
      obtain ⟨a, b⟩ := x
      exact ⟨hx, fun M r hM hr => hr⟩
    · exact vw_query.1 hv
    · exact fun v hv => nomatch hv

omit hH
/-! ## Running the evaluator -/

/-- A value is stored in the cache of a known row. -/
theorem tr_rowSet {gp : Bool} {X : Option (Nat × Nat)} {K J : Know} {st : St F S} (h : Wd gr X K J st) {c : Nat} (hc : K.rw c)
    (hj : ¬J.rw c) (hX : ∀ ns, X ≠ some (c, ns)) (k : Str) {v : V F} (hv : VW K v) :
    Tr gp gr X K J st K J ((Prim.rowSet c k v : Prim F S).step st).2 := by
  obtain ⟨r, hr, hw⟩ := h.closed.rw c hc
  have hst : ((Prim.rowSet c k v : Prim F S).step st).2 =
      { st with rows := st.rows.set c { r with cache := OD.set r.cache k v } } := by
    simp only [Prim.step, hr]
  rw [hst]
  have hne : ∀ i ns, X = some (i, ns) → c ≠ i := fun i ns e hci => hX ns (hci ▸ e)
  refine ⟨⟨h.gr, ⟨h.closed.sc, h.closed.gs, h.closed.pa, h.closed.sp, h.closed.lz, h.closed.rw.put (fun _ => QD.set hw k hv), ?_, h.closed.si,
      h.closed.cx⟩,
    ⟨h.closedJ.sc, h.closedJ.gs, h.closedJ.pa, h.closedJ.sp, h.closedJ.lz, h.closedJ.rw.put (fun hc => absurd hc hj), ?_,
      h.closedJ.si, h.closedJ.cx⟩, h.le, h.rg, h.rgJ, ?_⟩, KExt.refl _ _, KExt.refl _ _, ?_, ?_, fun _ hp => hp, fun hp => hp⟩
  · refine h.closed.rg.put (fun hg => ?_)
    obtain ⟨r2, h3, h4⟩ := h.closed.rg c hg
    rw [hr] at h3
    cases h3
    exact h4
  · refine h.closedJ.rg.put (fun hg => ?_)
    obtain ⟨r2, h3, h4⟩ := h.closedJ.rg c hg
    rw [hr] at h3
    cases h3
    exact h4
  · intro i ns e
    obtain ⟨h1, h2, h3, h4, r', h5, h6⟩ := h.sp i ns e
    exact ⟨h1, h2, h3, h4, r', by simp only; rw [List.getElem?_set_ne (hne i ns e)]; exact h5, h6⟩
  · refine ⟨⟨Nat.le_refl _, Nat.le_refl _, by simp, Nat.le_refl _, Nat.le_refl _⟩, fun _ _ _ => rfl, fun _ _ _ => rfl,
      fun _ _ _ => rfl, ?_, fun _ _ _ => rfl, fun _ _ _ => rfl, [], by simp, by simp⟩
    intro i hi hk
    exact List.getElem?_set_ne (fun he : c = i => hk (he ▸ hc))
  · rintro b i ns e ⟨r', h1, h2⟩
    exact ⟨r', by simp only; rw [List.getElem?_set_ne (hne i ns e)]; exact h1, h2⟩

/-- A value is stored in the cache of a known lazy expression. -/
theorem tr_lazySet {gp : Bool} {X : Option (Nat × Nat)} {K J : Know} {st : St F S} (h : Wd gr X K J st) {c : Nat} (hc : K.lz c)
    (hj : ¬J.lz c) {v : V F} (hv : VW K v) :
    Tr gp gr X K J st K J ((Prim.lazySet c v : Prim F S).step st).2 := by
  obtain ⟨l, hl, hw⟩ := h.closed.lz c hc
  have hst : ((Prim.lazySet c v : Prim F S).step st).2 =
      { st with lazies := st.lazies.set c { l with value := some v } } := by
    simp only [Prim.step, hl]
  rw [hst]
  refine ⟨⟨h.gr, ⟨h.closed.sc, h.closed.gs, h.closed.pa, h.closed.sp, h.closed.lz.put (fun _ => ⟨hw.scope, fun w e => by cases e; exact hv⟩),
      h.closed.rw, h.closed.rg, h.closed.si, h.closed.cx⟩,
    ⟨h.closedJ.sc, h.closedJ.gs, h.closedJ.pa, h.closedJ.sp, h.closedJ.lz.put (fun hc => absurd hc hj), h.closedJ.rw, h.closedJ.rg,
      h.closedJ.si, h.closedJ.cx⟩, h.le, h.rg, h.rgJ, h.sp⟩, KExt.refl _ _, KExt.refl _ _, ?_,
    Kept.of_eq (fun _ _ h => h) rfl, fun _ hp => hp, fun hp => hp⟩
  refine ⟨⟨Nat.le_refl _, by simp, Nat.le_refl _, Nat.le_refl _, Nat.le_refl _⟩, fun _ _ _ => rfl, fun _ _ _ => rfl,
      ?_, fun _ _ _ => rfl, fun _ _ _ => rfl, fun _ _ _ => rfl, [], by simp, by simp⟩
  intro i hi hk
  exact List.getElem?_set_ne (fun he : c = i => hk (he ▸ hc))

variable [FloatOps F]

/-- Reading a column of a row with known getters, which is not in the inner part. -/
theorem rowGet_ok {gp : Bool} {X : Option (Nat × Nat)} {rec : (c : Call F) → St F S → Option (c.Ret × St F S)} (hrec : RecOK gp gr X rec)
    {K J : Know} {st st' : St F S} (h : Wd gr X K J st) {c : Nat} (hc : K.rw c) (hg : K.rg c) (hj : ¬J.rw c)
    (hX : ∀ ns, X ≠ some (c, ns)) {k : Str} {r : Option (V F) × Bool}
    (hr : interp rec (body H (.rowGet c k)) st = some (r, st')) :
    ∃ K' J', Tr gp gr X K J st K' J' st' ∧ QA K' r := by
  obtain ⟨cell, h1, h2⟩ := h.closed.rw c hc
  obtain ⟨cell', h3, h4⟩ := h.closed.rg c hg
  rw [h1] at h3
  cases h3
  simp only [body, bind_eq, prim, Prog.bind, interp, Prim.step, h1] at hr
  cases h5 : OD.get cell.cache k with
  | some v =>
    simp only [h5, pure_eq, interp, Option.some.injEq, Prod.mk.injEq] at hr
    obtain ⟨rfl, rfl⟩ := hr
    exact ⟨K, J, Tr.refl h, qo_some (QD.get h2 h5)⟩
  | none =>
    cases h6 : cell.getter k with
    | none =>
      simp only [h5, h6, pure_eq, interp, Option.some.injEq, Prod.mk.injEq] at hr
      obtain ⟨rfl, rfl⟩ := hr
      exact ⟨K, J, Tr.refl h, qo_some vw_null⟩
    | some g =>
      simp only [h5, h6, call, Prog.bind, interp] at hr
      cases h7 : rec (.getter g) st with
      | none => simp [h7] at hr
      | some x =>
        obtain ⟨v, st1⟩ := x
        simp only [h7, pure_eq, interp, Option.some.injEq, Prod.mk.injEq] at hr
        obtain ⟨rfl, rfl⟩ := hr
        obtain ⟨K1, J1, t1, hv⟩ := hrec (.getter g) K J st v st1 (h4 _ (getter_mem_cols h6)) h h7
        have hj1 : ¬J1.rw c := by
          intro hx
          rcases t1.extJ.rw c hx with h8 | h8
          · exact hj h8
          · have := h.closed.rw.lt hc
            omega
        exact ⟨K1, J1, t1.trans (tr_rowSet t1.wd (t1.ext.le.rw hc) hj1 hX k hv), qo_some hv⟩

/-- Reducing a lazy expression which is not in the inner part. -/
theorem lazyReduce_ok {gp : Bool} {X : Option (Nat × Nat)} {rec : (c : Call F) → St F S → Option (c.Ret × St F S)} (hrec : RecOK gp gr X rec)
    {K J : Know} {st st' : St F S} (h : Wd gr X K J st) {c : Nat} (hc : K.lz c) (hj : ¬J.lz c) {r : V F}
    (hr : interp rec (body H (.lazyReduce c)) st = some (r, st')) :
    ∃ K' J', Tr gp gr X K J st K' J' st' ∧ VW K' r := by
  obtain ⟨l, h1, h2⟩ := h.closed.lz c hc
  simp only [body, bind_eq, prim, Prog.bind, interp, Prim.step, h1] at hr
  cases h5 : l.value with
  | some v =>
    simp only [h5, pure_eq, interp, Option.some.injEq, Prod.mk.injEq] at hr
    obtain ⟨rfl, rfl⟩ := hr
    exact ⟨K, J, Tr.refl h, h2.value _ h5⟩
  | none =>
    simp only [h5, call, Prog.bind, interp] at hr
    cases h7 : rec (.lazyWith c l.scope) st with
    | none => simp [h7] at hr
    | some x =>
      obtain ⟨v, st1⟩ := x
      simp only [h7, pure_eq, interp, Option.some.injEq, Prod.mk.injEq] at hr
      obtain ⟨rfl, rfl⟩ := hr
      obtain ⟨K1, J1, t1, hv⟩ := hrec (.lazyWith c l.scope) K J st v st1 ⟨hc, h2.scope⟩ h h7
      have hj1 : ¬J1.lz c := by
        intro hx
        rcases t1.extJ.lz c hx with h8 | h8
        · exact hj h8
        · have := h.closed.lz.lt hc
          omega
      exact ⟨K1, J1, t1.trans (tr_lazySet t1.wd (t1.ext.le.lz hc) hj1 hv), hv⟩

/-- Every call of the evaluator stays within what it is given, whatever aggregate functions keep. -/
theorem run_within {gp : Bool} (hH : H.Within gp) : ∀ n, RecOK gp false none (run H n)
  | 0 => fun c K J st r st' _ _ hr => nomatch hr
  | n + 1 => by
    intro c K J st r st' hc h hr
    have ih := run_within hH n
    have hJ : J = Know.none := h.gr.resolve_left (by simp)
    by_cases h1 : ∃ i k, c = .rowGet i k
    · obtain ⟨i, k, rfl⟩ := h1
      have hg : K.rg i := (h.rg i hc).resolve_right (by rintro ⟨ns, e⟩; cases e)
      exact rowGet_ok ih h hc hg (by subst hJ; exact fun hx => hx) (by intro ns e; cases e) hr
    · by_cases h2 : ∃ i, c = .lazyReduce i
      · obtain ⟨i, rfl⟩ := h2
        exact lazyReduce_ok ih h hc (by subst hJ; exact fun hx => hx) hr
      · exact within_interp (fun h => by first | exact h | rfl | cases h) ih (body H c)
          (within_body hH c hc (fun i k e => h1 ⟨i, k, e⟩) (fun i e => h2 ⟨i, e⟩)) h (fun i hi => nomatch hi) hr

/-! ## One row singled out -/

/-- The known of either. -/
def Know.or (K L : Know) : Know :=
  ⟨fun i => K.sc i ∨ L.sc i, fun i => K.gs i ∨ L.gs i, fun i => K.pa i ∨ L.pa i, fun i => K.lz i ∨ L.lz i, fun i => K.rw i ∨ L.rw i,
    fun i => K.rg i ∨ L.rg i, fun i => K.si i ∨ L.si i, fun i => K.cx i ∨ L.cx i⟩

theorem Know.le_or_left (K L : Know) : K.Le (K.or L) := ⟨Or.inl, Or.inl, Or.inl, Or.inl, Or.inl, Or.inl, Or.inl, Or.inl⟩
theorem Know.le_or_right (K L : Know) : L.Le (K.or L) := ⟨Or.inr, Or.inr, Or.inr, Or.inr, Or.inr, Or.inr, Or.inr, Or.inr⟩

omit [FloatOps F] in
theorem All.or {β : Type} {k j k' : Nat → Prop} {l l' : List β} {P P1 P2 : β → Prop} (hk : All k l P1) (hj : All j l' P2)
    (hsame : ∀ i, i < l.length → ¬k' i → l'[i]? = l[i]?) (hsub : ∀ i, k' i → j i)
    (h1 : ∀ x, P1 x → P x) (h2 : ∀ x, P2 x → P x) : All (fun i => k i ∨ j i) l' P := by
  intro i hi
  by_cases hji : j i
  · obtain ⟨x, hx, hp⟩ := hj i hji
    exact ⟨x, hx, h2 x hp⟩
  · have hki := hi.resolve_right hji
    obtain ⟨x, hx, hp⟩ := hk i hki
    exact ⟨x, by rw [hsame i (hk.lt hki) (fun hc => hji (hsub i hc))]; exact hx, h1 x hp⟩

omit [FloatOps F] in
theorem SpCol.mono {J L : Know} (h : J.Le L) {ns : Nat} {p : Str × Getter F} (hp : SpCol J ns p) : SpCol L ns p := by
  unfold SpCol at hp ⊢
  split
  · rename_i v hv
    rw [hv] at hp
    exact VW.mono h hp
  · rename_i e n i hv
    rw [hv] at hp
    exact hp

omit [FloatOps F] in
/-- What stays within the inner part leaves the row singled out alone. -/
theorem lift_inner {X : Option (Nat × Nat)} {K J J' N' : Know} {st st' : St F S} (h : Wd true X K J st)
    (t : Tr true false none J Know.none st J' N' st') : Tr true true X K J st (K.or J') J' st' := by
  have hl := K.le_or_left J'
  have hr := K.le_or_right J'
  have s := t.same
  have hrow : ∀ c ns, X = some (c, ns) → st'.rows[c]? = st.rows[c]? := by
    intro c ns e
    obtain ⟨h1, h2, h3, h4, r, h5, h6⟩ := h.sp c ns e
    exact s.rw c (List.getElem?_eq_some_iff.1 h5).1 h3
  refine ⟨⟨Or.inl rfl, ⟨?_, ?_, ?_, ?_, ?_, ?_, ?_, ?_, ?_⟩, t.wd.closed, hr, ?_, ?_, ?_⟩, ?_, t.ext, ?_, ?_, t.plain, t.evs⟩
  · intro i hi
    by_cases hji : J'.sc i
    · obtain ⟨x, hx, hp⟩ := t.wd.closed.sc i hji
      exact ⟨x, hx, hp.mono hr⟩
    · have hki := hi.resolve_right hji
      have hlt := Nat.lt_of_lt_of_le (h.closed.sc.lt hki) s.len.sc
      have hv := s.sc i (h.closed.sc.lt hki) (fun hc => hji (t.ext.le.sc hc))
      refine ⟨st'.scopes[i], List.getElem?_eq_getElem hlt, ?_⟩
      have hw := h.closed.scp hki
      have e : st'.scp i = st'.scopes[i] := by simp [St.scp, List.getElem?_eq_getElem hlt]
      unfold ScpW at hw ⊢
      rw [← e, hv]
      exact fun v hm => (hw v hm).mono hl
  · rintro i (hi | hi)
    · exact Or.inl (h.closed.gs i hi)
    · exact Or.inr (t.wd.closed.gs i hi)
  · exact h.closed.pa.or t.wd.closed.pa s.pa (fun i => t.ext.le.pa) (fun x hx => hx.mono hl) (fun x hx => hx.mono hr)
  · rintro i (hi | hi)
    · exact Or.inl (h.closed.sp i hi)
    · exact Or.inr (t.wd.closed.sp i hi)
  · exact h.closed.lz.or t.wd.closed.lz s.lz (fun i => t.ext.le.lz) (fun x hx => hx.mono hl) (fun x hx => hx.mono hr)
  · exact h.closed.rw.or t.wd.closed.rw s.rw (fun i => t.ext.le.rw) (fun x hx => hx.mono hl) (fun x hx => hx.mono hr)
  · refine h.closed.rg.or t.wd.closed.rg s.rw (fun i hi => t.ext.le.rg (h.rgJ i hi)) (fun x hx => hx.mono hl) (fun x hx => hx.mono hr)
  · exact h.closed.si.or t.wd.closed.si s.si (fun i => t.ext.le.si) (fun x hx => hx.mono hl) (fun x hx => hx.mono hr)
  · exact h.closed.cx.or t.wd.closed.cx s.cx (fun i => t.ext.le.cx) (fun x hx => hx.mono hl) (fun x hx => hx.mono hr)
  · rintro c (hc | hc)
    · exact (h.rg c hc).imp Or.inl id
    · exact Or.inl (Or.inr ((t.wd.rg c hc).resolve_right (by rintro ⟨ns, e⟩; cases e)))
  · intro c hc
    exact (t.wd.rg c hc).resolve_right (by rintro ⟨ns, e⟩; cases e)
  · intro c ns e
    obtain ⟨h1, h2, h3, h4, r, h5, h6⟩ := h.sp c ns e
    have hlt := (List.getElem?_eq_some_iff.1 h5).1
    have hlt2 := h.closedJ.sc.lt h1
    refine ⟨t.ext.le.sc h1, ?_, ?_, ?_, r, by rw [hrow c ns e]; exact h5, fun p hp => (h6 p hp).mono t.ext.le⟩
    · rintro (hx | hx)
      · exact h2 hx
      · rcases t.ext.gs _ hx with h7 | h7
        · exact h2 (h.le.gs h7)
        · omega
    · intro hx
      rcases t.ext.rw _ hx with h7 | h7
      · exact h3 h7
      · omega
    · rintro (hx | hx)
      · exact h4 hx
      · rcases t.ext.rg _ hx with h7 | h7
        · exact h4 (h.le.rg h7)
        · omega
  · refine ⟨hl, ?_, ?_, ?_, ?_, ?_, ?_, ?_, ?_⟩
    · rintro i (hi | hi)
      · exact Or.inl hi
      · exact (t.ext.sc i hi).imp h.le.sc id
    · rintro i (hi | hi)
      · exact Or.inl hi
      · exact (t.ext.gs i hi).imp h.le.gs id
    · rintro i (hi | hi)
      · exact Or.inl hi
      · exact (t.ext.pa i hi).imp h.le.pa id
    · rintro i (hi | hi)
      · exact Or.inl hi
      · exact (t.ext.lz i hi).imp h.le.lz id
    · rintro i (hi | hi)
      · exact Or.inl hi
      · exact (t.ext.rw i hi).imp h.le.rw id
    · rintro i (hi | hi)
      · exact Or.inl hi
      · exact (t.ext.rg i hi).imp h.le.rg id
    · rintro i (hi | hi)
      · exact Or.inl hi
      · exact (t.ext.si i hi).imp h.le.si id
    · rintro i (hi | hi)
      · exact Or.inl hi
      · exact (t.ext.cx i hi).imp h.le.cx id
  · obtain ⟨new, e, hn⟩ := s.evals
    refine ⟨s.len, fun i hi hk => s.sc i hi (fun hc => hk (h.le.sc hc)), fun i hi hk => s.pa i hi (fun hc => hk (h.le.pa hc)),
      fun i hi hk => s.lz i hi (fun hc => hk (h.le.lz hc)),
      fun i hi hk => s.rw i hi (fun hc => hk (h.le.rw hc)), fun i hi hk => s.si i hi (fun hc => hk (h.le.si hc)),
      fun i hi hk => s.cx i hi (fun hc => hk (h.le.cx hc)), new, e, ?_⟩
    intro p hp
    rcases hn p hp with h7 | h7 | ⟨c, h7⟩
    · exact Or.inl (h.le.gs h7)
    · exact Or.inr (Or.inl h7)
    · cases h7
  · rintro b c ns e ⟨r, h5, h6⟩
    obtain ⟨new, e', hn⟩ := s.evals
    refine ⟨r, by rw [hrow c ns e]; exact h5, fun k => ?_⟩
    have : new.count (k, ns) = 0 := by
      rw [List.count_eq_zero]
      intro hm
      obtain ⟨h1, h2, _⟩ := h.sp c ns e
      rcases hn _ hm with h7 | h7 | ⟨c, h7⟩
      · exact h2 (h.le.gs h7)
      · have := h.closedJ.sc.lt h1
        simp only at h7
        omega
      · cases h7
    rw [e', List.count_append, this, Nat.add_zero, h6]

omit [FloatOps F] in
theorem Prog.Within.loose {α : Type} {Q : Know → α → Prop} {p : Prog F S α} : ∀ {K : Know} {o : List Nat},
    p.Within true Q K o → p.Within false Q K o := by
  induction p with
  | ret a => exact fun h => h
  | call c k ih => exact fun h => ⟨h.1, fun L r hL hr => ih r (h.2 L r hL hr)⟩
  | prim p k ih =>
    intro K o h
    cases p with
    | copy s => exact ⟨h.1, fun L i hL h1 h2 => ih i (h.2 L i hL h1 h2)⟩
    | append s v => exact ⟨h.1, h.2.1, ih () h.2.2⟩
    | newAg s => exact ⟨h.1, fun L hL => ih () (h.2 L hL)⟩
    | mkCtx => exact fun L i hL h1 => ih i (h L i hL h1)
    | setAg s c => exact ⟨h.1, h.2.1, ih () h.2.2⟩
    | ag s f => exact ⟨h.1, fun L _ => h.2.1 L (by simp), fun L v hL hv => ih v (h.2.2 L v hL hv)⟩
    | vars s => exact ⟨h.1, fun L v hL hv => ih v (h.2 L v hL hv)⟩
    | depth s => exact fun d => ih d (h d)
    | newLazy e s => exact ⟨h.1, fun L v hL hv => ih v (h.2 L v hL hv)⟩
    | lazyInfo c => exact ⟨h.1, fun L v hL hv => ih (some v) (h.2 L v hL hv)⟩
    | newRow cols => exact ⟨h.1, fun L i hL h1 h2 => ih i (h.2 L i hL h1 h2)⟩
    | rowInfo c => exact ⟨h.1, fun L r hL h1 h2 => ih (some r) (h.2 L r hL h1 h2)⟩
    | newSite q s => exact ⟨h.1, h.2.1, fun L i hL h1 => ih i (h.2.2 L i hL h1)⟩
    | siteInfo c => exact ⟨h.1, fun L v hL hv => ih (some v) (h.2 L v hL hv)⟩
    | split n => exact fun b => ih b (h b)
    | fnOf n m => exact fun b => ih b (h b)
    | log m => exact ih () h
    | eval n s => exact ⟨h.1, ih () h.2⟩
    | host g => exact ⟨h.1, fun v hv => ih v (h.2 v hv)⟩
    | lazySet c v => exact h.elim
    | rowSet c k v => exact h.elim

omit [FloatOps F] in
theorem Host.Within.loose (hH : H.Within true) : H.Within false :=
  ⟨fun K n node s args h1 h2 => (hH.fn K n node s args h1 h2).loose,
   fun K n s args h1 h2 => (hH.plugin K n s args h1 h2).loose,
   fun K o a b s h1 h2 h3 => (hH.arith K o a b s h1 h2 h3).loose,
   fun K o a b s h1 h2 h3 => (hH.rel K o a b s h1 h2 h3).loose,
   fun K v s h1 h2 => (hH.truth K v s h1 h2).loose,
   fun K v s h1 h2 => (hH.toStr K v s h1 h2).loose,
   fun K k d rows s h1 h2 => (hH.sort K k d rows s h1 h2).loose,
   fun K a k s p h1 h2 h3 h4 => (hH.assocImpl K a k s p h1 h2 h3 h4).loose,
   fun K a k s h1 h2 h3 => (hH.assocDefault K a k s h1 h2 h3).loose,
   fun K v s h1 h2 => (hH.hostMembers K v s h1 h2).loose, hH.num⟩

omit [FloatOps F] in
theorem Wd.inner {X : Option (Nat × Nat)} {K J : Know} {st : St F S} (h : Wd true X K J st) :
    Wd false none J Know.none st :=
  ⟨Or.inr rfl, h.closedJ, closed_none st, J.none_le, fun c hc => Or.inl (h.rgJ c hc), fun c hc => hc.elim,
    fun c ns e => by cases e⟩

/-- A program that uses the inner part only leaves the row singled out alone. -/
theorem inner_ok {X : Option (Nat × Nat)} (hH : H.Within true) {K J : Know} {st st' : St F S} (h : Wd true X K J st) {α : Type}
    {Q : Know → α → Prop} {p : Prog F S α} {n : Nat} {a : α} (hp : p.Within true Q J [])
    (hr : interp (run H n) p st = some (a, st')) :
    ∃ K' J', Tr true true X K J st K' J' st' ∧ Q J' a := by
  obtain ⟨J', N', t, hq⟩ := within_interp (fun _ => rfl) (run_within hH n) p hp h.inner (fun i hi => nomatch hi) hr
  exact ⟨_, J', lift_inner h t, hq⟩

/-- A call whose arguments are in the inner part leaves the row singled out alone. -/
theorem inner_call {X : Option (Nat × Nat)} (hH : H.Within true) {K J : Know} {st st' : St F S} (h : Wd true X K J st)
    {c : Call F} {n : Nat} {a : c.Ret} (hc : CallW J c)
    (hr : run H n c st = some (a, st')) :
    ∃ K' J', Tr true true X K J st K' J' st' ∧ RetW J' c a := by
  obtain ⟨J', N', t, hq⟩ := run_within hH n c J Know.none st a st' hc h.inner hr
  exact ⟨_, J', lift_inner h t, hq⟩

/-- The value of an expression column of the row singled out. -/
theorem spGetter_ok {c0 ns0 : Nat} (hH : H.Within true) {K J : Know} {st st' : St F S}
    (h : Wd true (some (c0, ns0)) K J st) {e : Col} {k : Str} {n : Nat} {v : V F}
    (hr : run H n (.getter (.col e k ns0)) st = some (v, st')) :
    ∃ K' J', Wd true (some (c0, ns0)) K' J' st' ∧ KExt st K K' ∧ KExt st J J' ∧ Same (some (c0, ns0)) K st st' ∧ (PlainCtx st → PlainCtx st') ∧ (EvalsOld st → EvalsOld st') ∧ VW J' v ∧
      st'.rows[c0]? = st.rows[c0]? ∧
      ∀ k', st'.evals.count (k', ns0) = st.evals.count (k', ns0) + if k' = k then 1 else 0 := by
  obtain ⟨hs, hgs, hrw, hrg, r, h5, h6⟩ := h.sp c0 ns0 rfl
  cases n with
  | zero => exact nomatch hr
  | succ n =>
    have hr' : interp (run H n) (call (.col e ns0) >>= fun item => colValueP ns0 item)
        { st with evals := st.evals ++ [(k, ns0)] } = some (v, st') := hr
    have hwd : Wd true (some (c0, ns0)) K J { st with evals := st.evals ++ [(k, ns0)] } :=
      ⟨h.gr, ⟨h.closed.sc, h.closed.gs, h.closed.pa, h.closed.sp, h.closed.lz, h.closed.rw, h.closed.rg, h.closed.si, h.closed.cx⟩,
        ⟨h.closedJ.sc, h.closedJ.gs, h.closedJ.pa, h.closedJ.sp, h.closedJ.lz, h.closedJ.rw, h.closedJ.rg, h.closedJ.si, h.closedJ.cx⟩,
        h.le, h.rg, h.rgJ, h.sp⟩
    have hp : (call (.col e ns0) >>= fun item => colValueP ns0 item : Prog F S (V F)).Within true VW J [] := by
      refine within_call_bind.2 ⟨hs, fun L item hL hi => ?_⟩
      have hi : VW L item := hi
      unfold colValueP
      split
      · exact vw_arr.2 (vw_query.1 hi)
      · split
        · exact (within_materializeP (hL.sc hs) hi).bind mono_VW (fun M rows hM hr => vw_arr.2 hr)
        · exact hi
    obtain ⟨J', N', t, hq⟩ := within_interp (fun _ => rfl) (run_within hH n) _ hp hwd.inner (fun i hi => nomatch hi) hr'
    have t' := lift_inner hwd t
    have hrow : st'.rows[c0]? = st.rows[c0]? := t.same.rw c0 (List.getElem?_eq_some_iff.1 h5).1 hrw
    obtain ⟨new, e1, hn⟩ := t.same.evals
    refine ⟨_, J', t'.wd, ⟨t'.ext.le, t'.ext.sc, t'.ext.gs, t'.ext.pa, t'.ext.lz, t'.ext.rw, t'.ext.rg, t'.ext.si, t'.ext.cx⟩,
      ⟨t'.extJ.le, t'.extJ.sc, t'.extJ.gs, t'.extJ.pa, t'.extJ.lz, t'.extJ.rw, t'.extJ.rg, t'.extJ.si, t'.extJ.cx⟩, ?_, t.plain rfl, ?_, hq, hrow, ?_⟩
    rotate_left
    · refine fun hp => t.evs (fun p hm => ?_)
      rcases List.mem_append.1 hm with hm | hm
      · exact hp p hm
      · rw [List.mem_singleton.1 hm]
        exact h.closedJ.sc.lt hs
    rotate_right
    · have s := t'.same
      refine ⟨⟨s.len.sc, s.len.lz, s.len.rw, s.len.si, s.len.cx⟩, s.sc, s.pa, s.lz, s.rw, s.si, s.cx, (k, ns0) :: new, ?_, ?_⟩
      · rw [e1]
        simp
      · intro p hp
        rcases List.mem_cons.1 hp with rfl | hp
        · exact Or.inr (Or.inr ⟨c0, rfl⟩)
        · rcases hn p hp with h7 | h7 | ⟨c, h7⟩
          · exact Or.inl (h.le.gs h7)
          · exact Or.inr (Or.inl h7)
          · cases h7
    · intro k'
      have : new.count (k', ns0) = 0 := by
        rw [List.count_eq_zero]
        intro hm
        rcases hn _ hm with h7 | h7 | ⟨c, h7⟩
        · exact hgs (h.le.gs h7)
        · have := h.closedJ.sc.lt hs
          simp only at h7
          omega
        · cases h7
      rw [e1]
      simp only [List.count_append, this, Nat.add_zero]
      congr 1
      by_cases hk : k' = k
      · subst hk; simp
      · rw [if_neg hk, List.count_eq_zero]
        intro hm
        simp only [List.mem_singleton, Prod.mk.injEq] at hm
        exact hk hm.1

/-- Any getter of the row singled out. -/
theorem spAny_ok {c0 ns0 : Nat} (hH : H.Within true) {K J : Know} {st st' : St F S}
    (h : Wd true (some (c0, ns0)) K J st) {k : Str} {g : Getter F} (hg : SpCol J ns0 (k, g)) {n : Nat} {v : V F}
    (hr : run H n (.getter g) st = some (v, st')) :
    ∃ K' J', Wd true (some (c0, ns0)) K' J' st' ∧ KExt st K K' ∧ KExt st J J' ∧ Same (some (c0, ns0)) K st st' ∧ (PlainCtx st → PlainCtx st') ∧ (EvalsOld st → EvalsOld st') ∧ VW J' v ∧
      st'.rows[c0]? = st.rows[c0]? ∧
      ∀ k', st'.evals.count (k', ns0) = st.evals.count (k', ns0) +
        match g with | .col _ _ _ => if k' = k then 1 else 0 | _ => 0 := by
  cases g with
  | const w =>
    cases n with
    | zero => exact nomatch hr
    | succ n =>
      simp only [run, body, pure_eq, interp, Option.some.injEq, Prod.mk.injEq] at hr
      obtain ⟨rfl, rfl⟩ := hr
      exact ⟨K, J, h, KExt.refl _ _, KExt.refl _ _, Same.refl _ _ _, fun hp => hp, fun hp => hp, hg, rfl, fun _ => rfl⟩
  | col e k2 i =>
    obtain ⟨h1, h2⟩ := hg
    simp only at h1 h2
    subst h1 h2
    exact spGetter_ok hH h hr

/-- Reading a column of the row singled out. -/
theorem rowGet_sp {c0 ns0 : Nat} (hH : H.Within true) {K J : Know} {st st' : St F S}
    (h : Wd true (some (c0, ns0)) K J st) (hc : K.rw c0) {k : Str} {n : Nat} {r : Option (V F) × Bool}
    (hr : interp (run H n) (body H (.rowGet c0 k)) st = some (r, st')) :
    ∃ K' J', Tr true true (some (c0, ns0)) K J st K' J' st' ∧ QA K' r := by
  obtain ⟨cell, h1, h2⟩ := h.closed.rw c0 hc
  obtain ⟨hs, hgs, hrw, hrg, cell', h3, h4⟩ := h.sp c0 ns0 rfl
  rw [h1] at h3
  cases h3
  simp only [body, bind_eq, prim, Prog.bind, interp, Prim.step, h1] at hr
  cases h5 : OD.get cell.cache k with
  | some v =>
    simp only [h5, pure_eq, interp, Option.some.injEq, Prod.mk.injEq] at hr
    obtain ⟨rfl, rfl⟩ := hr
    exact ⟨K, J, Tr.refl h, qo_some (QD.get h2 h5)⟩
  | none =>
    cases h6 : cell.getter k with
    | none =>
      simp only [h5, h6, pure_eq, interp, Option.some.injEq, Prod.mk.injEq] at hr
      obtain ⟨rfl, rfl⟩ := hr
      exact ⟨K, J, Tr.refl h, qo_some vw_null⟩
    | some g =>
      simp only [h5, h6, call, Prog.bind, interp] at hr
      cases h7 : run H n (.getter g) st with
      | none => simp [h7] at hr
      | some x =>
        obtain ⟨v, st1⟩ := x
        simp only [h7, pure_eq, interp, Option.some.injEq, Prod.mk.injEq] at hr
        obtain ⟨rfl, rfl⟩ := hr
        obtain ⟨K1, J1, wd1, ext, extJ, same, hpl, hev, hv, hrow, hcnt⟩ := spAny_ok hH h (h4 _ (getter_mem_cols h6)) h7
        have hvK := VW.mono wd1.le hv
        have hrow1 : st1.rows[c0]? = some cell := by rw [hrow, h1]
        have hst : ((Prim.rowSet c0 k v : Prim F S).step st1).2 =
            { st1 with rows := st1.rows.set c0 { cell with cache := OD.set cell.cache k v } } := by
          simp only [Prim.step, hrow1]
        rw [hst]
        have hlt := (List.getElem?_eq_some_iff.1 hrow1).1
        have hw1 := wd1.closed
        have hj1 := wd1.closedJ
        obtain ⟨hs1, hgs1, hrw1, hrg1, cell1, h8, h9⟩ := wd1.sp c0 ns0 rfl
        rw [hrow1] at h8
        cases h8
        refine ⟨K1, J1, ⟨⟨Or.inl rfl, ⟨hw1.sc, hw1.gs, hw1.pa, hw1.sp, hw1.lz, hw1.rw.put (fun hk => ?_),
            hw1.rg.put (fun hk => absurd hk hrg1), hw1.si, hw1.cx⟩,
          ⟨hj1.sc, hj1.gs, hj1.pa, hj1.sp, hj1.lz, hj1.rw.put (fun hk => absurd hk hrw1),
            hj1.rg.put (fun hk => absurd (wd1.le.rg hk) hrg1), hj1.si, hj1.cx⟩, wd1.le, wd1.rg, wd1.rgJ, ?_⟩, ext, extJ, ?_, ?_, fun _ hp => hpl hp, fun hp => hev hp⟩,
          qo_some hvK⟩
        · obtain ⟨c2, h10, h11⟩ := hw1.rw c0 hk
          rw [hrow1] at h10
          cases h10
          exact QD.set h11 k hvK
        · intro c ns hx
          cases hx
          exact ⟨hs1, hgs1, hrw1, hrg1, { cell with cache := OD.set cell.cache k v }, by simp [hlt], h9⟩
        · refine ⟨⟨same.len.sc, same.len.lz, by simpa using same.len.rw, same.len.si, same.len.cx⟩, same.sc, same.pa, same.lz, ?_,
            same.si, same.cx, same.evals⟩
          intro i hi hk
          simp only
          rw [List.getElem?_set_ne (fun he : c0 = i => hk (he ▸ hc))]
          exact same.rw i hi hk
        · rintro b c ns hx ⟨r0, h10, h11⟩
          cases hx
          rw [h1] at h10
          cases h10
          refine ⟨{ cell with cache := OD.set cell.cache k v }, by simp [hlt], fun k' => ?_⟩
          have hget : RowCell.getter { cell with cache := OD.set cell.cache k v } k' = cell.getter k' := rfl
          rw [hget]
          simp only
          rw [hcnt k', h11 k']
          by_cases hk : k' = k
          · subst hk
            rw [h6, OD.get_set_self, h5]
            cases g <;> simp
          · rw [OD.get_set_ne _ _ hk]
            cases g <;> simp [hk]

/-- Every call of the evaluator stays within what it is given and evaluates no column of the row
singled out that is in its cache. -/
theorem run_within_sp (hH : H.Within true) (X : Option (Nat × Nat)) : ∀ n, RecOK true true X (run H n)
  | 0 => fun c K J st r st' _ _ hr => nomatch hr
  | n + 1 => by
    intro c K J st r st' hc h hr
    have ih := run_within_sp hH X n
    by_cases h1 : ∃ i k, c = .rowGet i k
    · obtain ⟨i, k, rfl⟩ := h1
      by_cases hj : J.rw i
      · obtain ⟨K', J', t, hq⟩ := inner_call (c := .rowGet i k) hH h hj hr
        exact ⟨K', J', t, QA.mono t.wd.le hq⟩
      · by_cases hX : ∃ ns, X = some (i, ns)
        · obtain ⟨ns, rfl⟩ := hX
          exact rowGet_sp hH h hc hr
        · exact rowGet_ok ih h hc ((h.rg i hc).resolve_right hX) hj (fun ns e => hX ⟨ns, e⟩) hr
    · by_cases h2 : ∃ i, c = .lazyReduce i
      · obtain ⟨i, rfl⟩ := h2
        by_cases hj : J.lz i
        · obtain ⟨K', J', t, hq⟩ := inner_call (c := .lazyReduce i) hH h hj hr
          exact ⟨K', J', t, VW.mono t.wd.le hq⟩
        · exact lazyReduce_ok ih h hc hj hr
      · exact within_interp (fun h => by first | exact h | rfl | cases h) ih (body H c)
          (within_body hH c hc (fun i k e => h1 ⟨i, k, e⟩) (fun i e => h2 ⟨i, e⟩)) h (fun i hi => nomatch hi) hr

end
end Vfilter.Vql
