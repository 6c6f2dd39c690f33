import Verif.EvalLemmas
import Verif.ODLemmas
/-!
# Scopes are only changed by their owner

The evaluator appends variables and sets aggregator contexts only on scopes it created
itself (with `Copy`) in the same method.  A program with this discipline is `Polite`; an
application whose functions, plugins and operators have it is a polite `Host`.  Under this
assumption evaluating anything leaves the variables, depth and parent of every scope that
existed before unchanged.
-/
set_option linter.all false

namespace Vfilter.Vql

section
variable {F S : Type}

/-- The program only appends variables to, and sets the aggregator context of, scopes it
copied itself or that are listed in `own`.  Unless `fl` is set it does not touch the caches of
lazy rows and lazy expressions and does not record column evaluations. -/
def Prog.Polite {α : Type} (fl : Bool) : Prog F S α → List Nat → Prop
  | .ret _, _ => True
  | .call _ k, own => ∀ r, (k r).Polite fl own
  | .prim (.copy _) k, own => ∀ r, (k r).Polite fl (r :: own)
  | .prim (.append s _) k, own => s ∈ own ∧ ∀ r, (k r).Polite fl own
  | .prim (.newAg s) k, own => s ∈ own ∧ ∀ r, (k r).Polite fl own
  | .prim (.setAg s _) k, own => s ∈ own ∧ ∀ r, (k r).Polite fl own
  | .prim (.rowSet _ _ _) k, own => fl = true ∧ ∀ r, (k r).Polite fl own
  | .prim (.lazySet _ _) k, own => fl = true ∧ ∀ r, (k r).Polite fl own
  | .prim (.eval _ _) k, own => fl = true ∧ ∀ r, (k r).Polite fl own
  | .prim _ k, own => ∀ r, (k r).Polite fl own

theorem Prog.Polite.mono {α : Type} {fl : Bool} {p : Prog F S α} : ∀ {o o' : List Nat},
    p.Polite fl o → (∀ i ∈ o, i ∈ o') → p.Polite fl o' := by
  induction p with
  | ret a => intros; trivial
  | call c k ih => intro o o' h hs r; exact ih r (h r) hs
  | prim p k ih =>
    intro o o' h hs
    cases p with
    | copy s =>
      intro r
      refine ih r (h r) ?_
      intro i hi
      rcases List.mem_cons.1 hi with rfl | hi
      · exact List.mem_cons_self
      · exact List.mem_cons_of_mem _ (hs i hi)
    | append s v => exact ⟨hs _ h.1, fun r => ih r (h.2 r) hs⟩
    | newAg s => exact ⟨hs _ h.1, fun r => ih r (h.2 r) hs⟩
    | setAg s c => exact ⟨hs _ h.1, fun r => ih r (h.2 r) hs⟩
    | rowSet c k v => exact ⟨h.1, fun r => ih r (h.2 r) hs⟩
    | lazySet c v => exact ⟨h.1, fun r => ih r (h.2 r) hs⟩
    | eval n s => exact ⟨h.1, fun r => ih r (h.2 r) hs⟩
    | _ => exact fun r => ih r (h r) hs

theorem Prog.Polite.bind {α β : Type} {fl : Bool} {p : Prog F S α} {f : α → Prog F S β} : ∀ {o : List Nat},
    p.Polite fl o → (∀ a, (f a).Polite fl o) → (p >>= f).Polite fl o := by
  induction p with
  | ret a => intro o _ h; exact h a
  | call c k ih => intro o h hf r; exact ih r (h r) hf
  | prim p k ih =>
    intro o h hf
    cases p with
    | copy s =>
      intro r
      exact ih r (h r) (fun a => (hf a).mono (fun i hi => List.mem_cons_of_mem _ hi))
    | append s v => exact ⟨h.1, fun r => ih r (h.2 r) hf⟩
    | newAg s => exact ⟨h.1, fun r => ih r (h.2 r) hf⟩
    | setAg s c => exact ⟨h.1, fun r => ih r (h.2 r) hf⟩
    | rowSet c k v => exact ⟨h.1, fun r => ih r (h.2 r) hf⟩
    | lazySet c v => exact ⟨h.1, fun r => ih r (h.2 r) hf⟩
    | eval n s => exact ⟨h.1, fun r => ih r (h.2 r) hf⟩
    | _ => exact fun r => ih r (h r) hf

/-- Functions, plugins and operators only change scopes they copied themselves. -/
structure Host.Polite (H : Host F S) : Prop where
  fn : ∀ n node s args, (H.fn n node s args).Polite false []
  plugin : ∀ n s args, (H.plugin n s args).Polite false []
  arith : ∀ o a b s, (H.arith o a b s).Polite false []
  rel : ∀ o a b s, (H.rel o a b s).Polite false []
  truth : ∀ v s, (H.truth v s).Polite false []
  toStr : ∀ v s, (H.toStr v s).Polite false []
  sort : ∀ k d rows s, (H.sort k d rows s).Polite false []
  assocImpl : ∀ a k s p, H.assocImpl a k s = some p → p.Polite false []
  assocDefault : ∀ a k s, (H.assocDefault a k s).Polite false []
  hostMembers : ∀ v s, (H.hostMembers v s).Polite false []

theorem polite_weak {α : Type} {p : Prog F S α} {fl : Bool} : ∀ {o : List Nat}, p.Polite false o → p.Polite fl o := by
  induction p with
  | ret a => intro o _; trivial
  | call c k ih => intro o h r; exact ih r (h r)
  | prim p k ih =>
    intro o h
    cases p with
    | append s v => exact ⟨h.1, fun r => ih r (h.2 r)⟩
    | newAg s => exact ⟨h.1, fun r => ih r (h.2 r)⟩
    | setAg s c => exact ⟨h.1, fun r => ih r (h.2 r)⟩
    | rowSet c k v => exact nomatch h.1
    | lazySet c v => exact nomatch h.1
    | eval n s => exact nomatch h.1
    | _ => exact fun r => ih r (h r)

theorem polite_nil {α : Type} {p : Prog F S α} {fl : Bool} (o : List Nat) (h : p.Polite false []) : p.Polite fl o :=
  polite_weak (h.mono (fun _ hi => nomatch hi))

variable {fl : Bool}

@[simp] theorem polite_ret {α : Type} (a : α) (o : List Nat) : (Prog.ret a : Prog F S α).Polite fl o := trivial
@[simp] theorem polite_pure {α : Type} (a : α) (o : List Nat) : (pure a : Prog F S α).Polite fl o := trivial
@[simp] theorem polite_call (c : Call F) (o : List Nat) : (call c : Prog F S c.Ret).Polite fl o := fun _ => trivial
@[simp] theorem polite_call_bind {β : Type} (c : Call F) (f : c.Ret → Prog F S β) (o : List Nat) :
    (call c >>= f).Polite fl o ↔ ∀ r, (f r).Polite fl o := Iff.rfl
@[simp] theorem polite_copy_bind {β : Type} (s : Nat) (f : Nat → Prog F S β) (o : List Nat) :
    (prim (.copy s) >>= f).Polite fl o ↔ ∀ r, (f r).Polite fl (r :: o) := Iff.rfl
@[simp] theorem polite_append_bind {β : Type} (s : Nat) (v : V F) (f : Unit → Prog F S β) (o : List Nat) :
    (prim (.append s v) >>= f).Polite fl o ↔ s ∈ o ∧ ∀ r, (f r).Polite fl o := Iff.rfl
@[simp] theorem polite_newAg_bind {β : Type} (s : Nat) (f : Unit → Prog F S β) (o : List Nat) :
    (prim (.newAg s) >>= f).Polite fl o ↔ s ∈ o ∧ ∀ r, (f r).Polite fl o := Iff.rfl
@[simp] theorem polite_setAg_bind {β : Type} (s c : Nat) (f : Unit → Prog F S β) (o : List Nat) :
    (prim (.setAg s c) >>= f).Polite fl o ↔ s ∈ o ∧ ∀ r, (f r).Polite fl o := Iff.rfl
@[simp] theorem polite_newAg (s : Nat) (o : List Nat) :
    (prim (.newAg s) : Prog F S _).Polite fl o ↔ s ∈ o := ⟨fun h => h.1, fun h => ⟨h, fun _ => trivial⟩⟩

/-- Heap accesses without restriction. -/
def Prim.free : Prim F S → Bool
  | .copy _ | .append _ _ | .newAg _ | .setAg _ _ | .rowSet _ _ _ | .lazySet _ _ | .eval _ _ => false
  | _ => true

theorem polite_free {α : Type} {p : Prim F S} {k : p.Ret → Prog F S α} {o : List Nat} (h : p.free = true) :
    (Prog.prim p k).Polite fl o ↔ ∀ r, (k r).Polite fl o := by
  cases p <;> first | exact Iff.rfl | simp [Prim.free] at h

@[simp] theorem polite_prim {p : Prim F S} {o : List Nat} (h : p.free = true) : (prim p).Polite fl o :=
  (polite_free h).2 (fun _ => trivial)

theorem polite_prim_bind {β : Type} {p : Prim F S} {f : p.Ret → Prog F S β} {o : List Nat}
    (h : p.free = true) (hf : ∀ r, (f r).Polite fl o) : (prim p >>= f).Polite fl o :=
  (polite_free h).2 hf

theorem polite_mapP {α β : Type} {f : α → Prog F S β} {o : List Nat} (h : ∀ a, (f a).Polite fl o) :
    ∀ l, (mapP f l).Polite fl o
  | [] => trivial
  | a :: r => (h a).bind (fun b => (polite_mapP h r).bind (fun _ => trivial))

theorem polite_foldP {α β : Type} {f : β → α → Prog F S β} {o : List Nat}
    (h : ∀ b a, (f b a).Polite fl o) : ∀ l b, (foldP f b l).Polite fl o
  | [], b => trivial
  | a :: r, b => (h b a).bind (fun b' => polite_foldP h r b')

variable {H : Host F S} (hH : H.Polite)
include hH

theorem polite_truth (v : V F) (s : Nat) (o : List Nat) : (H.truth v s).Polite fl o := polite_nil o (hH.truth v s)

theorem polite_andLoopP (s : Nat) (o : List Nat) : ∀ l last, (andLoopP H s last l).Polite fl o
  | [], last => trivial
  | .mk op t :: r, last => by
    intro v
    refine (polite_truth hH v s o).bind (fun b => ?_)
    split
    · trivial
    · exact polite_andLoopP s o r _

theorem polite_orLoopP (s : Nat) (o : List Nat) : ∀ l last, (orLoopP H s last l).Polite fl o
  | [], last => trivial
  | .mk op t :: r, last => by
    intro v
    refine (polite_truth hH v s o).bind (fun b => ?_)
    split
    · trivial
    · exact polite_orLoopP s o r _

theorem polite_relP (op : Str) (a b : V F) (s : Nat) (o : List Nat) : (relP H op a b s).Polite fl o := by
  have hr : ∀ r x y, (H.rel r x y s).Polite fl o := fun r x y => polite_nil o (hH.rel r x y s)
  unfold relP
  repeat' split
  all_goals first
    | exact hr _ _ _
    | exact (hr _ _ _).bind (fun _ => trivial)
    | trivial
    | (refine (hr _ _ _).bind (fun r => ?_); split <;> first | trivial | exact hr _ _ _)

theorem polite_addStepP (s : Nat) (acc : V F) (t : AddT) (o : List Nat) : (addStepP H s acc t).Polite fl o := by
  obtain ⟨op, t⟩ := t
  intro v
  have hr : ∀ r x y, (H.arith r x y s).Polite fl o := fun r x y => polite_nil o (hH.arith r x y s)
  show Prog.Polite _ (ite _ _ _) o
  split
  · exact hr _ _ _
  · split
    · exact hr _ _ _
    · trivial

theorem polite_mulStepP (s : Nat) (acc : V F) (t : MulT) (o : List Nat) : (mulStepP H s acc t).Polite fl o := by
  obtain ⟨op, t⟩ := t
  intro v
  have hr : ∀ r x y, (H.arith r x y s).Polite fl o := fun r x y => polite_nil o (hH.arith r x y s)
  show Prog.Polite _ (ite _ _ _) o
  split
  · exact hr _ _ _
  · split
    · exact hr _ _ _
    · trivial

omit hH
theorem polite_boundP [FloatOps F] (s : Nat) (e : Option Value) (o : List Nat) :
    (boundP s e : Prog F S _).Polite fl o := by
  cases e with
  | none => trivial
  | some e =>
    intro v
    show Prog.Polite _ (match Val.toInt64 v with | none => _ | some i => _) o
    split <;> trivial

theorem polite_memberLoopP [FloatOps F] (s : Nat) (o : List Nat) : ∀ l lhs,
    (memberLoopP s lhs l : Prog F S _).Polite fl o
  | [], lhs => trivial
  | .range a b :: r, lhs => by
    refine (polite_boundP s a o).bind (fun x => ?_)
    split
    · trivial
    · refine (polite_boundP s b o).bind (fun y => ?_)
      split
      · trivial
      · intro z
        obtain ⟨z1, z2⟩ := z
        cases z2
        · trivial
        · exact polite_memberLoopP s o r _
  | .index i :: r, lhs => by
    intro k z
    obtain ⟨z1, z2⟩ := z
    cases z2
    · trivial
    · exact polite_memberLoopP s o r _
  | .field f :: r, lhs => by
    intro z
    obtain ⟨z1, z2⟩ := z
    cases z2
    · trivial
    · exact polite_memberLoopP s o r _
  | .empty :: r, lhs => trivial

theorem polite_commaLoopP (s : Nat) (o : List Nat) : ∀ l acc, (commaLoopP s acc l : Prog F S _).Polite fl o
  | [], acc => trivial
  | .mk none :: r, acc => trivial
  | .mk (some e) :: r, acc => fun v => polite_commaLoopP s o r _

theorem polite_buildArgsP (s : Nat) (ps : List Arg) (o : List Nat) :
    (buildArgsP s ps : Prog F S _).Polite fl o := by
  refine polite_foldP (fun b a => ?_) _ _
  obtain ⟨n, r⟩ := a
  cases r <;> first | trivial | exact fun _ => trivial

theorem polite_applyDefaultsP (s : Nat) (ds : List (Str × Arg)) (args : OD (V F)) (o : List Nat) :
    (applyDefaultsP s ds args : Prog F S _).Polite fl o := by
  refine polite_foldP (fun b a => ?_) _ _
  obtain ⟨k, n, r⟩ := a
  show Prog.Polite _ (match OD.get b k with | some _ => _ | none => _) o
  split
  · trivial
  · cases r <;> first | trivial | exact fun _ => trivial

theorem polite_materializeP (s : Nat) (q : V F) (o : List Nat) : (materializeP s q : Prog F S _).Polite fl o :=
  fun _ _ => trivial

theorem polite_fnArgsP (s : Nat) (ps : List Arg) (o : List Nat) :
    (fnArgsP s ps : Prog F S _).Polite fl o := by
  refine polite_foldP (fun b a => ?_) _ _
  obtain ⟨n, r⟩ := a
  cases r <;> first | trivial | exact fun _ => trivial

theorem polite_walkP (s : Nat) (o : List Nat) : ∀ l first v, (walkP s first v l : Prog F S _).Polite fl o
  | [], first, v => trivial
  | c :: r, first, v => by
    intro z
    obtain ⟨z1, z2⟩ := z
    cases z2
    · cases first
      · trivial
      · exact fun _ => trivial
    · exact polite_walkP s o r _ _

theorem polite_negateP (neg : Bool) (v : V F) (s : Nat) (o : List Nat) :
    (negateP neg v s : Prog F S _).Polite fl o := by
  unfold negateP
  split
  · exact fun _ => trivial
  · trivial

theorem polite_argsP (called : Bool) (s : Nat) (ps : List Arg) (o : List Nat) :
    (argsP called s ps : Prog F S _).Polite fl o := by
  unfold argsP
  split
  · exact polite_buildArgsP s ps o
  · trivial

theorem polite_agP (called : Bool) {s : Nat} {o : List Nat} (h : s ∈ o) :
    (agP called s : Prog F S _).Polite fl o := by
  unfold agP
  split
  · exact ⟨h, fun _ => trivial⟩
  · trivial

theorem polite_queryDefaultsP (s : Nat) (v : V F) (a : OD (V F)) (o : List Nat) :
    (queryDefaultsP s v a : Prog F S _).Polite fl o := by
  unfold queryDefaultsP
  split
  · exact polite_applyDefaultsP _ _ _ _
  · trivial

theorem polite_findP (isReg : Str → Bool) (mk : Str → Obj) (called : Bool) (comps : List Str) (s : Nat)
    (o : List Nat) : (findP isReg mk called comps s : Prog F S _).Polite fl o := by
  unfold findP
  split
  · split
    · trivial
    · exact polite_walkP _ _ _ _ _
  · exact polite_walkP _ _ _ _ _

include hH
theorem polite_callFunctionP (node : Nat) (name : Str) (ps : List Arg) (s : Nat) (o : List Nat) :
    (callFunctionP H node name ps s).Polite fl o :=
  (polite_fnArgsP s ps o).bind (fun args => fun f => polite_nil o (hH.fn _ _ _ _))

theorem polite_symValueP (node : Nat) (symbol : Str) (called : Bool) (ps : List Arg) (neg : Bool)
    (s : Nat) (v : V F) (o : List Nat) : (symValueP H node symbol called ps neg s v).Polite fl o := by
  unfold symValueP
  split
  · split
    · exact fun _ => trivial
    · exact (polite_callFunctionP hH _ _ _ _ _).bind (fun v => polite_negateP _ _ _ _)
  · refine (polite_copy_bind _ _ _).2 (fun sub => ?_)
    refine Prog.Polite.bind (polite_agP _ List.mem_cons_self) (fun _ => ?_)
    intro d
    show Prog.Polite _ (ite _ _ _) _
    split
    · trivial
    · refine (polite_argsP _ _ _ _).bind (fun a1 => (polite_applyDefaultsP _ _ _ _).bind (fun a2 => ?_))
      exact ⟨List.mem_cons_self, fun _ v => polite_negateP _ _ _ _⟩
  · split
    · intro sub
      refine ⟨List.mem_cons_self, fun _ d => ?_⟩
      show Prog.Polite _ (ite _ _ _) _
      split
      · trivial
      · refine (polite_argsP _ _ _ _).bind (fun a1 => (polite_queryDefaultsP _ _ _ _).bind (fun a2 => ?_))
        exact ⟨List.mem_cons_self, fun _ c => polite_negateP _ _ _ _⟩
    · split
      · exact fun _ => trivial
      · exact polite_negateP _ _ _ _

theorem polite_symP (node : Nat) (symbol : Str) (called : Bool) (ps : List Arg)
    (s : Nat) (o : List Nat) : (symP H node symbol called ps s).Polite fl o := by
  intro first
  refine (polite_findP _ _ _ _ _ _).bind (fun found => ?_)
  split
  · trivial
  · exact polite_symValueP hH _ _ _ _ _ _ _ _

omit hH
theorem polite_starP (dedup : Bool) (s : Nat) (row : V F) (cols : List (Str × Getter F)) (o : List Nat) :
    (starP dedup s row cols : Prog F S _).Polite fl o := by
  intro ms
  refine polite_foldP (fun b a => ?_) _ _
  show Prog.Polite _ (ite _ _ _) _
  split
  · trivial
  · intro z
    obtain ⟨z1, z2⟩ := z
    cases z2 <;> trivial

include hH
theorem polite_transformP (all : Bool) (cols : List Col) (s : Nat) (row : V F) (o : List Nat) :
    (transformP H all cols s row).Polite fl o := by
  refine Prog.Polite.bind ?_ (fun init => ?_)
  · unfold allColsP
    split
    · exact polite_starP _ _ _ _ _
    · trivial
  · refine (polite_copy_bind _ _ _).2 (fun ns => ?_)
    refine (polite_append_bind _ _ _ _).2 ⟨List.mem_cons_self, fun _ => ?_⟩
    refine Prog.Polite.bind (polite_foldP (fun b a => ?_) _ _) (fun g => fun _ => trivial)
    unfold addColP
    split
    · exact polite_starP _ _ _ _ _
    · trivial

omit hH
theorem polite_matColP (cell : Nat) (acc : OD (V F)) (c : Str) (o : List Nat) :
    (matColP cell acc c : Prog F S _).Polite fl o := by
  intro r
  cases r with
  | none => trivial
  | some r =>
    show Prog.Polite _ (match OD.get r.cache c with | some v => _ | none => _) _
    split
    · trivial
    · split
      · trivial
      · exact fun _ => trivial

theorem polite_matRowP (cell : Nat) (o : List Nat) : (matRowP cell : Prog F S _).Polite fl o := by
  intro r
  cases r with
  | none => trivial
  | some r => exact (polite_foldP (fun b a => polite_matColP cell b a o) _ _).bind (fun _ => trivial)

include hH
theorem polite_processRowP (all : Bool) (cols : List Col) (w : Option Comma) (s : Nat) (row : V F)
    (o : List Nat) : (processRowP H all cols w s row).Polite fl o := by
  intro sub
  refine (polite_transformP hH _ _ _ _ _).bind (fun cell => ?_)
  cases w with
  | none => exact (polite_matRowP _ _).bind (fun _ => trivial)
  | some w =>
    intro ns
    refine ⟨List.mem_cons_self, fun _ => ⟨List.mem_cons_self, fun _ v => ?_⟩⟩
    refine (polite_truth hH _ _ _).bind (fun b => ?_)
    split
    · exact (polite_matRowP _ _).bind (fun _ => trivial)
    · trivial

theorem polite_groupRowP (all : Bool) (cols : List Col) (w : Option Comma) (gb : Comma) (g : Nat)
    (bins : OD (Bin F)) (row : V F) (o : List Nat) :
    (groupRowP H all cols w gb g bins row).Polite fl o := by
  intro ns
  refine (polite_transformP hH _ _ _ _ _).bind (fun cell => ?_)
  refine (polite_append_bind _ _ _ _).2 ⟨List.mem_cons_self, fun _ => ?_⟩
  refine (polite_append_bind _ _ _ _).2 ⟨List.mem_cons_self, fun _ => ?_⟩
  refine Prog.Polite.bind ?_ (fun pass => ?_)
  · unfold passP
    cases w with
    | none => trivial
    | some w => exact fun v => polite_truth hH _ _ _
  · split
    · trivial
    · refine (polite_call_bind _ _ _).2 (fun k => ?_)
      refine (polite_nil _ (hH.toStr _ _)).bind (fun key => ?_)
      refine Prog.Polite.bind ?_ (fun c => ⟨List.mem_cons_self, fun _ => ?_⟩)
      · unfold binCtxP
        split
        · trivial
        · exact fun _ => trivial
      · exact (polite_matRowP _ _).bind (fun _ => trivial)

omit hH
theorem polite_logsP (msgs : List Str) (o : List Nat) : (logsP msgs : Prog F S _).Polite fl o := by
  unfold logsP
  exact polite_foldP (fun _ _ => by intro _; trivial) _ _

theorem polite_storedQueryCallP (q : SQuery) (s : Nat) (args : OD (V F)) (o : List Nat) :
    (storedQueryCallP q s args : Prog F S _).Polite fl o := by
  refine (polite_copy_bind _ _ _).2 (fun sub => ?_)
  refine (polite_newAg_bind _ _ _).2 ⟨List.mem_cons_self, fun _ => ?_⟩
  refine Prog.Polite.bind (polite_logsP _ _) (fun _ => ?_)
  refine Prog.Polite.bind (polite_foldP (fun b a => ?_) _ _)
    (fun vars => ⟨List.mem_cons_self, fun _ => fun _ => trivial⟩)
  refine Prog.Polite.bind ?_ (fun v => trivial)
  unfold storeArgP
  split
  · exact fun _ => trivial
  · trivial
  · split
    · exact (polite_materializeP _ _ _).bind (fun _ => trivial)
    · trivial

theorem polite_resolveLoopP (s : Nat) (name : Str) (o : List Nat) : ∀ l d,
    (resolveLoopP s name d l : Prog F S _).Polite fl o
  | [], d => trivial
  | r :: rs, d => by
    intro z
    obtain ⟨z1, z2⟩ := z
    cases z2
    · exact polite_resolveLoopP s name o rs _
    · trivial

theorem polite_unwrapP (s : Nat) (i : V F) (o : List Nat) : (unwrapP s i : Prog F S _).Polite fl o := by
  intro ms
  show Prog.Polite _ (match ms with | [m] => _ | _ => _) o
  split
  · intro z
    obtain ⟨z1, z2⟩ := z
    cases z2 <;> trivial
  · trivial

include hH
theorem polite_assocStrP (a : V F) (k : Str) (s : Nat) (o : List Nat) : (assocStrP H a k s).Polite fl o := by
  have hd : ∀ a k, (H.assocDefault a k s).Polite fl o := fun a k => polite_nil o (hH.assocDefault a k s)
  have hgen : ∀ a : V F, (if isQuery a then do
      let rows ← call (.evalQuery a s)
      let vs ← mapP (fun r => do
        match ← call (.assoc r (.val (.str k)) s) with
        | (v, true) => pure (v.getD .null)
        | (_, false) => pure .null) rows
      pure (some (.arr vs), true)
    else match H.assocImpl a (.val (.str k)) s with
      | some p => p
      | none => match a with
        | .arr l => do
          let vs ← foldP (fun acc x => do
            match ← call (.assoc x (.val (.str k)) s) with
            | (v, true) => pure (acc ++ [v.getD .null])
            | (_, false) => pure acc) [] l
          pure (some (.arr vs), true)
        | a => H.assocDefault a (.val (.str k)) s : Prog F S (Option (V F) × Bool)).Polite fl o := by
    intro a
    split
    · refine (polite_call_bind _ _ _).2 (fun rows => ?_)
      refine Prog.Polite.bind (polite_mapP (fun r => ?_) _) (fun _ => trivial)
      intro z
      obtain ⟨z1, z2⟩ := z
      cases z2 <;> trivial
    · split
      · rename_i p hp
        exact polite_nil o (hH.assocImpl _ _ _ _ hp)
      · split
        · refine Prog.Polite.bind (polite_foldP (fun b a => ?_) _ _) (fun _ => trivial)
          intro z
          obtain ⟨z1, z2⟩ := z
          cases z2 <;> trivial
        · exact hd _ _
  unfold assocStrP
  split
  · trivial
  · exact fun _ => trivial
  · exact fun _ _ _ => trivial
  · exact fun _ => trivial
  · split
    · exact hd _ _
    · split <;> trivial
  · exact hgen _

/-- The methods that write the caches of lazy rows and lazy expressions or record an
evaluation: `LazyRowImpl.Get`, `LazyExprImpl.Reduce` and column getters. -/
def Call.writer : Call F → Bool
  | .rowGet _ _ | .lazyReduce _ | .getter _ => true
  | _ => false

/-- The code of every method is polite. -/
theorem polite_body [FloatOps F] (c : Call F) : (body H c).Polite c.writer [] := by
  cases c with
  | and e s =>
    obtain ⟨l, r⟩ := e
    intro left
    show Prog.Polite _ (match r with | [] => _ | r => _) _
    split
    · trivial
    · refine (polite_truth hH _ _ _).bind (fun b => ?_)
      split
      · trivial
      · exact polite_andLoopP hH _ _ _ _
  | or e s =>
    obtain ⟨l, r⟩ := e
    intro left
    show Prog.Polite _ (match r with | [] => _ | r => _) _
    split
    · trivial
    · refine (polite_truth hH _ _ _).bind (fun b => ?_)
      split
      · trivial
      · exact polite_orLoopP hH _ _ _ _
  | cond e s =>
    cases e with
    | not c => exact fun v => (polite_truth hH _ _ _).bind (fun b => trivial)
    | cmp l r =>
      cases r with
      | none => exact fun _ => trivial
      | some t =>
        obtain ⟨op, r⟩ := t
        exact fun a b => (polite_relP hH _ _ _ _ _).bind (fun _ => trivial)
  | add e s =>
    obtain ⟨l, r⟩ := e
    exact fun v => polite_foldP (fun b a => polite_addStepP hH _ _ _ _) _ _
  | mul e s =>
    obtain ⟨l, r⟩ := e
    exact fun v => polite_foldP (fun b a => polite_mulStepP hH _ _ _ _) _ _
  | member e s =>
    obtain ⟨l, r⟩ := e
    exact fun v => polite_memberLoopP _ _ _ _
  | comma e s =>
    obtain ⟨l, r⟩ := e
    intro v
    show Prog.Polite _ (match r with | [] => _ | r => _) _
    split
    · trivial
    · exact polite_commaLoopP _ _ _ _
  | value e s =>
    cases e with
    | num t =>
      show Prog.Polite _ (match H.num t with | some v => _ | none => _) _
      split
      · trivial
      · exact fun _ => trivial
    | sub c => exact fun _ => trivial
    | sym e => exact fun _ => trivial
    | _ => trivial
  | sym e s =>
    obtain ⟨node, symbol, called, ps⟩ := e
    exact polite_symP hH _ _ _ _ _ _
  | negate v s =>
    show Prog.Polite _ (match v with | .obj (.lazy c) => _ | .bool b => _ | .float f => _ | .int i => _ | _ => _) _
    split <;> first | trivial | exact fun _ _ => trivial
  | col c s =>
    obtain ⟨b, a⟩ := c
    cases b with
    | star => trivial
    | expr e => exact fun _ => trivial
    | select q =>
      refine (polite_call_bind _ _ _).2 (fun items => ?_)
      refine Prog.Polite.bind (polite_foldP (fun b a => (polite_unwrapP _ _ _).bind (fun _ => polite_pure _ _)) _ _)
        (fun rows => ?_)
      split <;> trivial
  | getter g =>
    cases g with
    | const v => trivial
    | col c n ns =>
      refine ⟨rfl, fun _ item => ?_⟩
      show Prog.Polite _ (colValueP _ _) _
      unfold colValueP
      split
      · trivial
      · split
        · exact (polite_materializeP _ _ _).bind (fun _ => trivial)
        · trivial
  | rowGet c k =>
    intro r
    cases r with
    | none => trivial
    | some r =>
      show Prog.Polite _ (match OD.get r.cache k with | some v => _ | none => _) _
      split
      · trivial
      · split
        · trivial
        · exact fun _ => ⟨rfl, fun _ => trivial⟩
  | lazyWith c s =>
    intro l
    cases l with
    | none => trivial
    | some l =>
      intro r
      show Prog.Polite _ (match r with | .query rows => _ | .obj (.lazy c') => _ | r => _) _
      split <;> first | trivial | exact fun _ => trivial
  | lazyReduce c =>
    intro l
    cases l with
    | none => trivial
    | some l =>
      show Prog.Polite _ (match l.value with | some v => _ | none => _) _
      split
      · trivial
      · exact fun _ => ⟨rfl, fun _ => trivial⟩
  | resolve s name =>
    intro d
    show Prog.Polite _ (ite _ _ _) _
    split
    · trivial
    · exact fun vars => polite_resolveLoopP _ _ _ _ _
  | assoc a k s =>
    show Prog.Polite _ (match k with | .val (.str n) => _ | k => _) _
    split
    · exact polite_assocStrP hH _ _ _ _
    · split
      · trivial
      · split
        · rename_i p hp
          exact hH.assocImpl _ _ _ _ hp
        · split
          · exact fun _ => trivial
          · exact hH.assocDefault _ _ _
  | members v s =>
    show Prog.Polite _ (match v with
      | .obj (.scope _) => _ | .obj (.row c) => _ | .dict d => _ | .null => _
      | .arr (x :: _) => _ | .query (x :: _) => _ | v => _) _
    split
    · trivial
    · intro r
      cases r <;> trivial
    · trivial
    · trivial
    · exact fun _ => trivial
    · exact fun _ => trivial
    · exact hH.hostMembers _ _
  | select q s =>
    obtain ⟨ex, all, cols, from_, w, gb, ob, lim⟩ := q
    cases lim with
    | some n => exact fun _ => trivial
    | none =>
      cases gb with
      | some gb =>
        refine (polite_call_bind _ _ _).2 (fun rows => ?_)
        refine (polite_copy_bind _ _ _).2 (fun g => ?_)
        refine Prog.Polite.bind (polite_foldP (fun b a => polite_groupRowP hH _ _ _ _ _ _ _ _) _ _)
          (fun bins => ?_)
        cases ob with
        | none => trivial
        | some kd =>
          obtain ⟨k, d⟩ := kd
          exact polite_nil _ (hH.sort _ _ _ _)
      | none =>
        cases ob with
        | some kd =>
          obtain ⟨k, d⟩ := kd
          exact fun rows => hH.sort _ _ _ _
        | none =>
          refine (polite_call_bind _ _ _).2 (fun rows => ?_)
          exact polite_foldP
            (fun b a => (polite_processRowP hH _ _ _ _ _ _).bind (fun _ => polite_pure _ _)) _ _
  | plugin p s =>
    obtain ⟨name, called, args⟩ := p
    refine (polite_findP _ _ _ _ _ _).bind (fun found => ?_)
    split
    · exact fun _ => trivial
    · split <;> exact fun _ => trivial
  | evalSymbolWithArgs ps v s =>
    intro d
    show Prog.Polite _ (ite _ _ _) _
    split
    · trivial
    · split
      · intro sub
        refine (polite_buildArgsP _ _ _).bind (fun a1 => (polite_applyDefaultsP _ _ _ _).bind (fun a2 => ?_))
        exact ⟨List.mem_cons_self, fun _ _ _ => trivial⟩
      · exact (polite_buildArgsP _ _ _).bind (fun a1 => hH.plugin _ _ _)
      · refine (polite_buildArgsP _ _ _).bind (fun a1 => (polite_applyDefaultsP _ _ _ _).bind (fun a2 => ?_))
        exact polite_storedQueryCallP _ _ _ _
      · exact fun _ => trivial
  | evalSymbol v s =>
    intro d
    show Prog.Polite _ (ite _ _ _) _
    split
    · trivial
    · split
      · exact fun _ _ => trivial
      · trivial
      · split
        · exact fun _ => trivial
        · trivial
  | evalQuery v s =>
    show Prog.Polite _ (match v with
      | .obj (.squery q) => _ | .obj (.select q) => _ | .obj (.site c) => _ | .query rows => _ | _ => _) _
    split
    · exact fun _ _ => trivial
    · exact fun _ => trivial
    · intro r
      cases r with
      | none => trivial
      | some x =>
        obtain ⟨a, b⟩ := x
        exact fun _ => trivial
    · trivial
    · trivial

end

/-! ## What every run preserves -/

section
variable {F S : Type}

theorem scp_lt {st : St F S} {i : Nat} (h : i < st.scopes.length) : st.scopes[i]? = some (st.scp i) := by
  simp [St.scp, h]

theorem scp_append_lt {st : St F S} {l : List (Scp F)} {i : Nat} (h : i < st.scopes.length) :
    ({ st with scopes := st.scopes ++ l } : St F S).scp i = st.scp i := by
  simp [St.scp, List.getElem?_append_left h]

theorem scp_set_ne {st : St F S} {x : Scp F} {i j : Nat} (h : j ≠ i) :
    ({ st with scopes := st.scopes.set j x } : St F S).scp i = st.scp i := by
  simp [St.scp, List.getElem?_set_ne h]

theorem scp_set_self {st : St F S} {x : Scp F} {i : Nat} (h : i < st.scopes.length) :
    ({ st with scopes := st.scopes.set i x } : St F S).scp i = x := by
  simp [St.scp, h]

/-- The heap only grows: objects keep their identity, the columns of a row, the expression
and scope of a lazy expression and the target of a call site never change, and the logs and
caches of syntax nodes only get longer. -/
structure Grows (st st' : St F S) : Prop where
  scopes : st.scopes.length ≤ st'.scopes.length
  ctxs : st.ctxs.length ≤ st'.ctxs.length
  lazies : ∀ (i : Nat) (l : LazyCell F), st.lazies[i]? = some l →
    ∃ l', st'.lazies[i]? = some l' ∧ l'.expr = l.expr ∧ l'.scope = l.scope
  rows : ∀ (i : Nat) (r : RowCell F), st.rows[i]? = some r →
    ∃ r', st'.rows[i]? = some r' ∧ r'.cols = r.cols
  sites : st.sites <+: st'.sites
  split : ∀ n, n ∈ st.split → n ∈ st'.split
  fns : ∀ n f, st.fns.find? (fun p => p.1 == n) = some f → st'.fns.find? (fun p => p.1 == n) = some f
  log : st.log <+: st'.log
  evals : st.evals <+: st'.evals

theorem Grows.refl (st : St F S) : Grows st st :=
  ⟨Nat.le_refl _, Nat.le_refl _, fun i l h => ⟨l, h, rfl, rfl⟩, fun i r h => ⟨r, h, rfl⟩, List.prefix_refl _,
    fun _ h => h, fun _ _ h => h, List.prefix_refl _, List.prefix_refl _⟩

theorem Grows.trans {a b c : St F S} (h : Grows a b) (h' : Grows b c) : Grows a c where
  scopes := Nat.le_trans h.scopes h'.scopes
  ctxs := Nat.le_trans h.ctxs h'.ctxs
  lazies := by
    intro i l hl
    obtain ⟨l1, h1, e1, e2⟩ := h.lazies i l hl
    obtain ⟨l2, h2, e3, e4⟩ := h'.lazies i l1 h1
    exact ⟨l2, h2, e3.trans e1, e4.trans e2⟩
  rows := by
    intro i l hl
    obtain ⟨l1, h1, e1⟩ := h.rows i l hl
    obtain ⟨l2, h2, e3⟩ := h'.rows i l1 h1
    exact ⟨l2, h2, e3.trans e1⟩
  sites := h.sites.trans h'.sites
  split := fun n hn => h'.split n (h.split n hn)
  fns := fun n f hn => h'.fns n f (h.fns n f hn)
  log := h.log.trans h'.log
  evals := h.evals.trans h'.evals

theorem Grows.of_scopes {st : St F S} {l : List (Scp F)} {c : List (AggCtx F Obj)}
    (h : st.scopes.length ≤ l.length) (hc : st.ctxs.length ≤ c.length) :
    Grows st { st with scopes := l, ctxs := c } :=
  ⟨h, hc, fun i l h => ⟨l, h, rfl, rfl⟩, fun i r h => ⟨r, h, rfl⟩, List.prefix_refl _,
    fun _ h => h, fun _ _ h => h, List.prefix_refl _, List.prefix_refl _⟩

theorem getAg_grows (st : St F S) (s : Nat) : Grows st (st.getAg s).2 := by
  unfold St.getAg
  simp only
  split
  · exact Grows.refl _
  · exact Grows.of_scopes (by simp [St.setAg]) (by simp)

theorem Prim.grows (p : Prim F S) (st : St F S) : Grows st (p.step st).2 := by
  cases p with
  | copy s => exact Grows.of_scopes (by simp) (by simp)
  | append s v => exact Grows.of_scopes (by simp) (by simp)
  | newAg s => exact Grows.of_scopes (by simp [St.setAg]) (by simp)
  | mkCtx => exact Grows.of_scopes (by simp) (by simp)
  | setAg s c => exact Grows.of_scopes (by simp) (by simp)
  | ag s f =>
    refine (getAg_grows st s).trans ?_
    show Grows (st.getAg s).2 { (st.getAg s).2 with
      ctxs := (st.getAg s).2.ctxs.set (st.getAg s).1 (f (((st.getAg s).2.ctxs[(st.getAg s).1]?).getD [])).2 }
    exact Grows.of_scopes (by simp) (by simp)
  | vars s => exact Grows.refl _
  | depth s => exact Grows.refl _
  | lazyInfo c => exact Grows.refl _
  | rowInfo c => exact Grows.refl _
  | siteInfo c => exact Grows.refl _
  | host f =>
    exact ⟨Nat.le_refl _, Nat.le_refl _, fun i l h => ⟨l, h, rfl, rfl⟩, fun i r h => ⟨r, h, rfl⟩, List.prefix_refl _,
      fun _ h => h, fun _ _ h => h, List.prefix_refl _, List.prefix_refl _⟩
  | newLazy e s =>
    refine ⟨Nat.le_refl _, Nat.le_refl _, fun i l h => ⟨l, ?_, rfl, rfl⟩, fun i r h => ⟨r, h, rfl⟩,
      List.prefix_refl _, fun _ h => h, fun _ _ h => h, List.prefix_refl _, List.prefix_refl _⟩
    have hi := (List.getElem?_eq_some_iff.1 h).1
    simp [Prim.step, List.getElem?_append_left hi, h]
  | newRow cols =>
    refine ⟨Nat.le_refl _, Nat.le_refl _, fun i l h => ⟨l, h, rfl, rfl⟩, fun i r h => ⟨r, ?_, rfl⟩,
      List.prefix_refl _, fun _ h => h, fun _ _ h => h, List.prefix_refl _, List.prefix_refl _⟩
    have hi := (List.getElem?_eq_some_iff.1 h).1
    simp [Prim.step, List.getElem?_append_left hi, h]
  | newSite q s =>
    exact ⟨Nat.le_refl _, Nat.le_refl _, fun i l h => ⟨l, h, rfl, rfl⟩, fun i r h => ⟨r, h, rfl⟩,
      List.prefix_append _ _, fun _ h => h, fun _ _ h => h, List.prefix_refl _, List.prefix_refl _⟩
  | log m =>
    exact ⟨Nat.le_refl _, Nat.le_refl _, fun i l h => ⟨l, h, rfl, rfl⟩, fun i r h => ⟨r, h, rfl⟩,
      List.prefix_refl _, fun _ h => h, fun _ _ h => h, List.prefix_append _ _, List.prefix_refl _⟩
  | eval n s =>
    exact ⟨Nat.le_refl _, Nat.le_refl _, fun i l h => ⟨l, h, rfl, rfl⟩, fun i r h => ⟨r, h, rfl⟩,
      List.prefix_refl _, fun _ h => h, fun _ _ h => h, List.prefix_refl _, List.prefix_append _ _⟩
  | split n =>
    refine ⟨Nat.le_refl _, Nat.le_refl _, fun i l h => ⟨l, h, rfl, rfl⟩, fun i r h => ⟨r, h, rfl⟩, List.prefix_refl _,
      fun _ h => ?_, fun _ _ h => h, List.prefix_refl _, List.prefix_refl _⟩
    simp only [Prim.step]
    split
    · exact h
    · exact List.mem_append_left _ h
  | fnOf n name =>
    simp only [Prim.step]
    split
    · exact Grows.refl _
    · refine ⟨Nat.le_refl _, Nat.le_refl _, fun i l h => ⟨l, h, rfl, rfl⟩, fun i r h => ⟨r, h, rfl⟩,
        List.prefix_refl _, fun _ h => h, fun m f h => ?_, List.prefix_refl _, List.prefix_refl _⟩
      simp [List.find?_append, h]
  | lazySet c v =>
    refine ⟨Nat.le_refl _, Nat.le_refl _, fun i l h => ?_, fun i r h => ⟨r, h, rfl⟩,
      List.prefix_refl _, fun _ h => h, fun _ _ h => h, List.prefix_refl _, List.prefix_refl _⟩
    simp only [Prim.step]
    by_cases hc : c = i
    · subst hc
      rw [h]
      have hi := (List.getElem?_eq_some_iff.1 h).1
      exact ⟨{ l with value := some v }, by simp [List.getElem?_set_self hi], rfl, rfl⟩
    · refine ⟨l, ?_, rfl, rfl⟩
      split
      · rw [List.getElem?_set_ne hc, h]
      · exact h
  | rowSet c k v =>
    refine ⟨Nat.le_refl _, Nat.le_refl _, fun i l h => ⟨l, h, rfl, rfl⟩, fun i r h => ?_,
      List.prefix_refl _, fun _ h => h, fun _ _ h => h, List.prefix_refl _, List.prefix_refl _⟩
    simp only [Prim.step]
    by_cases hc : c = i
    · subst hc
      rw [h]
      have hi := (List.getElem?_eq_some_iff.1 h).1
      exact ⟨{ r with cache := OD.set r.cache k v }, by simp [List.getElem?_set_self hi], rfl⟩
    · refine ⟨r, ?_, rfl⟩
      split
      · rw [List.getElem?_set_ne hc, h]
      · exact h

theorem interp_grows {α : Type} {rec : (c : Call F) → St F S → Option (c.Ret × St F S)}
    (hrec : ∀ c st r, rec c st = some r → Grows st r.2)
    (p : Prog F S α) : ∀ st r, interp rec p st = some r → Grows st r.2 := by
  induction p with
  | ret a =>
    intro st r h
    simp only [interp, Option.some.injEq] at h
    subst h
    exact Grows.refl _
  | call c k ih =>
    intro st r h
    simp only [interp] at h
    cases hc : rec c st with
    | none => simp [hc] at h
    | some x =>
      simp only [hc] at h
      exact (hrec c st x hc).trans (ih _ _ _ h)
  | prim p k ih =>
    intro st r h
    simp only [interp] at h
    exact (Prim.grows p st).trans (ih _ _ _ h)

variable [FloatOps F] {H : Host F S}

theorem run_grows (n : Nat) : ∀ (c : Call F) (st : St F S) r, run H n c st = some r → Grows st r.2 := by
  induction n with
  | zero => intro c st r h; simp [run] at h
  | succ n ih =>
    intro c st r h
    exact interp_grows ih _ _ _ h

theorem Runs.grows {α : Type} {p : Prog F S α} {st st' : St F S} {a : α} (h : Runs H p st a st') :
    Grows st st' := by
  obtain ⟨n, h⟩ := h
  exact interp_grows (run_grows n) _ _ _ h

/-- Every scope keeps its variables, depth, parent and aggregator context (which may be
created if it had none). -/
structure Frame (n : Nat) (st st' : St F S) : Prop where
  vars : ∀ i, i < n → (st'.scp i).vars = (st.scp i).vars
  depth : ∀ i, i < n → (st'.scp i).depth = (st.scp i).depth
  parent : ∀ i, i < n → (st'.scp i).parent = (st.scp i).parent
  ag : ∀ i, i < n → ∀ c, (st.scp i).ag = some c → (st'.scp i).ag = some c

omit [FloatOps F] in
theorem Frame.of_eq {n : Nat} {st st' : St F S} (h : ∀ i, i < n → st'.scp i = st.scp i) : Frame n st st' :=
  ⟨fun i hi => by rw [h i hi], fun i hi => by rw [h i hi], fun i hi => by rw [h i hi],
    fun i hi c hc => by rw [h i hi, hc]⟩

omit [FloatOps F] in
theorem Frame.trans {n : Nat} {a b c : St F S} (h : Frame n a b) (h' : Frame n b c) : Frame n a c :=
  ⟨fun i hi => (h'.vars i hi).trans (h.vars i hi), fun i hi => (h'.depth i hi).trans (h.depth i hi),
    fun i hi => (h'.parent i hi).trans (h.parent i hi), fun i hi c hc => h'.ag i hi c (h.ag i hi c hc)⟩

omit [FloatOps F] in
theorem Frame.mono {n m : Nat} {a b : St F S} (h : Frame n a b) (hm : m ≤ n) : Frame m a b :=
  ⟨fun i hi => h.vars i (by omega), fun i hi => h.depth i (by omega),
    fun i hi => h.parent i (by omega), fun i hi => h.ag i (by omega)⟩

omit [FloatOps F] in
theorem getAg_frame (st : St F S) (s n : Nat) : Frame n st (st.getAg s).2 := by
  unfold St.getAg
  simp only
  split
  · exact Frame.of_eq (fun _ _ => rfl)
  · rename_i h
    have key : ∀ i, ({ st.setAg (st.agHolder (s + 1) s) st.ctxs.length with
        ctxs := st.ctxs ++ [[]] } : St F S).scp i
        = (st.setAg (st.agHolder (s + 1) s) st.ctxs.length).scp i := fun _ => rfl
    have set_case : ∀ i, (st.setAg (st.agHolder (s + 1) s) st.ctxs.length).scp i = st.scp i ∨
        (i = st.agHolder (s + 1) s ∧
          (st.setAg (st.agHolder (s + 1) s) st.ctxs.length).scp i = { st.scp i with ag := some st.ctxs.length }) := by
      intro i
      by_cases hi : st.agHolder (s + 1) s = i
      · by_cases hl : i < st.scopes.length
        · refine Or.inr ⟨hi.symm, ?_⟩
          rw [hi]
          exact scp_set_self hl
        · left
          simp [St.scp, St.setAg, hl, List.getElem?_eq_none (Nat.not_lt.1 hl)]
      · exact Or.inl (scp_set_ne hi)
    constructor
    · intro i _
      rw [key]
      rcases set_case i with e | ⟨_, e⟩ <;> rw [e]
    · intro i _
      rw [key]
      rcases set_case i with e | ⟨_, e⟩ <;> rw [e]
    · intro i _
      rw [key]
      rcases set_case i with e | ⟨_, e⟩ <;> rw [e]
    · intro i _ c hc
      rw [key]
      rcases set_case i with e | ⟨hi, e⟩
      · rw [e, hc]
      · rw [hi] at hc
        rw [h] at hc
        exact nomatch hc

omit [FloatOps F] in
/-- Heap accesses without restriction keep all existing scopes. -/
theorem Prim.frame (p : Prim F S) (st : St F S) (h : p.free = true) (n : Nat) : Frame n st (p.step st).2 := by
  cases p with
  | ag s f => exact (getAg_frame st s n).trans (Frame.of_eq (fun _ _ => rfl))
  | fnOf m name =>
    simp only [Prim.step]
    split <;> exact Frame.of_eq (fun _ _ => rfl)
  | _ => first | exact Frame.of_eq (fun _ _ => rfl) | simp [Prim.free] at h

omit [FloatOps F] in
theorem interp_frame {α : Type} {rec : (c : Call F) → St F S → Option (c.Ret × St F S)}
    (hrec : ∀ c st r, rec c st = some r → Frame st.scopes.length st r.2)
    (hgrow : ∀ c st r, rec c st = some r → Grows st r.2) (n : Nat)
    (p : Prog F S α) : ∀ (o : List Nat) st r, p.Polite fl o → (∀ i ∈ o, n ≤ i) → n ≤ st.scopes.length →
      interp rec p st = some r → Frame n st r.2 := by
  induction p with
  | ret a =>
    intro o st r _ _ _ h
    simp only [interp, Option.some.injEq] at h
    subst h
    exact Frame.of_eq (fun _ _ => rfl)
  | call c k ih =>
    intro o st r hp ho hn h
    simp only [interp] at h
    cases hc : rec c st with
    | none => simp [hc] at h
    | some x =>
      simp only [hc] at h
      exact ((hrec c st x hc).mono hn).trans
        (ih _ o _ _ (hp _) ho (Nat.le_trans hn (hgrow c st x hc).scopes) h)
  | prim p k ih =>
    intro o st r hp ho hn h
    simp only [interp] at h
    have hlen := Nat.le_trans hn (Prim.grows p st).scopes
    have hfree : p.free = true → Frame n st r.2 := fun hf =>
      (Prim.frame p st hf n).trans (ih _ o _ _ ((polite_free hf).1 hp _) ho hlen h)
    cases p with
    | copy s =>
      have h1 : Frame n st ((Prim.copy s : Prim F S).step st).2 :=
        Frame.of_eq (fun i hi => scp_append_lt (Nat.lt_of_lt_of_le hi hn))
      refine h1.trans (ih _ _ _ _ (hp _) ?_ hlen h)
      intro i hi
      rcases List.mem_cons.1 hi with rfl | hi
      · exact hn
      · exact ho i hi
    | append s v =>
      have h1 : Frame n st ((Prim.append s v : Prim F S).step st).2 :=
        Frame.of_eq (fun i hi => scp_set_ne (by have := ho s hp.1; omega))
      exact h1.trans (ih _ _ _ _ (hp.2 _) ho hlen h)
    | newAg s =>
      have h1 : Frame n st ((Prim.newAg s : Prim F S).step st).2 :=
        Frame.of_eq (fun i hi => scp_set_ne (st := st) (by have := ho s hp.1; omega))
      exact h1.trans (ih _ _ _ _ (hp.2 _) ho hlen h)
    | setAg s c =>
      have h1 : Frame n st ((Prim.setAg s c : Prim F S).step st).2 :=
        Frame.of_eq (fun i hi => scp_set_ne (by have := ho s hp.1; omega))
      exact h1.trans (ih _ _ _ _ (hp.2 _) ho hlen h)
    | rowSet c kk v =>
      have h1 : Frame n st ((Prim.rowSet c kk v : Prim F S).step st).2 := Frame.of_eq (fun _ _ => rfl)
      exact h1.trans (ih _ _ _ _ (hp.2 _) ho hlen h)
    | lazySet c v =>
      have h1 : Frame n st ((Prim.lazySet c v : Prim F S).step st).2 := Frame.of_eq (fun _ _ => rfl)
      exact h1.trans (ih _ _ _ _ (hp.2 _) ho hlen h)
    | eval m s =>
      have h1 : Frame n st ((Prim.eval m s : Prim F S).step st).2 := Frame.of_eq (fun _ _ => rfl)
      exact h1.trans (ih _ _ _ _ (hp.2 _) ho hlen h)
    | _ => exact hfree rfl

theorem run_frame (hH : H.Polite) (n : Nat) : ∀ (c : Call F) (st : St F S) r,
    run H n c st = some r → Frame st.scopes.length st r.2 := by
  induction n with
  | zero => intro c st r h; simp [run] at h
  | succ n ih =>
    intro c st r h
    exact interp_frame ih (run_grows n) _ _ [] _ _ (polite_body hH c) (fun _ h => nomatch h) (Nat.le_refl _) h

/-- Running a polite program leaves every scope that existed before as it was. -/
theorem Runs.frame {α : Type} {p : Prog F S α} {st st' : St F S} {a : α} (hH : H.Polite)
    {fl : Bool} (hp : p.Polite fl []) (h : Runs H p st a st') : Frame st.scopes.length st st' := by
  obtain ⟨n, h⟩ := h
  exact interp_frame (run_frame hH n) (run_grows n) _ _ [] _ _ hp (fun _ h => nomatch h) (Nat.le_refl _) h

theorem Runs.call_frame {c : Call F} {st st' : St F S} {a : c.Ret} (hH : H.Polite)
    (h : Runs H (call c) st a st') : Frame st.scopes.length st st' :=
  h.frame (fl := false) hH (polite_call c [])

/-! ## Invariants -/

omit [FloatOps F] in
/-- Everything but writing caches and recording evaluations. -/
def Prim.plain : Prim F S → Bool
  | .rowSet _ _ _ | .lazySet _ _ | .eval _ _ => false
  | _ => true

omit [FloatOps F] in
theorem interp_inv {α : Type} {Inv : St F S → Prop}
    {rec : (c : Call F) → St F S → Option (c.Ret × St F S)}
    (hrec : ∀ c st r, rec c st = some r → Inv st → Inv r.2)
    (hprim : ∀ (p : Prim F S) st, p.plain = true → Inv st → Inv (p.step st).2)
    (p : Prog F S α) : ∀ (o : List Nat) st r, p.Polite false o →
      interp rec p st = some r → Inv st → Inv r.2 := by
  induction p with
  | ret a =>
    intro o st r _ h hi
    simp only [interp, Option.some.injEq] at h
    subst h
    exact hi
  | call c k ih =>
    intro o st r hp h hi
    simp only [interp] at h
    cases hc : rec c st with
    | none => simp [hc] at h
    | some x =>
      simp only [hc] at h
      exact ih _ o _ _ (hp _) h (hrec c st x hc hi)
  | prim p k ih =>
    intro o st r hp h hi
    simp only [interp] at h
    cases p with
    | copy s => exact ih _ _ _ _ (hp _) h (hprim _ _ rfl hi)
    | append s v => exact ih _ _ _ _ (hp.2 _) h (hprim _ _ rfl hi)
    | newAg s => exact ih _ _ _ _ (hp.2 _) h (hprim _ _ rfl hi)
    | setAg s c => exact ih _ _ _ _ (hp.2 _) h (hprim _ _ rfl hi)
    | rowSet c kk v => exact nomatch hp.1
    | lazySet c v => exact nomatch hp.1
    | eval m s => exact nomatch hp.1
    | _ => exact ih _ _ _ _ (hp _) h (hprim _ _ rfl hi)

/-- An invariant of the heap is kept by every run if the heap accesses other than cache
writes keep it and the three writing methods keep it. -/
theorem run_inv (hH : H.Polite) {Inv : St F S → Prop}
    (hprim : ∀ (p : Prim F S) st, p.plain = true → Inv st → Inv (p.step st).2)
    (hw : ∀ n (c : Call F), c.writer = true →
      (∀ (c : Call F) st r, run H n c st = some r → Inv st → Inv r.2) →
      ∀ st r, interp (run H n) (body H c) st = some r → Inv st → Inv r.2) (n : Nat) :
    ∀ (c : Call F) st r, run H n c st = some r → Inv st → Inv r.2 := by
  induction n with
  | zero => intro c st r h; simp [run] at h
  | succ n ih =>
    intro c st r h hi
    by_cases hc : c.writer = true
    · exact hw n c hc ih st r h hi
    · have hp := polite_body hH c
      rw [Bool.not_eq_true] at hc
      rw [hc] at hp
      exact interp_inv ih hprim _ [] _ _ hp h hi

/-- Cached values belong to columns of the row, and those of source columns are the values
of the source row. -/
def ConstOK (st : St F S) : Prop :=
  ∀ (c : Nat) (r : RowCell F), st.rows[c]? = some r → ∀ k v, OD.get r.cache k = some v →
    ∃ g, r.getter k = some g ∧ ∀ v', g = .const v' → v = v'

omit [FloatOps F] in
theorem constOK_prim (p : Prim F S) (st : St F S) (hp : p.plain = true) (h : ConstOK st) :
    ConstOK (p.step st).2 := by
  have same : ∀ st' : St F S, st'.rows = st.rows → ConstOK st' := by
    intro st' e c r hr
    rw [e] at hr
    exact h c r hr
  cases p with
  | newRow cols =>
    intro c r hr k v hv
    simp only [Prim.step] at hr
    by_cases hc : c < st.rows.length
    · rw [List.getElem?_append_left hc] at hr
      exact h c r hr k v hv
    · rw [List.getElem?_append_right (Nat.not_lt.1 hc)] at hr
      cases hj : c - st.rows.length with
      | zero =>
        rw [hj] at hr
        simp only [List.getElem?_cons_zero, Option.some.injEq] at hr
        subst hr
        simp [OD.get] at hv
      | succ j => rw [hj] at hr; simp at hr
  | fnOf m name =>
    simp only [Prim.step]
    split <;> exact same _ rfl
  | ag s f =>
    refine same _ ?_
    show (st.getAg s).2.rows = st.rows
    unfold St.getAg
    simp only
    split <;> rfl
  | _ => first | exact same _ rfl | simp [Prim.plain] at hp

theorem constOK_writer (n : Nat) (c : Call F) (hc : c.writer = true)
    (ih : ∀ (c : Call F) st r, run H n c st = some r → ConstOK st → ConstOK r.2) :
    ∀ st r, interp (run H n) (body H c) st = some r → ConstOK st → ConstOK r.2 := by
  intro st r h hi
  cases c with
  | getter g =>
    cases g with
    | const v =>
      simp only [body, pure_eq, interp, Option.some.injEq] at h
      subst h
      exact hi
    | col c nm ns =>
      -- everything after the recording of the evaluation is polite
      have h' : interp (run H n) (call (.col c ns) >>= fun item => colValueP ns item)
          { st with evals := st.evals ++ [(nm, ns)] } = some r := h
      refine interp_inv ih (fun p st hp => constOK_prim p st hp) _ [] _ _ ?_ h' hi
      refine (polite_call_bind _ _ _).2 (fun item => ?_)
      unfold colValueP
      split
      · trivial
      · split
        · exact (polite_materializeP _ _ _).bind (fun _ => trivial)
        · trivial
  | rowGet c k =>
    simp only [body, bind_eq, prim, Prog.bind, interp, Prim.step] at h
    have h' := h
    clear h
    split at h'
    · simp only [pure_eq, interp, Option.some.injEq] at h'
      subst h'
      exact hi
    · rename_i r0 hr0
      split at h'
      · simp only [pure_eq, interp, Option.some.injEq] at h'
        subst h'
        exact hi
      · split at h'
        · simp only [pure_eq, interp, Option.some.injEq] at h'
          subst h'
          exact hi
        · rename_i g hg
          have h2 : interp (run H n) (Prog.call (.getter g) (fun v => Prog.prim (.rowSet c k v)
            (fun _ => Prog.ret (some v, true))) : Prog F S (Option (V F) × Bool)) st = some r := h'
          simp only [interp] at h2
          cases hrun : run H n (.getter g) st with
          | none => simp [hrun] at h2
          | some x =>
            obtain ⟨v, s1⟩ := x
            have hi1 : ConstOK s1 := ih _ _ _ hrun hi
            have hg1 := run_grows n _ _ _ hrun
            obtain ⟨r1, hr1, hcols⟩ := hg1.rows c r0 hr0
            simp only [hrun, Option.some.injEq] at h2
            subst h2
            intro c2 r2 hr2 k2 v2 hv2
            simp only [Prim.step] at hr2
            have hr1' : s1.rows[c]? = some r1 := hr1
            simp only [hr1'] at hr2
            by_cases hcc : c = c2
            · subst hcc
              have hlt := (List.getElem?_eq_some_iff.1 hr1').1
              rw [List.getElem?_set_self hlt] at hr2
              simp only [Option.some.injEq] at hr2
              subst hr2
              have hgg : ∀ k, r1.getter k = r0.getter k := by
                intro k
                unfold RowCell.getter
                rw [show r1.cols = r0.cols from hcols]
              by_cases hkk : k2 = k
              · subst hkk
                have hv3 : OD.get (OD.set r1.cache k2 v) k2 = some v2 := hv2
                rw [OD.get_set_self] at hv3
                refine ⟨g, (hgg k2).trans hg, ?_⟩
                rintro v' rfl
                simp only [Option.some.injEq] at hv3
                cases n with
                | zero => simp [run] at hrun
                | succ n =>
                  simp only [run, body, pure_eq, interp, Option.some.injEq, Prod.mk.injEq] at hrun
                  rw [← hv3, ← hrun.1]
              · have hv3 : OD.get (OD.set r1.cache k v) k2 = some v2 := hv2
                rw [OD.get_set_ne _ _ hkk] at hv3
                exact hi1 c r1 hr1' k2 v2 hv3
            · rw [List.getElem?_set_ne hcc] at hr2
              exact hi1 c2 r2 hr2 k2 v2 hv2
  | lazyReduce c =>
    simp only [body, bind_eq, prim, Prog.bind, interp, Prim.step] at h
    have h' := h
    clear h
    split at h'
    · simp only [pure_eq, interp, Option.some.injEq] at h'
      subst h'
      exact hi
    · rename_i l hl
      split at h'
      · simp only [pure_eq, interp, Option.some.injEq] at h'
        subst h'
        exact hi
      · have h2 : interp (run H n) (Prog.call (.lazyWith c l.scope) (fun v => Prog.prim (.lazySet c v)
            (fun _ => Prog.ret v)) : Prog F S (V F)) st = some r := h'
        simp only [interp] at h2
        cases hrun : run H n (.lazyWith c l.scope) st with
        | none => simp [hrun] at h2
        | some x =>
          obtain ⟨v, s1⟩ := x
          simp only [hrun, Option.some.injEq] at h2
          subst h2
          have hi1 : ConstOK s1 := ih _ _ _ hrun hi
          exact hi1
  | _ => simp [Call.writer] at hc

/-- Source columns of lazy rows never change. -/
theorem Runs.constOK {α : Type} {p : Prog F S α} {st st' : St F S} {a : α} (hH : H.Polite)
    (hp : p.Polite false []) (h : Runs H p st a st') (hi : ConstOK st) : ConstOK st' := by
  obtain ⟨n, h⟩ := h
  exact interp_inv (run_inv hH constOK_prim (fun n c hc ih => constOK_writer n c hc ih) n) constOK_prim _ [] _ _ hp h hi

end
end Vfilter.Vql
