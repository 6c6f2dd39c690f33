import Verif.Ops
import Verif.F64
import Mathlib.Data.List.Perm.Subperm
/-!
# C07, C08: equality and ordering
-/

set_option linter.all false

namespace Vfilter
open FloatOps LawfulFloat

section
variable {F X : Type} [LawfulFloat F]

/-- Which scalar kinds may occur in a value. -/
structure Kinds where
  bool : Bool := false
  int : Bool := false
  float : Bool := false
  time : Bool := false

mutual
/-- Plain data over the given scalar kinds: no NaN, no host objects, no stored
queries, dict keys distinct; any nesting. -/
def Plain (K : Kinds) : Val F X → Prop
  | .null => True
  | .bool _ => K.bool = true
  | .int _ => K.int = true
  | .float f => K.float = true ∧ eq f f = true
  | .str _ => True
  | .time _ => K.time = true
  | .arr l => PlainL K l
  | .dict d => (OD.keys d).Nodup ∧ PlainD K d
  | .query _ => False
  | .obj _ => False
def PlainL (K : Kinds) : List (Val F X) → Prop
  | [] => True
  | x :: xs => Plain K x ∧ PlainL K xs
def PlainD (K : Kinds) : List (Str × Val F X) → Prop
  | [] => True
  | (_, x) :: xs => Plain K x ∧ PlainD K xs
end

/-- No registered `Eq` implementation claims two plain values. -/
def NoEqImpl (W : World F X) (K : Kinds) : Prop :=
  ∀ i ∈ W.eqI, ∀ a b : Val F X, Plain K a → Plain K b → i.applicable a b = false

theorem search2_none {R : Type} {l : List (BinImpl (Val F X) R)} {a b : Val F X}
    (h : ∀ i ∈ l, i.applicable a b = false) : search2 l a b = none := by
  induction l with
  | nil => rfl
  | cons i r ih => simp [search2, h i (by simp)]; exact ih (fun j hj => h j (by simp [hj]))

theorem NoEqImpl.search {W : World F X} {K : Kinds} (h : NoEqImpl W K) {a b : Val F X}
    (ha : Plain K a) (hb : Plain K b) : search2 W.eqI a b = none :=
  search2_none (fun i hi => h i hi a b ha hb)

/-! ### Unfolding equations -/

theorem eqV_arr (W : World F X) (la lb : List (Val F X)) :
    eqV W (.arr la) (.arr lb) = eqArr W la lb := by
  simp [eqV, eqSwitch, eqNum, Val.toInt64]

theorem eqV_dict (W : World F X) (da db : List (Str × Val F X))
    (h : search2 W.eqI (.dict da) (.dict db) = none) :
    eqV W (.dict da) (.dict db) = (decide (da.length = db.length) && eqDict W da db) := by
  simp [eqV, eqSwitch, eqNum, Val.toInt64, h]

theorem PlainD_get {K : Kinds} {d : List (Str × Val F X)} (h : PlainD K d) {k : Str} {v : Val F X}
    (hg : OD.get d k = some v) : Plain K v := by
  induction d with
  | nil => simp [OD.get] at hg
  | cons p r ih =>
    obtain ⟨k', x⟩ := p
    simp only [PlainD] at h
    simp only [OD.get] at hg
    split at hg
    · simp at hg; subst hg; exact h.1
    · exact ih h.2 hg

theorem OD_get_isSome (d : List (Str × Val F X)) (k : Str) :
    (OD.get d k).isSome = true ↔ k ∈ OD.keys d := by
  induction d with
  | nil => simp [OD.get, OD.keys]
  | cons p r ih =>
    obtain ⟨k', x⟩ := p
    simp only [OD.get, OD.keys, List.map_cons, List.mem_cons] at ih ⊢
    by_cases h : k' = k
    · simp [h]
    · rw [if_neg h, ih]
      constructor
      · exact Or.inr
      · rintro (h' | h')
        · exact absurd h'.symm h
        · exact h'

theorem OD_get_mem {d : List (Str × Val F X)} (hn : (OD.keys d).Nodup) {k : Str} {v : Val F X}
    (hm : (k, v) ∈ d) : OD.get d k = some v := by
  induction d with
  | nil => simp at hm
  | cons p r ih =>
    obtain ⟨k', x⟩ := p
    simp only [OD.keys, List.map_cons, List.nodup_cons] at hn ih
    simp only [OD.get]
    simp only [List.mem_cons, Prod.mk.injEq] at hm
    rcases hm with ⟨rfl, rfl⟩ | hm
    · simp
    · have : k' ≠ k := by
        rintro rfl
        exact hn.1 (List.mem_map.2 ⟨_, hm, rfl⟩)
      rw [if_neg this]
      exact ih hn.2 hm

theorem OD_mem_of_get {d : List (Str × Val F X)} {k : Str} {v : Val F X}
    (hg : OD.get d k = some v) : (k, v) ∈ d := by
  induction d with
  | nil => simp [OD.get] at hg
  | cons p r ih =>
    obtain ⟨k', x⟩ := p
    simp only [OD.get] at hg
    split at hg
    · rename_i h; simp at hg; subst hg; subst h; simp
    · exact List.mem_cons_of_mem _ (ih hg)

theorem eqDict_iff (W : World F X) (da db : List (Str × Val F X)) :
    eqDict W da db = true ↔
      ∀ k v, (k, v) ∈ da → ∃ w, OD.get db k = some w ∧ eqV W v w = true := by
  induction da with
  | nil => simp [eqDict]
  | cons p r ih =>
    obtain ⟨k, v⟩ := p
    simp only [eqDict]
    cases hg : OD.get db k with
    | none =>
      simp only [Bool.false_eq_true, false_iff]
      intro h
      obtain ⟨w, hw, _⟩ := h k v (by simp)
      rw [hg] at hw; simp at hw
    | some w =>
      simp only [Bool.and_eq_true, ih]
      constructor
      · rintro ⟨h1, h2⟩ k' v' hm
        simp only [List.mem_cons, Prod.mk.injEq] at hm
        rcases hm with ⟨rfl, rfl⟩ | hm
        · exact ⟨w, hg, h1⟩
        · exact h2 _ _ hm
      · intro h
        refine ⟨?_, fun k' v' hm => h k' v' (by simp [hm])⟩
        obtain ⟨w', hw', he⟩ := h k v (by simp)
        rw [hg] at hw'; simp at hw'; subst hw'; exact he

/-- Same set of keys. -/
def SameKeys (da db : List (Str × Val F X)) : Prop :=
  ∀ k, (OD.get da k).isSome = true ↔ (OD.get db k).isSome = true

theorem sameKeys_of {da db : List (Str × Val F X)} (ha : (OD.keys da).Nodup)
    (hl : da.length = db.length) (hsub : ∀ k, k ∈ OD.keys da → k ∈ OD.keys db) : SameKeys da db := by
  intro k
  rw [OD_get_isSome, OD_get_isSome]
  refine ⟨hsub k, ?_⟩
  have hsp : (OD.keys da).Subperm (OD.keys db) := List.subperm_of_subset ha hsub
  have hp : (OD.keys da).Perm (OD.keys db) :=
    List.Subperm.perm_of_length_le hsp (by simp [OD.keys, hl])
  exact fun h => hp.symm.subset h

theorem length_of_sameKeys {da db : List (Str × Val F X)} (ha : (OD.keys da).Nodup)
    (hb : (OD.keys db).Nodup) (h : SameKeys da db) : da.length = db.length := by
  have hp : (OD.keys da).Perm (OD.keys db) := by
    rw [List.perm_ext_iff_of_nodup ha hb]
    intro k
    rw [← OD_get_isSome, ← OD_get_isSome]; exact h k
  simpa [OD.keys] using hp.length_eq

/-! ## C07 -/

/-- Dicts are equal iff they have the same set of keys with equal values, whatever
the key order; arrays iff same length and elementwise equal. -/
theorem C07_dict_eq (W : World F X) (da db : List (Str × Val F X))
    (ha : (OD.keys da).Nodup) (hb : (OD.keys db).Nodup)
    (h : ∀ i ∈ W.eqI, i.applicable (.dict da) (.dict db) = false) :
    eqV W (.dict da) (.dict db) = true ↔
      SameKeys da db ∧
      ∀ k v w, OD.get da k = some v → OD.get db k = some w → eqV W v w = true := by
  rw [eqV_dict W da db (search2_none h), Bool.and_eq_true, decide_eq_true_iff, eqDict_iff]
  constructor
  · rintro ⟨hl, hall⟩
    refine ⟨sameKeys_of ha hl ?_, ?_⟩
    · intro k hk
      obtain ⟨p, hp, rfl⟩ := List.mem_map.1 hk
      obtain ⟨w, hw, _⟩ := hall p.1 p.2 hp
      rw [← OD_get_isSome, hw]; rfl
    · intro k v w hv hw
      obtain ⟨w', hw', he⟩ := hall k v (OD_mem_of_get hv)
      rw [hw] at hw'; simp at hw'; subst hw'; exact he
  · rintro ⟨hs, hall⟩
    refine ⟨length_of_sameKeys ha hb hs, ?_⟩
    intro k v hm
    have hg := OD_get_mem ha hm
    have := (hs k).1 (by rw [hg]; rfl)
    obtain ⟨w, hw⟩ := Option.isSome_iff_exists.1 this
    exact ⟨w, hw, hall k v w hg hw⟩

theorem C07_array_eq (W : World F X) (la lb : List (Val F X)) :
    eqV W (.arr la) (.arr lb) = true ↔
      la.length = lb.length ∧
      ∀ (i : Nat) x y, la[i]? = some x → lb[i]? = some y → eqV W x y = true := by
  rw [eqV_arr]
  induction la generalizing lb with
  | nil => cases lb <;> simp [eqArr]
  | cons x xs ih =>
    cases lb with
    | nil => simp [eqArr]
    | cons y ys =>
      simp only [eqArr, Bool.and_eq_true, ih, List.length_cons, Nat.add_right_cancel_iff]
      constructor
      · rintro ⟨h1, h2, h3⟩
        refine ⟨h2, fun i => ?_⟩
        cases i with
        | zero => simp; exact h1
        | succ i => simpa using h3 i
      · rintro ⟨h2, h3⟩
        refine ⟨by simpa using h3 0, h2, fun i => by simpa using h3 (i + 1)⟩

mutual
theorem eqV_refl (W : World F X) (K : Kinds) (hW : NoEqImpl W K) :
    ∀ a : Val F X, Plain K a → eqV W a a = true
  | .null, _ => by simp [eqV, eqSwitch, Val.isNil]
  | .bool b, _ => by simp [eqV, eqSwitch]
  | .int i, _ => by simp [eqV, eqSwitch, intEq]
  | .float f, h => by
      simp only [Plain] at h
      simp [eqV, eqSwitch, Val.toFloat, h.2]
  | .str s, _ => by simp [eqV, eqSwitch]
  | .time t, _ => by simp [eqV, eqSwitch, Val.toTime, unixNanoEq]
  | .arr l, h => by
      rw [eqV_arr]
      exact eqArr_refl W K hW l (by simpa only [Plain] using h)
  | .dict d, h => by
      have h' := h
      simp only [Plain] at h'
      rw [eqV_dict W d d (hW.search h h)]
      simp only [decide_true, Bool.true_and]
      rw [eqDict_iff]
      intro k v hm
      exact ⟨v, OD_get_mem h'.1 hm, eqD_refl W K hW d h'.2 k v hm⟩
  | .query _, h => by simp [Plain] at h
  | .obj _, h => by simp [Plain] at h
theorem eqArr_refl (W : World F X) (K : Kinds) (hW : NoEqImpl W K) :
    ∀ l : List (Val F X), PlainL K l → eqArr W l l = true
  | [], _ => by simp [eqArr]
  | x :: xs, h => by
      simp only [PlainL] at h
      simp [eqArr, eqV_refl W K hW x h.1, eqArr_refl W K hW xs h.2]
theorem eqD_refl (W : World F X) (K : Kinds) (hW : NoEqImpl W K) :
    ∀ d : List (Str × Val F X), PlainD K d → ∀ k v, (k, v) ∈ d → eqV W v v = true
  | [], _, _, _, hm => by simp at hm
  | (k', x) :: xs, h, k, v, hm => by
      simp only [PlainD] at h
      simp only [List.mem_cons, Prod.mk.injEq] at hm
      rcases hm with ⟨rfl, rfl⟩ | hm
      · exact eqV_refl W K hW v h.1
      · exact eqD_refl W K hW xs h.2 k v hm
end

/-- All scalar kinds. -/
def Kinds.all : Kinds := ⟨true, true, true, true⟩

/-- Equality is reflexive on plain data of any nesting depth (no NaN). -/
theorem C07_refl (W : World F X) (hW : NoEqImpl W Kinds.all) (a : Val F X) (ha : Plain Kinds.all a) :
    eqV W a a = true := eqV_refl W _ hW a ha

/-- Kind mixes on which `=` is symmetric: no booleans together with floats, no times
together with numbers or booleans. -/
def Kinds.Symm (K : Kinds) : Prop :=
  ¬ (K.bool = true ∧ K.float = true) ∧
  (K.time = true → K.bool = false ∧ K.int = false ∧ K.float = false)

theorem beq_comm' {α : Type} [BEq α] [LawfulBEq α] (a b : α) : (a == b) = (b == a) := by
  by_cases h : a = b
  · subst h; rfl
  · have h' : b ≠ a := fun e => h e.symm
    simp [h, h']

mutual
theorem eqV_symm (W : World F X) (K : Kinds) (hK : K.Symm) (hW : NoEqImpl W K) :
    ∀ a b : Val F X, Plain K a → Plain K b → eqV W a b = eqV W b a
  | .arr la, b, ha, hb => by
      cases b with
      | arr lb =>
        rw [eqV_arr, eqV_arr]
        simp only [Plain] at ha hb
        exact eqArr_symm W K hK hW la lb ha hb
      | time t =>
        have h1 := hW.search ha hb
        have h2 := hW.search hb ha
        simp [eqV, eqSwitch, eqNum, Val.toInt64, Val.toTime, h1, h2]
      | query _ => simp [Plain] at hb
      | obj _ => simp [Plain] at hb
      | _ =>
        have h1 := hW.search ha hb
        have h2 := hW.search hb ha
        simp [eqV, eqSwitch, eqNum, Val.toInt64, Val.toFloat, intEq, Val.isNil, h1, h2]
  | .dict da, b, ha, hb => by
      cases b with
      | dict db =>
        have h1 := hW.search ha hb
        have h2 := hW.search hb ha
        have ha' := ha
        have hb' := hb
        simp only [Plain] at ha' hb'
        have hval : ∀ k v w, OD.get da k = some v → OD.get db k = some w → eqV W v w = eqV W w v := by
          intro k v w hv hw
          exact eqD_symm W K hK hW da ha'.2 k v (OD_mem_of_get hv) w (PlainD_get hb'.2 hw)
        rw [Bool.eq_iff_iff]
        rw [C07_dict_eq W da db ha'.1 hb'.1 (fun i hi => hW i hi _ _ ha hb),
          C07_dict_eq W db da hb'.1 ha'.1 (fun i hi => hW i hi _ _ hb ha)]
        constructor
        · rintro ⟨h, h'⟩
          refine ⟨fun k => (h k).symm, fun k v w hv hw => ?_⟩
          rw [← hval k w v hw hv]; exact h' k w v hw hv
        · rintro ⟨h, h'⟩
          refine ⟨fun k => (h k).symm, fun k v w hv hw => ?_⟩
          rw [hval k v w hv hw]; exact h' k w v hw hv
      | time t =>
        have h1 := hW.search ha hb
        have h2 := hW.search hb ha
        simp [eqV, eqSwitch, eqNum, Val.toInt64, Val.toTime, h1, h2]
      | query _ => simp [Plain] at hb
      | obj _ => simp [Plain] at hb
      | _ =>
        have h1 := hW.search ha hb
        have h2 := hW.search hb ha
        simp [eqV, eqSwitch, eqNum, Val.toInt64, Val.toFloat, intEq, Val.isNil, h1, h2]
  | .query _, _, ha, _ => by simp [Plain] at ha
  | .obj _, _, ha, _ => by simp [Plain] at ha
  | .null, b, ha, hb => by
      have h1 := hW.search ha hb
      have h2 := hW.search hb ha
      cases b <;>
        simp_all [eqV, eqSwitch, eqNum, Val.toInt64, Val.toFloat, Val.toTime, intEq, Val.isNil, Plain]
  | .bool x, b, ha, hb => by
      have h1 := hW.search ha hb
      have h2 := hW.search hb ha
      cases b <;>
        simp_all [eqV, eqSwitch, eqNum, Val.toInt64, Val.toFloat, Val.toTime, intEq, Val.isNil, Plain,
          Kinds.Symm] <;> first | exact eq_comm | exact beq_comm' _ _ | skip
  | .int x, b, ha, hb => by
      have h1 := hW.search ha hb
      have h2 := hW.search hb ha
      cases b <;>
        simp_all [eqV, eqSwitch, eqNum, Val.toInt64, Val.toFloat, Val.toTime, intEq, Val.isNil, Plain,
          Kinds.Symm] <;> first | exact eq_comm | exact beq_comm' _ _ | exact LawfulFloat.eq_symm _ _ | skip
  | .float x, b, ha, hb => by
      have h1 := hW.search ha hb
      have h2 := hW.search hb ha
      cases b <;>
        simp_all [eqV, eqSwitch, eqNum, Val.toInt64, Val.toFloat, Val.toTime, intEq, Val.isNil, Plain,
          Kinds.Symm] <;> first | exact eq_comm | exact beq_comm' _ _ | exact LawfulFloat.eq_symm _ _ | skip
  | .str x, b, ha, hb => by
      have h1 := hW.search ha hb
      have h2 := hW.search hb ha
      cases b <;>
        simp_all [eqV, eqSwitch, eqNum, Val.toInt64, Val.toFloat, Val.toTime, intEq, Val.isNil, Plain,
          Kinds.Symm] <;> first | exact eq_comm | exact beq_comm' _ _ | skip
  | .time x, b, ha, hb => by
      have h1 := hW.search ha hb
      have h2 := hW.search hb ha
      cases b <;>
        simp_all [eqV, eqSwitch, eqNum, Val.toInt64, Val.toFloat, Val.toTime, intEq, Val.isNil, Plain,
          Kinds.Symm, unixNanoEq] <;> first | exact eq_comm | exact beq_comm' _ _ | skip
theorem eqArr_symm (W : World F X) (K : Kinds) (hK : K.Symm) (hW : NoEqImpl W K) :
    ∀ la lb : List (Val F X), PlainL K la → PlainL K lb → eqArr W la lb = eqArr W lb la
  | [], [], _, _ => rfl
  | [], _ :: _, _, _ => by simp [eqArr]
  | _ :: _, [], _, _ => by simp [eqArr]
  | x :: xs, y :: ys, ha, hb => by
      simp only [PlainL] at ha hb
      simp only [eqArr]
      rw [eqV_symm W K hK hW x y ha.1 hb.1, eqArr_symm W K hK hW xs ys ha.2 hb.2]
theorem eqD_symm (W : World F X) (K : Kinds) (hK : K.Symm) (hW : NoEqImpl W K) :
    ∀ da : List (Str × Val F X), PlainD K da → ∀ k v, (k, v) ∈ da →
      ∀ w, Plain K w → eqV W v w = eqV W w v
  | [], _, _, _, hm, _, _ => by simp at hm
  | (k', x) :: xs, h, k, v, hm, w, hw => by
      simp only [PlainD] at h
      simp only [List.mem_cons, Prod.mk.injEq] at hm
      rcases hm with ⟨rfl, rfl⟩ | hm
      · exact eqV_symm W K hK hW v w h.1 hw
      · exact eqD_symm W K hK hW xs h.2 k v hm w hw
end

/-- Equality is symmetric on plain data of any depth, for kind mixes without
bool/float and time/number pairs.  Missing from the full claim: those pairs, on which
the code is not symmetric (`C07_symm_refuted`). -/
theorem C07_symm_partial (W : World F X) (K : Kinds) (hK : K.Symm) (hW : NoEqImpl W K)
    (a b : Val F X) (ha : Plain K a) (hb : Plain K b) : eqV W a b = eqV W b a :=
  eqV_symm W K hK hW a b ha hb

/-! ## C08 -/

/-- Exactly one of three truth values. -/
def ExactlyOne (p q r : Bool) : Prop :=
  (p = true ∧ q = false ∧ r = false) ∨ (p = false ∧ q = true ∧ r = false) ∨
  (p = false ∧ q = false ∧ r = true)

/-- An integer or a float that is not NaN. -/
def IsNum : Val F X → Prop
  | .int _ => True
  | .float f => eq f f = true
  | _ => False

theorem f_tri (a b : F) (ha : eq a a = true) (hb : eq b b = true) :
    ExactlyOne (lt a b) (eq a b) (lt b a) := by
  have asym : ∀ x y : F, lt x y = true → lt y x = false := by
    intro x y h
    cases h' : lt y x with
    | false => rfl
    | true =>
      have := LawfulFloat.lt_trans _ _ _ h h'
      rw [LawfulFloat.lt_irrefl] at this; simp at this
  have hne : ∀ x y : F, lt x y = true → eq x y = false := by
    intro x y h
    cases h' : eq x y with
    | false => rfl
    | true =>
      rw [LawfulFloat.eq_symm] at h'
      have := LawfulFloat.lt_eq_trans _ _ _ h h'
      rw [LawfulFloat.lt_irrefl] at this; simp at this
  rcases LawfulFloat.total a b ha hb with h | h | h
  · exact Or.inl ⟨h, hne _ _ h, asym _ _ h⟩
  · refine Or.inr (Or.inl ⟨?_, h, ?_⟩)
    · cases h' : lt a b with
      | false => rfl
      | true => rw [hne _ _ h'] at h; simp at h
    · cases h' : lt b a with
      | false => rfl
      | true => rw [LawfulFloat.eq_symm, hne _ _ h'] at h; simp at h
  · refine Or.inr (Or.inr ⟨asym _ _ h, ?_, h⟩)
    rw [LawfulFloat.eq_symm]; exact hne _ _ h

theorem i_tri (a b : I64) : ExactlyOne (I64.lt a b) (a == b) (I64.lt b a) := by
  unfold ExactlyOne I64.lt
  by_cases h : a = b
  · subst h; simp
  · have h' : a.toInt ≠ b.toInt := fun e => h (BitVec.eq_of_toInt_eq e)
    simp [h]; omega

theorem strLt_irrefl (a : Str) : strLt a a = false := by
  induction a with
  | nil => rfl
  | cons x xs ih => simp [strLt, ih]

theorem strLt_trans : ∀ a b c : Str, strLt a b = true → strLt b c = true → strLt a c = true
  | [], [], _, h, _ => by simp [strLt] at h
  | [], _ :: _, [], _, h => by simp [strLt] at h
  | [], _ :: _, _ :: _, _, _ => by simp [strLt]
  | _ :: _, [], _, h, _ => by simp [strLt] at h
  | _ :: _, _ :: _, [], _, h => by simp [strLt] at h
  | x :: xs, y :: ys, z :: zs, h1, h2 => by
      simp only [strLt, Bool.or_eq_true, Bool.and_eq_true, decide_eq_true_eq] at h1 h2 ⊢
      rcases h1 with h1 | ⟨rfl, h1⟩
      · rcases h2 with h2 | ⟨rfl, h2⟩
        · left; omega
        · left; exact h1
      · rcases h2 with h2 | ⟨rfl, h2⟩
        · left; exact h2
        · right; exact ⟨rfl, strLt_trans xs ys zs h1 h2⟩

theorem strLt_total : ∀ a b : Str, strLt a b = true ∨ a = b ∨ strLt b a = true
  | [], [] => by simp
  | [], _ :: _ => by simp [strLt]
  | _ :: _, [] => by simp [strLt]
  | x :: xs, y :: ys => by
      simp only [strLt, Bool.or_eq_true, Bool.and_eq_true, decide_eq_true_eq, List.cons.injEq]
      by_cases h : x = y
      · subst h
        rcases strLt_total xs ys with h | h | h
        · left; right; exact ⟨rfl, h⟩
        · right; left; exact ⟨rfl, h⟩
        · right; right; right; exact ⟨rfl, h⟩
      · have : x.toNat ≠ y.toNat := fun e => h (UInt8.toNat_inj.1 e)
        omega

theorem s_tri (a b : Str) : ExactlyOne (strLt a b) (a == b) (strLt b a) := by
  rcases strLt_total a b with h | h | h
  · left
    refine ⟨h, ?_, ?_⟩
    · cases h' : (a == b) with
      | false => rfl
      | true =>
        have := eq_of_beq h'; subst this
        rw [strLt_irrefl] at h; simp at h
    · cases h' : strLt b a with
      | false => rfl
      | true => have := strLt_trans _ _ _ h h'; rw [strLt_irrefl] at this; simp at this
  · subst h; right; left; simp [strLt_irrefl]
  · right; right
    refine ⟨?_, ?_, h⟩
    · cases h' : strLt a b with
      | false => rfl
      | true => have := strLt_trans _ _ _ h h'; rw [strLt_irrefl] at this; simp at this
    · cases h' : (a == b) with
      | false => rfl
      | true =>
        have := eq_of_beq h'; subst this
        rw [strLt_irrefl] at h; simp at h

/-- For two numbers (integers or non NaN floats) or two strings, exactly one of
`a < b`, `a = b`, `a > b` holds. -/
theorem C08_trichotomy (W : World F X) (a b : Val F X)
    (h : (IsNum a ∧ IsNum b) ∨ (∃ s t, a = .str s ∧ b = .str t)) :
    ExactlyOne (ltV W a b) (eqV W a b) (gtV W a b) := by
  rcases h with ⟨ha, hb⟩ | ⟨s, t, rfl, rfl⟩
  · cases a <;> simp only [IsNum] at ha <;> cases b <;> simp only [IsNum] at hb <;>
      simp only [ltV, eqV, gtV, eqSwitch, intLt, intEq, intGt, Val.toFloat, Option.map_some]
    · exact i_tri _ _
    · exact f_tri _ _ (LawfulFloat.ofI64_num _) hb
    · exact f_tri _ _ ha (LawfulFloat.ofI64_num _)
    · exact f_tri _ _ ha hb
  · simp only [ltV, eqV, gtV, eqSwitch]
    exact s_tri _ _

/-- `a < b` iff `b > a`. -/
theorem C08_flip (W : World F X) (a b : Val F X)
    (h : (IsNum a ∧ IsNum b) ∨ (∃ s t, a = .str s ∧ b = .str t)) :
    ltV W a b = gtV W b a := by
  rcases h with ⟨ha, hb⟩ | ⟨s, t, rfl, rfl⟩
  · cases a <;> simp only [IsNum] at ha <;> cases b <;> simp only [IsNum] at hb <;>
      simp only [ltV, gtV, intLt, intGt, Val.toFloat]
  · simp [ltV, gtV]

/-- `<` is transitive, also across integers and floats (rounding is monotone). -/
theorem C08_trans (W : World F X) (a b c : Val F X)
    (h : (IsNum a ∧ IsNum b ∧ IsNum c) ∨ (∃ s t u, a = .str s ∧ b = .str t ∧ c = .str u))
    (hab : ltV W a b = true) (hbc : ltV W b c = true) : ltV W a c = true := by
  have mono : ∀ i j : I64, i.toInt ≤ j.toInt → ∀ f : F, lt (ofI64 j) f = true → lt (ofI64 i) f = true := by
    intro i j hij f hf
    have h1 := LawfulFloat.ofI64_mono (F := F) i j hij
    rcases LawfulFloat.total (ofI64 i : F) (ofI64 j) (LawfulFloat.ofI64_num _)
      (LawfulFloat.ofI64_num _) with h | h | h
    · exact LawfulFloat.lt_trans _ _ _ h hf
    · exact LawfulFloat.eq_lt_trans _ _ _ h hf
    · rw [h1] at h; simp at h
  have mono' : ∀ i j : I64, i.toInt ≤ j.toInt → ∀ f : F, lt f (ofI64 i) = true → lt f (ofI64 j) = true := by
    intro i j hij f hf
    have h1 := LawfulFloat.ofI64_mono (F := F) i j hij
    rcases LawfulFloat.total (ofI64 i : F) (ofI64 j) (LawfulFloat.ofI64_num _)
      (LawfulFloat.ofI64_num _) with h | h | h
    · exact LawfulFloat.lt_trans _ _ _ hf h
    · exact LawfulFloat.lt_eq_trans _ _ _ hf h
    · rw [h1] at h; simp at h
  rcases h with ⟨ha, hb, hc⟩ | ⟨s, t, u, rfl, rfl, rfl⟩
  · cases a <;> simp only [IsNum] at ha <;> cases b <;> simp only [IsNum] at hb <;>
      cases c <;> simp only [IsNum] at hc <;>
      simp only [ltV, intLt, Val.toFloat, I64.lt, decide_eq_true_eq] at hab hbc ⊢
    · omega
    · exact mono _ _ (by omega) _ hbc
    · rename_i i f j
      by_cases hij : i.toInt < j.toInt
      · exact hij
      · have h1 := LawfulFloat.ofI64_mono (F := F) j i (by omega)
        have h2 := LawfulFloat.lt_trans _ _ _ hab hbc
        rw [h1] at h2; simp at h2
    · exact LawfulFloat.lt_trans _ _ _ hab hbc
    · exact mono' _ _ (by omega) _ hab
    · exact LawfulFloat.lt_trans _ _ _ hab hbc
    · exact LawfulFloat.lt_trans _ _ _ hab hbc
    · exact LawfulFloat.lt_trans _ _ _ hab hbc
  · simp only [ltV] at hab hbc ⊢
    exact strLt_trans _ _ _ hab hbc

/-- Times whose nanosecond count fits in 64 bits. -/
def InRange (t : Int) : Prop := -(2 ^ 63) ≤ t ∧ t < 2 ^ 63

/-- Times in the years 1678-2262 are totally ordered too. -/
theorem C08_time_trichotomy (W : World F X) (t u : Int) (ht : InRange t) (hu : InRange u) :
    ExactlyOne (ltV W (.time t) (.time u)) (eqV W (.time t) (.time u)) (gtV W (.time t) (.time u)) := by
  simp only [ltV, eqV, gtV, eqSwitch, Val.toTime, Option.map_some, unixNanoEq]
  unfold ExactlyOne
  by_cases h : t = u
  · subst h; simp
  · have : BitVec.ofInt 64 t ≠ BitVec.ofInt 64 u := by
      intro e
      have e' := congrArg BitVec.toInt e
      simp only [BitVec.toInt_ofInt] at e'
      rw [Int.bmod_eq_of_le (by unfold InRange at ht; omega) (by unfold InRange at ht; omega),
        Int.bmod_eq_of_le (by unfold InRange at hu; omega) (by unfold InRange at hu; omega)] at e'
      exact h e'
    simp [this]; omega

/-- The instant, in nanoseconds since the epoch, that a value stands for next to a time:
numbers are seconds. -/
def instant : Val F X → Option Int
  | .time ns => some ns
  | .int i => some (i.toInt * 1000000000)
  | .bool true => some 1000000000
  | .bool false => some 0
  | .float f => some (unixNs f)
  | _ => none

/-- A time compares with a time or a number (seconds) by the instants they stand for, in
either position. -/
theorem C08_time_numbers (W : World F X) (t u : Int) (v : Val F X) (hv : instant v = some u) :
    (ltV W (.time t) v = true ↔ t < u) ∧ (ltV W v (.time t) = true ↔ u < t) ∧
    (gtV W (.time t) v = true ↔ u < t) ∧ (gtV W v (.time t) = true ↔ t < u) := by
  cases v with
  | bool b => cases b <;> simp only [instant] at hv <;> cases hv <;> simp [ltV, gtV, Val.toTime]
  | int i => simp only [instant] at hv; cases hv; simp [ltV, gtV, Val.toTime]
  | float f => simp only [instant] at hv; cases hv; simp [ltV, gtV, Val.toTime, Val.toFloat]
  | time n => simp only [instant] at hv; cases hv; simp [ltV, gtV, Val.toTime]
  | _ => simp [instant] at hv

example : instant (.int 5 : Val F64 Unit) = some 5000000000 ∧
    ltV ({} : World F64 Unit) (.int 5) (.time 5000000001) = true := by decide

/-- NULL is neither less nor greater than anything (on the left), and equal only to NULL. -/
theorem C08_null (W : World F X) (b : Val F X) :
    ltV W .null b = false ∧ gtV W .null b = false ∧ (eqV W .null b = true ↔ b = .null) := by
  refine ⟨rfl, rfl, ?_⟩
  cases b <;> simp [eqV, eqSwitch, Val.isNil]

end

/-! ### Concrete cases -/

/-- ints, floats, strings, arrays, dicts -/
def kIF : Kinds := { int := true, float := true }
/-- bools, ints, strings, arrays, dicts -/
def kBI : Kinds := { bool := true, int := true }

def exD1 : Val F64 Unit := .dict [(bs "a", .int 1), (bs "b", .arr [.str (bs "x"), .null])]
def exD2 : Val F64 Unit := .dict [(bs "b", .arr [.str (bs "x"), .null]), (bs "a", .int 1)]

example : kIF.Symm ∧ NoEqImpl ({} : World F64 Unit) kIF ∧ Plain kIF exD1 ∧ Plain kIF exD2 := by
  refine ⟨by simp [Kinds.Symm, kIF], by simp [NoEqImpl], ?_, ?_⟩ <;>
    simp [Plain, PlainD, PlainL, exD1, exD2, kIF, OD.keys, bs]
example : eqV ({} : World F64 Unit) exD1 exD2 = true := rfl
example : Plain (F := F64) (X := Unit) Kinds.all (.arr [.bool true, .time 5, .float (F64.ofI64 2)]) := by
  refine ⟨rfl, rfl, ⟨rfl, ?_⟩, trivial⟩
  exact LawfulFloat.ofI64_num (F := F64) 2

/-- `TRUE = 1.5` holds but `1.5 = TRUE` does not; `timestamp(1) = 1` holds but
`1 = timestamp(1)` does not. -/
theorem C07_symm_refuted :
    (let f : F64 := F64.div (F64.ofI64 3) (F64.ofI64 2)
     eqV ({} : World F64 Unit) (.bool true) (.float f) = true ∧
     eqV ({} : World F64 Unit) (.float f) (.bool true) = false) ∧
    (eqV ({} : World F64 Unit) (.time 1000000000) (.int 1) = true ∧
     eqV ({} : World F64 Unit) (.int 1) (.time 1000000000) = false) := by
  decide +kernel

/-- Equality is not transitive when integers and floats mix: `9007199254740993 = 2^53 as
a float = 9007199254740992`, but the two integers differ.  (The claim did not include
transitivity; recorded as a limit.) -/
theorem C07_trans_refuted :
    let f : F64 := F64.ofI64 (i64 9007199254740992)
    eqV ({} : World F64 Unit) (.int (i64 9007199254740993)) (.float f) = true ∧
    eqV ({} : World F64 Unit) (.float f) (.int (i64 9007199254740992)) = true ∧
    eqV ({} : World F64 Unit) (.int (i64 9007199254740993)) (.int (i64 9007199254740992)) = false := by
  decide +kernel

/-- NaN is not equal to itself. -/
theorem C07_refl_nan_refuted : eqV ({} : World F64 Unit) (.float .nan) (.float .nan) = false := rfl

/-! ### C08 concrete cases and refutations -/

example : IsNum (.float (F64.ofI64 3) : Val F64 Unit) ∧ IsNum (.int 2 : Val F64 Unit) :=
  ⟨LawfulFloat.ofI64_num (F := F64) 3, trivial⟩
example : ltV ({} : World F64 Unit) (.int 2) (.float (F64.ofI64 3)) = true := by decide +kernel
example : ltV ({} : World F64 Unit) (.str (bs "ab")) (.str (bs "b")) = true := rfl

/-- Booleans break `>`: `TRUE > 0` is false and `TRUE > 5` is true. -/
theorem C08_bool_refuted :
    gtV ({} : World F64 Unit) (.bool true) (.int 0) = false ∧
    gtV ({} : World F64 Unit) (.bool true) (.int 5) = true ∧
    ltV ({} : World F64 Unit) (.bool true) (.int 5) = true := by decide +kernel

/-- "at most one holds for any values" is false: `"abc" < 5` and `"abc" > 5` both hold,
and so do `<` and `>` between an array and an integer. -/
theorem C08_at_most_one_refuted :
    (ltV ({} : World F64 Unit) (.str (bs "abc")) (.int 5) = true ∧
     gtV ({} : World F64 Unit) (.str (bs "abc")) (.int 5) = true) ∧
    (ltV ({} : World F64 Unit) (.arr []) (.int 5) = true ∧
     gtV ({} : World F64 Unit) (.arr []) (.int 5) = true) := by decide +kernel

/-- Far away times are both less and equal (nanoseconds wrap around). -/
theorem C08_time_refuted :
    ltV ({} : World F64 Unit) (.time 0) (.time (2 ^ 64)) = true ∧
    eqV ({} : World F64 Unit) (.time 0) (.time (2 ^ 64)) = true := by decide +kernel

end Vfilter
