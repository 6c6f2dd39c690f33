import Verif.Aggregates
import Verif.F64
import Verif.Props.Compare
import Mathlib.Data.List.Induction
import Mathlib.Data.List.Perm.Basic
/-!
# C31 aggregate functions, C32 the order of ORDER BY
-/

set_option linter.all false

namespace Vfilter
variable {F X : Type} [LawfulFloat F]
open FloatOps

/-! ## Orders -/

/-- `lt` is a strict weak order on the elements of `l`. -/
structure StrictWeakOn {A : Type} (lt : A → A → Bool) (l : List A) : Prop where
  irrefl : ∀ a ∈ l, lt a a = false
  trans : ∀ a ∈ l, ∀ b ∈ l, ∀ c ∈ l, lt a b = true → lt b c = true → lt a c = true
  negtrans : ∀ a ∈ l, ∀ b ∈ l, ∀ c ∈ l, lt a b = false → lt b c = false → lt a c = false

theorem StrictWeakOn.subset {A : Type} {lt : A → A → Bool} {l l' : List A}
    (h : StrictWeakOn lt l) (hs : ∀ x ∈ l', x ∈ l) : StrictWeakOn lt l' :=
  ⟨fun a ha => h.irrefl a (hs a ha),
   fun a ha b hb c hc => h.trans a (hs a ha) b (hs b hb) c (hs c hc),
   fun a ha b hb c hc => h.negtrans a (hs a ha) b (hs b hb) c (hs c hc)⟩

theorem StrictWeakOn.asymm {A : Type} {lt : A → A → Bool} {l : List A} (h : StrictWeakOn lt l)
    {a b : A} (ha : a ∈ l) (hb : b ∈ l) (hab : lt a b = true) : lt b a = false := by
  cases hba : lt b a with
  | false => rfl
  | true =>
    have := h.trans a ha b hb a ha hab hba
    rw [h.irrefl a ha] at this; simp at this

/-- The kinds of lists that VQL's `<` orders: all integers or strings (all strings come
before all integers), all non NaN floats, all times. -/
def Ordered (l : List (Val F X)) : Prop :=
  (∀ v ∈ l, (∃ i, v = .int i) ∨ ∃ s, v = .str s) ∨
  (∀ v ∈ l, ∃ f, v = .float f ∧ eq f f = true) ∨
  (∀ v ∈ l, ∃ t, v = .time t)

theorem strLt_negtrans (a b c : Str) (h1 : strLt a b = false) (h2 : strLt b c = false) :
    strLt a c = false := by
  cases h : strLt a c with
  | false => rfl
  | true =>
    rcases strLt_total a b with hab | rfl | hba
    · rw [hab] at h1; simp at h1
    · rw [h] at h2; simp at h2
    · have := strLt_trans _ _ _ hba h
      rw [this] at h2; simp at h2

theorem ordered_strictWeak (W : World F X) (l : List (Val F X)) (h : Ordered l) :
    StrictWeakOn (ltV W) l := by
  rcases h with h | h | h
  · refine ⟨?_, ?_, ?_⟩
    · intro a ha
      rcases h a ha with ⟨i, rfl⟩ | ⟨s, rfl⟩
      · simp [ltV, intLt, I64.lt]
      · simp [ltV, strLt_irrefl]
    · intro a ha b hb c hc
      rcases h a ha with ⟨i, rfl⟩ | ⟨s, rfl⟩ <;> rcases h b hb with ⟨j, rfl⟩ | ⟨t, rfl⟩ <;>
        rcases h c hc with ⟨k, rfl⟩ | ⟨u, rfl⟩ <;>
        simp [ltV, intLt, intGt, intEq, I64.lt]
      · omega
      · exact strLt_trans _ _ _
    · intro a ha b hb c hc
      rcases h a ha with ⟨i, rfl⟩ | ⟨s, rfl⟩ <;> rcases h b hb with ⟨j, rfl⟩ | ⟨t, rfl⟩ <;>
        rcases h c hc with ⟨k, rfl⟩ | ⟨u, rfl⟩ <;>
        simp [ltV, intLt, intGt, intEq, I64.lt]
      · omega
      · exact strLt_negtrans _ _ _
  · have asym : ∀ x y : F, lt x y = true → lt y x = false := by
      intro x y h
      cases h' : lt y x with
      | false => rfl
      | true =>
        have := LawfulFloat.lt_trans _ _ _ h h'
        rw [LawfulFloat.lt_irrefl] at this; simp at this
    refine ⟨?_, ?_, ?_⟩
    · intro a ha
      obtain ⟨f, rfl, hf⟩ := h a ha
      simp [ltV, Val.toFloat, LawfulFloat.lt_irrefl]
    · intro a ha b hb c hc
      obtain ⟨f, rfl, hf⟩ := h a ha
      obtain ⟨g, rfl, hg⟩ := h b hb
      obtain ⟨k, rfl, hk⟩ := h c hc
      simp only [ltV, Val.toFloat]
      exact LawfulFloat.lt_trans _ _ _
    · intro a ha b hb c hc
      obtain ⟨f, rfl, hf⟩ := h a ha
      obtain ⟨g, rfl, hg⟩ := h b hb
      obtain ⟨k, rfl, hk⟩ := h c hc
      simp only [ltV, Val.toFloat]
      intro h1 h2
      cases h3 : lt f k with
      | false => rfl
      | true =>
        rcases LawfulFloat.total f g hf hg with h | h | h
        · rw [h] at h1; simp at h1
        · rw [LawfulFloat.eq_symm] at h
          rw [LawfulFloat.eq_lt_trans _ _ _ h h3] at h2; simp at h2
        · rw [LawfulFloat.lt_trans _ _ _ h h3] at h2; simp at h2
  · refine ⟨?_, ?_, ?_⟩
    · intro a ha
      obtain ⟨t, rfl⟩ := h a ha
      simp [ltV, Val.toTime]
    · intro a ha b hb c hc
      obtain ⟨f, rfl⟩ := h a ha
      obtain ⟨g, rfl⟩ := h b hb
      obtain ⟨k, rfl⟩ := h c hc
      simp [ltV, Val.toTime]; omega
    · intro a ha b hb c hc
      obtain ⟨f, rfl⟩ := h a ha
      obtain ⟨g, rfl⟩ := h b hb
      obtain ⟨k, rfl⟩ := h c hc
      simp [ltV, Val.toTime]; omega

/-! ## C31 -/

/-- The context after a history of calls. -/
def aggSt (W : World F X) : AggCtx F X → List (Str × AggOp F X) → AggCtx F X
  | c, [] => c
  | c, (id, op) :: r => aggSt W (aggCall W c id op).1 r

theorem aggCall_get_ne (W : World F X) (c : AggCtx F X) (id id' : Str) (op : AggOp F X) (h : id' ≠ id) :
    (aggCall W c id op).1.get id' = c.get id' := by
  cases op with
  | sum i => cases i <;> simp [aggCall, AggCtx.modify, OD.get_set_ne _ _ h]
  | _ => simp [aggCall, AggCtx.modify, OD.get_set_ne _ _ h]

theorem aggCall_congr (W : World F X) (c c' : AggCtx F X) (id : Str) (op : AggOp F X)
    (h : c.get id = c'.get id) :
    (aggCall W c id op).2 = (aggCall W c' id op).2 ∧
    (aggCall W c id op).1.get id = (aggCall W c' id op).1.get id := by
  cases op with
  | sum i => cases i <;> simp [aggCall, AggCtx.modify, OD.get_set_self, h]
  | _ => simp [aggCall, AggCtx.modify, OD.get_set_self, h]

/-- Instances of aggregate functions do not interfere: what an instance returns depends
only on its own calls, whatever calls of other instances come between. -/
theorem C31_independent (W : World F X) (id : Str) (calls : List (Str × AggOp F X)) (c c' : AggCtx F X)
    (h : c.get id = c'.get id) :
    (aggRun W c calls).filter (fun p => decide (p.1 = id)) =
      aggRun W c' (calls.filter (fun p => decide (p.1 = id))) := by
  induction calls generalizing c c' with
  | nil => rfl
  | cons p r ih =>
    obtain ⟨i, op⟩ := p
    by_cases hi : i = id
    · subst hi
      obtain ⟨h1, h2⟩ := aggCall_congr W c c' i op h
      simp only [aggRun, List.filter_cons, decide_true, if_true]
      rw [h1, ih _ _ h2]
    · simp only [aggRun, List.filter_cons, hi, decide_false]
      simp only [Bool.false_eq_true, if_false]
      exact ih _ _ (by rw [aggCall_get_ne _ _ _ _ _ (Ne.symm hi)]; exact h)

theorem aggRun_append (W : World F X) (c : AggCtx F X) (l r : List (Str × AggOp F X)) :
    aggRun W c (l ++ r) = aggRun W c l ++ aggRun W (aggSt W c l) r := by
  induction l generalizing c with
  | nil => rfl
  | cons p l ih => obtain ⟨i, op⟩ := p; simp [aggRun, aggSt, ih]

theorem aggSt_append (W : World F X) (c : AggCtx F X) (l r : List (Str × AggOp F X)) :
    aggSt W c (l ++ r) = aggSt W (aggSt W c l) r := by
  induction l generalizing c with
  | nil => rfl
  | cons p l ih => obtain ⟨i, op⟩ := p; simp [aggSt, ih]

theorem aggRun_last (W : World F X) (c : AggCtx F X) (l : List (Str × AggOp F X)) (id : Str) (op : AggOp F X) :
    (aggRun W c (l ++ [(id, op)])).getLast? = some (id, (aggCall W (aggSt W c l) id op).2) := by
  rw [aggRun_append]; simp [aggRun]

/-- The value the instance `id` returned last in a history of calls on a new context. -/
def LastResult (W : World F X) (id : Str) (calls : List (Str × AggOp F X)) (v : Cell F X) : Prop :=
  ((aggRun W [] calls).filter (fun p => decide (p.1 = id))).getLast? = some (id, v)

/-- The calls of the instance `id` in a history are `ops`. -/
def CallsOf (id : Str) (calls : List (Str × AggOp F X)) (ops : List (AggOp F X)) : Prop :=
  (calls.filter (fun p => decide (p.1 = id))).map (·.2) = ops

theorem callsOf_eq {id : Str} {calls : List (Str × AggOp F X)} {ops : List (AggOp F X)}
    (h : CallsOf id calls ops) :
    calls.filter (fun p => decide (p.1 = id)) = ops.map (fun o => (id, o)) := by
  unfold CallsOf at h
  rw [← h, List.map_map]
  have : ∀ p ∈ calls.filter (fun p => decide (p.1 = id)), ((fun o => (id, o)) ∘ (·.2)) p = p := by
    intro p hp
    have := (List.mem_filter.1 hp).2
    simp only [decide_eq_true_eq] at this
    simp [← this]
  rw [List.map_congr_left this]; simp

theorem lastResult_of (W : World F X) {id : Str} {calls : List (Str × AggOp F X)} {ops : List (AggOp F X)}
    {op : AggOp F X} (h : CallsOf id calls (ops ++ [op])) (v : Cell F X)
    (hv : (aggCall W (aggSt W [] (ops.map (fun o => (id, o)))) id op).2 = v) :
    LastResult W id calls v := by
  unfold LastResult
  rw [C31_independent W id calls [] [] rfl, callsOf_eq h, List.map_append, List.map_cons, List.map_nil,
    aggRun_last, hv]

/-- count() is the number of evaluations of this instance (as a `uint64`). -/
theorem C31_count (W : World F X) (id : Str) (n : Nat) (calls : List (Str × AggOp F X))
    (h : CallsOf id calls (List.replicate (n + 1) .count)) :
    LastResult W id calls (.count (BitVec.ofNat 64 (n + 1))) := by
  have key : ∀ n : Nat, (aggSt W [] ((List.replicate n (AggOp.count : AggOp F X)).map (fun o => (id, o)))).get id =
      if n = 0 then none else some (.count (BitVec.ofNat 64 n)) := by
    intro n
    induction n with
    | zero => rfl
    | succ n ih =>
      rw [List.replicate_succ', List.map_append, aggSt_append]
      simp only [List.map_cons, List.map_nil, aggSt, aggCall, AggCtx.modify, OD.get_set_self, ih]
      by_cases hn : n = 0
      · subst hn; simp [countMod]
      · simp [hn, countMod, BitVec.ofNat_add]
  rw [List.replicate_succ'] at h
  refine lastResult_of W h _ ?_
  simp only [aggCall, AggCtx.modify, key]
  by_cases hn : n = 0
  · subst hn; simp [countMod]
  · simp [hn, countMod, BitVec.ofNat_add]

/-- The mathematical sum of the items that parsed. -/
def sumOf (items : List (Option I64)) : Int := ((items.filterMap id).map BitVec.toInt).sum

/-- sum() is the sum modulo 2^64 of the items; calls whose argument does not parse return
NULL and contribute nothing. -/
theorem C31_sum (W : World F X) (id : Str) (items : List (Option I64)) (x : I64)
    (calls : List (Str × AggOp F X)) (h : CallsOf id calls ((items ++ [some x]).map .sum)) :
    LastResult W id calls (.sum (BitVec.ofInt 64 (sumOf (items ++ [some x])))) := by
  have hadd : ∀ (a : Int) (y : I64), BitVec.ofInt 64 a + y = BitVec.ofInt 64 (a + y.toInt) := by
    intro a y
    rw [BitVec.ofInt_add, BitVec.ofInt_toInt]
  have key : ∀ items : List (Option I64),
      (aggSt W [] ((items.map (AggOp.sum : Option I64 → AggOp F X)).map (fun o => (id, o)))).get id =
      if items.filterMap (fun o => o) = [] then none else some (.sum (BitVec.ofInt 64 (sumOf items))) := by
    intro items
    induction items using List.reverseRecOn with
    | nil => rfl
    | append_singleton l y ih =>
      rw [List.map_append, List.map_append, aggSt_append]
      cases y with
      | none => simpa [aggSt, aggCall, sumOf] using ih
      | some y =>
        simp only [List.map_cons, List.map_nil, aggSt, aggCall, AggCtx.modify, OD.get_set_self, ih]
        by_cases hl : l.filterMap (fun o => o) = []
        · have : l.filterMap _root_.id = [] := hl
          simp [hl, sumMod, sumOf, this]
        · rw [if_neg hl]
          simp only [sumMod, hadd]
          simp [sumOf]
  rw [List.map_append, List.map_cons, List.map_nil] at h
  refine lastResult_of W h _ ?_
  simp only [aggCall, AggCtx.modify, key]
  by_cases hl : items.filterMap (fun o => o) = []
  · have : items.filterMap _root_.id = [] := hl
    simp [hl, sumMod, sumOf, this]
  · rw [if_neg hl]
    simp only [sumMod, hadd]
    simp [sumOf]

/-- A call of sum() whose argument does not parse returns NULL. -/
theorem C31_sum_error (W : World F X) (c : AggCtx F X) (id : Str) :
    aggCall W c id (.sum none) = (c, .null) := rfl

/-- enumerate() is the list of all items in order. -/
theorem C31_enumerate (W : World F X) (id : Str) (items : List (Val F X)) (hne : items ≠ [])
    (calls : List (Str × AggOp F X)) (h : CallsOf id calls (items.map .enumerate)) :
    LastResult W id calls (.items items) := by
  have key : ∀ items : List (Val F X),
      (aggSt W [] ((items.map (AggOp.enumerate : Val F X → AggOp F X)).map (fun o => (id, o)))).get id =
      if items = [] then none else some (.items items) := by
    intro items
    induction items using List.reverseRecOn with
    | nil => rfl
    | append_singleton l y ih =>
      rw [List.map_append, List.map_append, aggSt_append]
      simp only [List.map_cons, List.map_nil, aggSt, aggCall, AggCtx.modify, OD.get_set_self, ih]
      by_cases hl : l = []
      · subst hl; simp [enumMod]
      · simp [hl, enumMod]
  induction items using List.reverseRecOn with
  | nil => exact absurd rfl hne
  | append_singleton l x _ =>
    rw [List.map_append, List.map_cons, List.map_nil] at h
    refine lastResult_of W h _ ?_
    simp only [aggCall, AggCtx.modify, key]
    by_cases hl : l = []
    · subst hl; simp [enumMod]
    · simp [hl, enumMod]

/-- `m` is the first element of `l` that no element is less than. -/
def FirstMin (lt : Val F X → Val F X → Bool) (l : List (Val F X)) (m : Val F X) : Prop :=
  ∃ pre post, l = pre ++ m :: post ∧ (∀ x ∈ l, lt x m = false) ∧ ∀ x ∈ pre, ∃ y ∈ l, lt y x = true

/-- `m` is the last element of `l` that is less than no element. -/
def LastMax (lt : Val F X → Val F X → Bool) (l : List (Val F X)) (m : Val F X) : Prop :=
  ∃ pre post, l = pre ++ m :: post ∧ (∀ x ∈ l, lt m x = false) ∧ ∀ x ∈ post, ∃ y ∈ l, lt x y = true

/-- The running minimum. -/
def runMin (lt : Val F X → Val F X → Bool) (l : List (Val F X)) : Option (Val F X) :=
  l.foldl (fun acc x => match acc with
    | none => some x
    | some m => some (if lt x m then x else m)) none

/-- The running maximum. -/
def runMax (lt : Val F X → Val F X → Bool) (l : List (Val F X)) : Option (Val F X) :=
  l.foldl (fun acc x => match acc with
    | none => some x
    | some m => some (if lt x m then m else x)) none

theorem aggSt_min (W : World F X) (id : Str) (items : List (Val F X)) :
    (aggSt W [] ((items.map (AggOp.min : Val F X → AggOp F X)).map (fun o => (id, o)))).get id =
      (runMin (ltV W) items).map .val := by
  induction items using List.reverseRecOn with
  | nil => rfl
  | append_singleton l y ih =>
    rw [List.map_append, List.map_append, aggSt_append]
    simp only [List.map_cons, List.map_nil, aggSt, aggCall, AggCtx.modify, OD.get_set_self, ih]
    simp only [runMin, List.foldl_append, List.foldl_cons, List.foldl_nil]
    cases List.foldl _ none l with
    | none => rfl
    | some m => simp only [Option.map_some, minMod, Cell.toVal]; by_cases hb : ltV W y m = true <;> simp [hb]

theorem aggSt_max (W : World F X) (id : Str) (items : List (Val F X)) :
    (aggSt W [] ((items.map (AggOp.max : Val F X → AggOp F X)).map (fun o => (id, o)))).get id =
      (runMax (ltV W) items).map .val := by
  induction items using List.reverseRecOn with
  | nil => rfl
  | append_singleton l y ih =>
    rw [List.map_append, List.map_append, aggSt_append]
    simp only [List.map_cons, List.map_nil, aggSt, aggCall, AggCtx.modify, OD.get_set_self, ih]
    simp only [runMax, List.foldl_append, List.foldl_cons, List.foldl_nil]
    cases List.foldl _ none l with
    | none => rfl
    | some m => simp only [Option.map_some, maxMod, Cell.toVal]; by_cases hb : ltV W y m = true <;> simp [hb]

theorem lastResult_min (W : World F X) (id : Str) (items : List (Val F X)) (m : Val F X)
    (hm : runMin (ltV W) items = some m)
    (calls : List (Str × AggOp F X)) (h : CallsOf id calls (items.map .min)) :
    LastResult W id calls (.val m) := by
  induction items using List.reverseRecOn with
  | nil => simp [runMin] at hm
  | append_singleton l x _ =>
    rw [List.map_append, List.map_cons, List.map_nil] at h
    refine lastResult_of W h _ ?_
    have := aggSt_min W id (l ++ [x])
    rw [List.map_append, List.map_append, aggSt_append, hm] at this
    simpa only [List.map_cons, List.map_nil, aggSt, aggCall, AggCtx.modify, OD.get_set_self,
      Option.map_some, Option.some.injEq] using this

theorem lastResult_max (W : World F X) (id : Str) (items : List (Val F X)) (m : Val F X)
    (hm : runMax (ltV W) items = some m)
    (calls : List (Str × AggOp F X)) (h : CallsOf id calls (items.map .max)) :
    LastResult W id calls (.val m) := by
  induction items using List.reverseRecOn with
  | nil => simp [runMax] at hm
  | append_singleton l x _ =>
    rw [List.map_append, List.map_cons, List.map_nil] at h
    refine lastResult_of W h _ ?_
    have := aggSt_max W id (l ++ [x])
    rw [List.map_append, List.map_append, aggSt_append, hm] at this
    simpa only [List.map_cons, List.map_nil, aggSt, aggCall, AggCtx.modify, OD.get_set_self,
      Option.map_some, Option.some.injEq] using this

theorem runMin_snoc (lt : Val F X → Val F X → Bool) (l : List (Val F X)) (x : Val F X) :
    runMin lt (l ++ [x]) = some (match runMin lt l with
      | none => x
      | some m => if lt x m then x else m) := by
  simp only [runMin, List.foldl_append, List.foldl_cons, List.foldl_nil]
  split <;> simp_all

theorem runMax_snoc (lt : Val F X → Val F X → Bool) (l : List (Val F X)) (x : Val F X) :
    runMax lt (l ++ [x]) = some (match runMax lt l with
      | none => x
      | some m => if lt x m then m else x) := by
  simp only [runMax, List.foldl_append, List.foldl_cons, List.foldl_nil]
  split <;> simp_all

theorem runMin_first {lt : Val F X → Val F X → Bool} (l : List (Val F X)) (hne : l ≠ [])
    (h : StrictWeakOn lt l) : ∃ m, runMin lt l = some m ∧ FirstMin lt l m := by
  induction l using List.reverseRecOn with
  | nil => exact absurd rfl hne
  | append_singleton l x ih =>
    rw [runMin_snoc]
    by_cases hl : l = []
    · subst hl
      refine ⟨x, rfl, [], [], rfl, ?_, by simp⟩
      intro y hy
      simp at hy; subst hy
      exact h.irrefl y (by simp)
    · obtain ⟨m, hm, pre, post, e, h1, h2⟩ := ih hl (h.subset (fun y hy => by simp [hy]))
      have hml : m ∈ l := by rw [e]; simp
      rw [hm]
      cases hx : lt x m with
      | false =>
        refine ⟨m, by simp [hx], pre, post ++ [x], by rw [e]; simp, ?_, ?_⟩
        · intro y hy
          rcases List.mem_append.1 hy with hy | hy
          · exact h1 y hy
          · simp at hy; subst hy; exact hx
        · intro y hy
          obtain ⟨z, hz, hzy⟩ := h2 y hy
          exact ⟨z, by simp [hz], hzy⟩
      | true =>
        refine ⟨x, by simp [hx], l, [], rfl, ?_, ?_⟩
        · intro y hy
          rcases List.mem_append.1 hy with hy' | hy'
          · cases hyx : lt y x with
            | false => rfl
            | true =>
              have := h.trans y hy x (by simp) m (by simp [hml]) hyx hx
              rw [h1 y hy'] at this; simp at this
          · simp at hy'; subst hy'; exact h.irrefl y (by simp)
        · intro y hy
          refine ⟨x, by simp, ?_⟩
          cases hxy : lt x y with
          | true => rfl
          | false =>
            have := h.negtrans x (by simp) y (by simp [hy]) m (by simp [hml]) hxy (h1 y hy)
            rw [hx] at this; simp at this

theorem runMax_last {lt : Val F X → Val F X → Bool} (l : List (Val F X)) (hne : l ≠ [])
    (h : StrictWeakOn lt l) : ∃ m, runMax lt l = some m ∧ LastMax lt l m := by
  induction l using List.reverseRecOn with
  | nil => exact absurd rfl hne
  | append_singleton l x ih =>
    rw [runMax_snoc]
    by_cases hl : l = []
    · subst hl
      refine ⟨x, rfl, [], [], rfl, ?_, by simp⟩
      intro y hy
      simp at hy; subst hy
      exact h.irrefl y (by simp)
    · obtain ⟨m, hm, pre, post, e, h1, h2⟩ := ih hl (h.subset (fun y hy => by simp [hy]))
      have hml : m ∈ l := by rw [e]; simp
      rw [hm]
      cases hx : lt x m with
      | true =>
        refine ⟨m, by simp [hx], pre, post ++ [x], by rw [e]; simp, ?_, ?_⟩
        · intro y hy
          rcases List.mem_append.1 hy with hy | hy
          · exact h1 y hy
          · simp at hy; subst hy; exact h.asymm (by simp) (by simp [hml]) hx
        · intro y hy
          rcases List.mem_append.1 hy with hy | hy
          · obtain ⟨z, hz, hzy⟩ := h2 y hy
            exact ⟨z, by simp [hz], hzy⟩
          · simp at hy; subst hy; exact ⟨m, by simp [hml], hx⟩
      | false =>
        refine ⟨x, by simp [hx], l, [], rfl, ?_, by simp⟩
        intro y hy
        rcases List.mem_append.1 hy with hy' | hy'
        · exact h.negtrans x (by simp) m (by simp [hml]) y hy hx (h1 y hy')
        · simp at hy'; subst hy'; exact h.irrefl y (by simp)

/-- min() of items of one kind (see `Ordered`) is the first item that no item is less than. -/
theorem C31_min_partial (W : World F X) (id : Str) (items : List (Val F X)) (hne : items ≠ [])
    (ho : Ordered items) (calls : List (Str × AggOp F X)) (h : CallsOf id calls (items.map .min)) :
    ∃ m, LastResult W id calls (.val m) ∧ FirstMin (ltV W) items m := by
  obtain ⟨m, hm, hf⟩ := runMin_first items hne (ordered_strictWeak W items ho)
  exact ⟨m, lastResult_min W id items m hm calls h, hf⟩

/-- max() of items of one kind (see `Ordered`) is the last item that no item is greater than. -/
theorem C31_max_partial (W : World F X) (id : Str) (items : List (Val F X)) (hne : items ≠ [])
    (ho : Ordered items) (calls : List (Str × AggOp F X)) (h : CallsOf id calls (items.map .max)) :
    ∃ m, LastResult W id calls (.val m) ∧ LastMax (ltV W) items m := by
  obtain ⟨m, hm, hf⟩ := runMax_last items hne (ordered_strictWeak W items ho)
  exact ⟨m, lastResult_max W id items m hm calls h, hf⟩

/-- Integers and floats mixed: min() still is an item that no item is less than. -/
theorem C31_min_mixed (W : World F X) (id : Str) (items : List (Val F X)) (hne : items ≠ [])
    (ho : ∀ v ∈ items, IsNum v) (calls : List (Str × AggOp F X)) (h : CallsOf id calls (items.map .min)) :
    ∃ m ∈ items, LastResult W id calls (.val m) ∧ ∀ x ∈ items, ltV W x m = false := by
  have irr : ∀ v : Val F X, IsNum v → ltV W v v = false := by
    intro v hv
    cases v <;> simp only [IsNum] at hv <;> simp [ltV, intLt, I64.lt, Val.toFloat, LawfulFloat.lt_irrefl]
  have key : ∃ m ∈ items, runMin (ltV W) items = some m ∧ ∀ x ∈ items, ltV W x m = false := by
    clear h
    induction items using List.reverseRecOn with
    | nil => exact absurd rfl hne
    | append_singleton l x ih =>
      rw [runMin_snoc]
      by_cases hl : l = []
      · subst hl
        refine ⟨x, by simp, rfl, ?_⟩
        intro y hy
        simp at hy; subst hy
        exact irr _ (ho _ (by simp))
      · obtain ⟨m, hml, hm, h1⟩ := ih hl (fun v hv => ho v (by simp [hv]))
        rw [hm]
        cases hx : ltV W x m with
        | false =>
          refine ⟨m, by simp [hml], by simp [hx], ?_⟩
          intro y hy
          rcases List.mem_append.1 hy with hy | hy
          · exact h1 y hy
          · simp at hy; subst hy; exact hx
        | true =>
          refine ⟨x, by simp, by simp [hx], ?_⟩
          intro y hy
          rcases List.mem_append.1 hy with hy' | hy'
          · cases hyx : ltV W y x with
            | false => rfl
            | true =>
              have := C08_trans W y x m (Or.inl ⟨ho y hy, ho x (by simp), ho m (by simp [hml])⟩) hyx hx
              rw [h1 y hy'] at this; simp at this
          · simp at hy'; subst hy'; exact irr _ (ho _ (by simp))
  obtain ⟨m, hml, hm, h1⟩ := key
  exact ⟨m, hml, lastResult_min W id items m hm calls h, h1⟩

/-- One call history with two instances, as in `SELECT count(), sum(item=X) ...`. -/
example : LastResult ({} : World F64 Unit) (bs "id_1")
    [(bs "id_1", .count), (bs "id_2", .sum (some 5)), (bs "id_1", .count)] (.count 2) :=
  C31_count _ _ 1 _ rfl
example : LastResult ({} : World F64 Unit) (bs "id_2")
    [(bs "id_2", .sum (some (i64 9223372036854775807))), (bs "id_1", .count), (bs "id_2", .sum (some 1))]
    (.sum (i64 (-9223372036854775808))) := by
  have := C31_sum ({} : World F64 Unit) (bs "id_2") [some (i64 9223372036854775807)] 1
    [(bs "id_2", .sum (some (i64 9223372036854775807))), (bs "id_1", .count), (bs "id_2", .sum (some 1))]
    (by rfl)
  have e : (BitVec.ofInt 64 (sumOf ([some (i64 9223372036854775807)] ++ [some 1]))) =
    i64 (-9223372036854775808) := by decide +kernel
  rwa [e] at this
example : Ordered [(.int 3 : Val F64 Unit), .str (bs "a"), .int 1] := by
  left
  intro v hv
  simp at hv
  rcases hv with rfl | rfl | rfl
  · exact Or.inl ⟨_, rfl⟩
  · exact Or.inr ⟨_, rfl⟩
  · exact Or.inl ⟨_, rfl⟩

/-- min() of 1.5, "a", 1 is 1 although "a" < 1: over mixed kinds `<` is not transitive. -/
theorem C31_min_refuted :
    let f : F64 := F64.div (F64.ofI64 3) (F64.ofI64 2)
    let items : List (Val F64 Unit) := [.float f, .str (bs "a"), .int 1]
    LastResult {} (bs "m") (items.map (fun v => (bs "m", .min v))) (.val (.int 1)) ∧
    ltV ({} : World F64 Unit) (.str (bs "a")) (.int 1) = true := by
  refine ⟨lastResult_min _ _ [.float (F64.div (F64.ofI64 3) (F64.ofI64 2)), .str (bs "a"), .int 1] _ ?_ _ ?_, ?_⟩
  · have h1 : ltV ({} : World F64 Unit) (.str (bs "a")) (.float (F64.div (F64.ofI64 3) (F64.ofI64 2))) = false := by
      decide +kernel
    have h2 : ltV ({} : World F64 Unit) (.int 1) (.float (F64.div (F64.ofI64 3) (F64.ofI64 2))) = true := by
      decide +kernel
    simp only [runMin, List.foldl_cons, List.foldl_nil, h1, h2, Bool.false_eq_true, if_false, if_true]
  · rfl
  · decide +kernel

/-- max() of 5, NULL, 3 is 3: NULL is neither less nor greater than anything, so it
replaces the maximum and is then replaced itself. -/
theorem C31_max_null_refuted :
    let items : List (Val F64 Unit) := [.int 5, .null, .int 3]
    LastResult {} (bs "m") (items.map (fun v => (bs "m", .max v))) (.val (.int 3)) ∧
    gtV ({} : World F64 Unit) (.int 5) (.int 3) = true := by
  refine ⟨lastResult_max _ _ [.int 5, .null, .int 3] _ ?_ _ rfl, by decide +kernel⟩
  have h1 : ltV ({} : World F64 Unit) .null (.int 5) = false := by decide +kernel
  have h2 : ltV ({} : World F64 Unit) (.int 3) .null = false := by decide +kernel
  simp only [runMax, List.foldl_cons, List.foldl_nil, h1, h2, Bool.false_eq_true, if_false, if_true]

/-- max() of integers and floats: 2^53+1, 2^53 as a float, 2^53 gives 2^53, because the
float equals both integers. -/
theorem C31_max_mixed_refuted :
    let items : List (Val F64 Unit) :=
      [.int (i64 9007199254740993), .float (F64.ofI64 (i64 9007199254740992)), .int (i64 9007199254740992)]
    LastResult {} (bs "m") (items.map (fun v => (bs "m", .max v))) (.val (.int (i64 9007199254740992))) ∧
    gtV ({} : World F64 Unit) (.int (i64 9007199254740993)) (.int (i64 9007199254740992)) = true := by
  refine ⟨lastResult_max _ _ [.int (i64 9007199254740993), .float (F64.ofI64 (i64 9007199254740992)),
    .int (i64 9007199254740992)] _ ?_ _ rfl, by decide +kernel⟩
  have h1 : ltV ({} : World F64 Unit) (.float (F64.ofI64 (i64 9007199254740992))) (.int (i64 9007199254740993)) = false := by
    decide +kernel
  have h2 : ltV ({} : World F64 Unit) (.int (i64 9007199254740992)) (.float (F64.ofI64 (i64 9007199254740992))) = false := by
    decide +kernel
  simp only [runMax, List.foldl_cons, List.foldl_nil, h1, h2, Bool.false_eq_true, if_false, if_true]

/-! ## C32 -/

/-- The documented contract of Go's `sort.Sort`: the result is a permutation of the
input, and when `less` is a strict weak order no element is less than an earlier one. -/
def SortContract {R : Type} (sort : (R → R → Bool) → List R → List R) : Prop :=
  ∀ less l, (sort less l).Perm l ∧
    (StrictWeakOn less l → (sort less l).Pairwise (fun a b => less b a = false))

theorem insertLeft_perm {R : Type} (less : R → R → Bool) (x : R) (l : List R) :
    (insertLeft less x l).Perm (x :: l) := by
  induction l with
  | nil => exact List.Perm.refl _
  | cons y ys ih =>
    simp only [insertLeft]
    split
    · exact ((List.Perm.cons y ih).trans (List.Perm.swap x y ys))
    · exact List.Perm.refl _

theorem foldl_insertLeft_perm {R : Type} (less : R → R → Bool) (l acc : List R) :
    (l.foldl (fun acc x => insertLeft less x acc) acc).Perm (l ++ acc) := by
  induction l generalizing acc with
  | nil => exact List.Perm.refl _
  | cons x l ih =>
    refine (ih _).trans ?_
    refine (List.Perm.append_left l (insertLeft_perm less x acc)).trans ?_
    exact List.perm_middle

/-- Go's insertion sort returns a permutation for every `less`. -/
theorem insertionSort_perm {R : Type} (less : R → R → Bool) (l : List R) :
    (insertionSort less l).Perm l := by
  unfold insertionSort
  refine (List.reverse_perm _).trans ?_
  simpa using foldl_insertLeft_perm less l []

/-- What insertion needs: `le` is a total preorder, `less x y` decides whether `x` has to
move left of `y`; a pair in the output order (`y` left of `x`) satisfies `le y x`. -/
theorem insertLeft_sorted {R : Type} (less : R → R → Bool) (le : R → R → Prop) (S : List R)
    (htr : ∀ a ∈ S, ∀ b ∈ S, ∀ c ∈ S, le a b → le b c → le a c)
    (hl : ∀ a ∈ S, ∀ b ∈ S, less a b = true → le a b)
    (hn : ∀ a ∈ S, ∀ b ∈ S, less a b = false → le b a)
    (x : R) (l : List R) (hx : x ∈ S) (hS : ∀ y ∈ l, y ∈ S)
    (h : l.Pairwise (fun a b => le b a)) :
    (insertLeft less x l).Pairwise (fun a b => le b a) := by
  induction l with
  | nil => simp [insertLeft]
  | cons y ys ih =>
    obtain ⟨h1, h2⟩ := List.pairwise_cons.1 h
    simp only [insertLeft]
    split
    · rename_i hxy
      refine List.pairwise_cons.2 ⟨?_, ih (fun z hz => hS z (by simp [hz])) h2⟩
      intro z hz
      have := (insertLeft_perm less x ys).mem_iff.1 hz
      rcases List.mem_cons.1 this with rfl | hz'
      · exact hl _ hx _ (hS _ (by simp)) hxy
      · exact h1 z hz'
    · rename_i hxy
      have hyx : le y x := hn _ hx _ (hS _ (by simp)) (by simpa using hxy)
      refine List.pairwise_cons.2 ⟨?_, h⟩
      intro z hz
      rcases List.mem_cons.1 hz with rfl | hz'
      · exact hyx
      · exact htr _ (hS _ (by simp [hz'])) _ (hS _ (by simp)) _ hx (h1 z hz') hyx

theorem insertionSort_sorted {R : Type} (less : R → R → Bool) (le : R → R → Prop) (l : List R)
    (htr : ∀ a ∈ l, ∀ b ∈ l, ∀ c ∈ l, le a b → le b c → le a c)
    (hl : ∀ a ∈ l, ∀ b ∈ l, less a b = true → le a b)
    (hn : ∀ a ∈ l, ∀ b ∈ l, less a b = false → le b a) :
    (insertionSort less l).Pairwise le := by
  unfold insertionSort
  rw [List.pairwise_reverse]
  have key : ∀ (l' acc : List R), (∀ y ∈ l', y ∈ l) → (∀ y ∈ acc, y ∈ l) →
      acc.Pairwise (fun a b => le b a) →
      (l'.foldl (fun acc x => insertLeft less x acc) acc).Pairwise (fun a b => le b a) := by
    intro l'
    induction l' with
    | nil => intro acc _ _ h; exact h
    | cons x l' ih =>
      intro acc h1 h2 h3
      refine ih _ (fun y hy => h1 y (by simp [hy])) ?_ ?_
      · intro y hy
        rcases List.mem_cons.1 ((insertLeft_perm less x acc).mem_iff.1 hy) with rfl | hy
        · exact h1 _ (by simp)
        · exact h2 _ hy
      · exact insertLeft_sorted less le l htr hl hn x acc (h1 x (by simp)) h2 h3
  exact key l [] (fun y hy => hy) (by simp) List.Pairwise.nil

/-- Go's insertion sort meets the contract of `sort.Sort`. -/
theorem insertionSort_contract {R : Type} : SortContract (insertionSort (R := R)) := by
  intro less l
  refine ⟨insertionSort_perm less l, fun h => ?_⟩
  refine insertionSort_sorted less (fun a b => less b a = false) l ?_ ?_ ?_
  · intro a ha b hb c hc h1 h2
    exact h.negtrans c hc b hb a ha h2 h1
  · intro a ha b hb hab
    exact h.asymm ha hb hab
  · intro a ha b hb hab
    exact hab

/-- A sort key: NULL counts as the empty string (sort/sort.go:86-92). -/
def sortKey (v : Val F X) : Val F X := match v with
  | .null => .str []
  | v => v

theorem rowLess_eq {R : Type} (W : World F X) (key : R → Val F X × Bool) (desc : Bool) (a b : R)
    (ha : (key a).2 = true) (hb : (key b).2 = true) :
    rowLess W key desc a b =
      (if desc then !ltV W (sortKey (key a).1) (sortKey (key b).1)
       else ltV W (sortKey (key a).1) (sortKey (key b).1)) := by
  have h : ∀ v : Val F X, (if v.isNil = true then (.str [] : Val F X) else v) = sortKey v := by
    intro v; cases v <;> rfl
  unfold rowLess
  simp only [ha, hb, Bool.not_true, Bool.or_self, Bool.false_eq_true, if_false, h]

/-- ORDER BY only permutes the rows, whatever the keys are and in both directions (Go's
sort only swaps rows). -/
theorem C32_permutation {R : Type} (W : World F X) (key : R → Val F X × Bool) (desc : Bool)
    (sort : (R → R → Bool) → List R → List R) (hs : SortContract sort) (rows : List R) :
    (sort (rowLess W key desc) rows).Perm rows :=
  (hs _ _).1

/-- Sorting by keys that `<` orders strictly and weakly. -/
theorem asc_of_order {R : Type} (W : World F X) (key : R → Val F X × Bool)
    (sort : (R → R → Bool) → List R → List R) (hs : SortContract sort) (rows : List R)
    (hp : ∀ r ∈ rows, (key r).2 = true) (hw : StrictWeakOn (ltV W) (rows.map (fun r => sortKey (key r).1))) :
    (sort (rowLess W key false) rows).Pairwise
      (fun a b => ltV W (sortKey (key b).1) (sortKey (key a).1) = false) := by
  have hm : ∀ r ∈ rows, sortKey (key r).1 ∈ rows.map (fun r => sortKey (key r).1) :=
    fun r hr => List.mem_map.2 ⟨r, hr, rfl⟩
  have e : ∀ a ∈ rows, ∀ b ∈ rows, rowLess W key false a b =
      ltV W (sortKey (key a).1) (sortKey (key b).1) := by
    intro a ha b hb
    rw [rowLess_eq W key false a b (hp a ha) (hp b hb)]; simp
  obtain ⟨hperm, hsort⟩ := hs (rowLess W key false) rows
  have := hsort ⟨
    fun a ha => by rw [e a ha a ha]; exact hw.irrefl _ (hm a ha),
    fun a ha b hb c hc => by
      rw [e a ha b hb, e b hb c hc, e a ha c hc]; exact hw.trans _ (hm a ha) _ (hm b hb) _ (hm c hc),
    fun a ha b hb c hc => by
      rw [e a ha b hb, e b hb c hc, e a ha c hc]; exact hw.negtrans _ (hm a ha) _ (hm b hb) _ (hm c hc)⟩
  refine List.Pairwise.imp_of_mem ?_ this
  intro a b ha hb hab
  rw [← e b (hperm.mem_iff.1 hb) a (hperm.mem_iff.1 ha)]; exact hab

/-- Sorting in descending order by keys that `<` orders strictly and weakly. -/
theorem desc_of_order {R : Type} (W : World F X) (key : R → Val F X × Bool) (rows : List R)
    (hp : ∀ r ∈ rows, (key r).2 = true) (hw : StrictWeakOn (ltV W) (rows.map (fun r => sortKey (key r).1))) :
    (insertionSort (rowLess W key true) rows).Pairwise
      (fun a b => ltV W (sortKey (key a).1) (sortKey (key b).1) = false) := by
  have hm : ∀ r ∈ rows, sortKey (key r).1 ∈ rows.map (fun r => sortKey (key r).1) :=
    fun r hr => List.mem_map.2 ⟨r, hr, rfl⟩
  have e : ∀ a ∈ rows, ∀ b ∈ rows, rowLess W key true a b =
      !ltV W (sortKey (key a).1) (sortKey (key b).1) := by
    intro a ha b hb
    rw [rowLess_eq W key true a b (hp a ha) (hp b hb)]; simp
  refine insertionSort_sorted _ (fun a b => ltV W (sortKey (key a).1) (sortKey (key b).1) = false) rows ?_ ?_ ?_
  · intro a ha b hb c hc
    exact hw.negtrans _ (hm a ha) _ (hm b hb) _ (hm c hc)
  · intro a ha b hb h
    rw [e a ha b hb] at h
    simpa using h
  · intro a ha b hb h
    rw [e a ha b hb] at h
    exact hw.asymm (hm a ha) (hm b hb) (by simpa using h)

/-- When every row has the key and the keys are of one kind (integers, strings and NULL;
or floats; or times) no row's key is less than an earlier row's key. -/
theorem C32_asc_partial {R : Type} (W : World F X) (key : R → Val F X × Bool)
    (sort : (R → R → Bool) → List R → List R) (hs : SortContract sort) (rows : List R)
    (hp : ∀ r ∈ rows, (key r).2 = true) (ho : Ordered (rows.map (fun r => sortKey (key r).1))) :
    (sort (rowLess W key false) rows).Pairwise
      (fun a b => ltV W (sortKey (key b).1) (sortKey (key a).1) = false) :=
  asc_of_order W key sort hs rows hp (ordered_strictWeak W _ ho)

/-- DESC for the insertion sort (Go's `sort.Sort` for up to 12 rows): no row's key is
greater than an earlier row's key. -/
theorem C32_desc_partial {R : Type} (W : World F X) (key : R → Val F X × Bool) (rows : List R)
    (hp : ∀ r ∈ rows, (key r).2 = true) (ho : Ordered (rows.map (fun r => sortKey (key r).1))) :
    (insertionSort (rowLess W key true) rows).Pairwise
      (fun a b => ltV W (sortKey (key a).1) (sortKey (key b).1) = false) :=
  desc_of_order W key rows hp (ordered_strictWeak W _ ho)

/-- NULL sorts lowest among strings and integers: a row sorted before a row with key NULL
has key NULL or the empty string. -/
theorem C32_null_lowest {R : Type} (W : World F X) (key : R → Val F X × Bool)
    (sort : (R → R → Bool) → List R → List R) (hs : SortContract sort) (rows : List R)
    (hp : ∀ r ∈ rows, (key r).2 = true) (ho : Ordered (rows.map (fun r => sortKey (key r).1))) :
    (sort (rowLess W key false) rows).Pairwise
      (fun a b => (key b).1 = .null → (key a).1 = .null ∨ (key a).1 = .str []) := by
  have h1 := C32_asc_partial W key sort hs rows hp ho
  refine List.Pairwise.imp_of_mem ?_ h1
  intro a b ha hb hab hnull
  have hm : ∀ r ∈ rows, sortKey (key r).1 ∈ rows.map (fun r => sortKey (key r).1) :=
    fun r hr => List.mem_map.2 ⟨r, hr, rfl⟩
  have ha' := (hs (rowLess W key false) rows).1.mem_iff.1 ha
  have hb' := (hs (rowLess W key false) rows).1.mem_iff.1 hb
  rw [hnull] at hab
  have hkb := hm b hb'
  rw [hnull] at hkb
  have hka := hm a ha'
  rcases ho with h | h | h
  · rcases h _ hka with ⟨i, hi⟩ | ⟨s, hs'⟩
    · rw [hi] at hab; simp [sortKey, ltV, intGt, intEq] at hab
    · rw [hs'] at hab
      have : s = [] := by
        cases s with
        | nil => rfl
        | cons x xs => simp [sortKey, ltV, strLt] at hab
      subst this
      cases hk : (key a).1 with
      | null => exact Or.inl rfl
      | _ => rw [hk] at hs'; simp only [sortKey] at hs'; exact Or.inr hs'
  · obtain ⟨f, hf, _⟩ := h _ hkb
    simp [sortKey] at hf
  · obtain ⟨f, hf⟩ := h _ hkb
    simp [sortKey] at hf

/-- The contract is satisfied by a real sorting function, and `C32_asc_partial` has
instances with NULL, strings and integers. -/
example : (insertionSort (rowLess ({} : World F64 Unit) (fun r => (r, true)) false)
    [.int 3, .str (bs "b"), .null, .int 1]) = [.null, .str (bs "b"), .int 1, .int 3] := rfl
example : (insertionSort (rowLess ({} : World F64 Unit) (fun r => (r, true)) true)
    [.int 3, .str (bs "b"), .null, .int 1]) = [.int 3, .int 1, .str (bs "b"), .null] := rfl

/-- Rows lacking the key are not treated as NULL: they compare with nothing, and keep the
rows around them from being sorted. -/
theorem C32_missing_refuted :
    insertionSort (rowLess ({} : World F64 Unit) (fun r : Option (Val F64 Unit) => (r.getD .null, r.isSome)) false)
      [some (.int 2), none, some (.int 1)] = [some (.int 2), none, some (.int 1)] ∧
    ltV ({} : World F64 Unit) (.int 1) (.int 2) = true := ⟨rfl, rfl⟩

/-- NULL does not sort lowest among floats: it compares with none of them. -/
theorem C32_float_null_refuted :
    let two : Val F64 Unit := .float (F64.ofI64 2)
    let one : Val F64 Unit := .float (F64.ofI64 1)
    insertionSort (rowLess ({} : World F64 Unit) (fun r => (r, true)) false) [two, .null, one] = [two, .null, one] ∧
    ltV ({} : World F64 Unit) one two = true := by
  have h1 : rowLess ({} : World F64 Unit) (fun r => (r, true)) false .null (.float (F64.ofI64 2)) = false := by
    decide +kernel
  have h2 : rowLess ({} : World F64 Unit) (fun r => (r, true)) false (.float (F64.ofI64 1)) .null = false := by
    decide +kernel
  refine ⟨?_, by decide +kernel⟩
  simp only [insertionSort, List.foldl_cons, List.foldl_nil, insertLeft, h1, h2, Bool.false_eq_true, if_false]
  rfl

/-- With DESC the comparison handed to `sort.Sort` is reflexive, so it is never a strict
weak order and the contract of `sort.Sort` promises nothing beyond a permutation. -/
theorem C32_desc_contract_refuted (W : World F X) (i : I64) (rows : List (Val F X)) (h : .int i ∈ rows) :
    ¬ StrictWeakOn (rowLess W (fun r => (r, true)) true) rows := by
  intro hw
  have := hw.irrefl _ h
  simp [rowLess, Val.isNil, ltV, intLt, I64.lt] at this

end Vfilter
