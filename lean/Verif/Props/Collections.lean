import Verif.Registry
import Verif.F64
/-!
# C11 - C17: slices, indexing, columns, membership, iteration, regex, registration
-/
set_option linter.all false

namespace Vfilter
open FloatOps

section
variable {F X : Type} [FloatOps F]

/-! ## C11 Slices -/

/-- Python's treatment of one slice bound. -/
def pyBound (n i : Int) : Int := if i < 0 then max 0 (n + i) else min i n

/-- Python's `l[s:e]`: the elements whose position is at least the start and below the
end, after each bound is clamped. -/
def pySlice {α : Type} (l : List α) (s e : Option Int) : List α :=
  let n : Int := l.length
  let lo := (s.map (pyBound n)).getD 0
  let hi := (e.map (pyBound n)).getD n
  (l.take hi.toNat).drop lo.toNat

theorem toInt_ofNat_len {n : Nat} (h : n < 2 ^ 63) : (BitVec.ofNat 64 n).toInt = n := by
  rw [BitVec.toInt_eq_toNat_cond, BitVec.toNat_ofNat]
  have : n % 2 ^ 64 = n := Nat.mod_eq_of_lt (by omega)
  rw [this, if_pos (by omega)]

theorem toInt_add_len {n : Nat} (h : n < 2 ^ 63) (i : I64) (hi : i.toInt < 0) :
    (BitVec.ofNat 64 n + i).toInt = n + i.toInt := by
  have := BitVec.le_toInt (x := i)
  rw [BitVec.toInt_add, toInt_ofNat_len h]
  exact Int.bmod_eq_of_le (by omega) (by omega)

theorem getRanges_spec {n : Nat} (h : n < 2 ^ 63) (s e : Option I64) :
    let r := getRanges s e (BitVec.ofNat 64 n)
    r.2.toInt = ((e.map BitVec.toInt).map (pyBound n)).getD n ∧
    min r.1.toInt n = ((s.map BitVec.toInt).map (pyBound n)).getD 0 ∧ 0 ≤ r.1.toInt := by
  have hn := toInt_ofNat_len h
  have z : (0#64).toInt = 0 := rfl
  refine ⟨?_, ?_, ?_⟩
  · cases e with
    | none =>
      simp only [getRanges, Option.map_none, Option.getD_none, hn]
      have h0 : ¬ ((n : Int) < 0) := by omega
      have h1 : ¬ ((n : Int) > n) := by omega
      simp only [if_neg h0, hn, if_neg h1]
    | some i =>
      simp only [getRanges, Option.map_some, Option.getD_some, pyBound, hn]
      by_cases hi : i.toInt < 0
      · rw [if_pos hi, if_pos hi]
        have ha := toInt_add_len h i hi
        by_cases hb : (BitVec.ofNat 64 n + i).toInt < 0
        · rw [if_pos hb, if_neg (by rw [z]; omega), z]; omega
        · rw [if_neg hb, if_neg (by omega), ha]; omega
      · rw [if_neg hi, if_neg hi, if_neg hi]
        split
        · rw [hn]; omega
        · omega
  · cases s with
    | none => simp [getRanges]; omega
    | some i =>
      simp only [getRanges, Option.map_some, Option.getD_some, pyBound]
      by_cases hi : i.toInt < 0
      · rw [if_pos hi, if_pos hi]
        have ha := toInt_add_len h i hi
        by_cases hb : (BitVec.ofNat 64 n + i).toInt < 0
        · rw [if_pos hb, z]; omega
        · rw [if_neg hb, ha]; omega
      · rw [if_neg hi, if_neg hi, if_neg hi]
  · cases s with
    | none => simp [getRanges]
    | some i =>
      simp only [getRanges]
      by_cases hi : i.toInt < 0
      · rw [if_pos hi]
        by_cases hb : (BitVec.ofNat 64 n + i).toInt < 0
        · rw [if_pos hb, z]; omega
        · rw [if_neg hb]; omega
      · rw [if_neg hi, if_neg hi]; omega

theorem pyBound_range (n i : Int) (hn : 0 ≤ n) : 0 ≤ pyBound n i ∧ pyBound n i ≤ n := by
  unfold pyBound; split <;> omega

theorem rangeOf_spec {α : Type} (l : List α) (hlen : l.length < 2 ^ 63) (s e : Option I64) :
    rangeOf l s e = some (pySlice l (s.map BitVec.toInt) (e.map BitVec.toInt)) := by
  obtain ⟨h1, h2, h3⟩ := getRanges_spec hlen s e
  simp only [rangeOf, pySlice]
  rw [← h1, ← h2]
  have hhi : 0 ≤ (getRanges s e (BitVec.ofNat 64 l.length)).2.toInt ∧
      (getRanges s e (BitVec.ofNat 64 l.length)).2.toInt ≤ l.length := by
    rw [h1]
    cases e with
    | none => simp
    | some i => exact pyBound_range _ _ (by omega)
  generalize (getRanges s e (BitVec.ofNat 64 l.length)).1.toInt = lo at *
  generalize (getRanges s e (BitVec.ofNat 64 l.length)).2.toInt = hi at *
  by_cases hc : hi ≤ lo
  · rw [if_pos hc]
    congr 1
    symm
    apply List.drop_eq_nil_of_le
    simp
    omega
  · rw [if_neg hc, goSlice, if_pos (by omega)]
    congr 1
    have : min lo ↑l.length = lo := by omega
    rw [this, List.drop_take]

/-- No registered associative implementation claims the lookup. -/
def NoAssoc (W : World F X) (a : Val F X) (k : Key F X) : Prop :=
  ∀ i ∈ W.assocI, i.applicable a k = false

theorem NoAssoc.search {W : World F X} {a : Val F X} {k : Key F X} (h : NoAssoc W a k) :
    searchA W.assocI a k = none := by
  unfold NoAssoc at h
  generalize W.assocI = r at h
  induction r with
  | nil => rfl
  | cons i r ih => simp [searchA, h i (by simp)]; exact ih (fun j hj => h j (by simp [hj]))

/-- `X[s:e]` of a string or array returns what Python returns, for all optional 64 bit
bounds, and never fails. -/
theorem C11_slice (W : World F X) (s e : Option I64) :
    (∀ x : Str, x.length < 2 ^ 63 → NoAssoc W (.str x) (.range s e) →
      assocV W (.str x) (.range s e) =
        (.str (pySlice x (s.map BitVec.toInt) (e.map BitVec.toInt)), true)) ∧
    (∀ l : List (Val F X), l.length < 2 ^ 63 → NoAssoc W (.arr l) (.range s e) →
      assocV W (.arr l) (.range s e) =
        (.arr (pySlice l (s.map BitVec.toInt) (e.map BitVec.toInt)), true)) := by
  constructor
  · intro x hx hn
    simp [assocV, hn.search, defaultAssocFlat, rangeOf_spec x hx]
  · intro x hx hn
    simp [assocV, hn.search, defaultAssocFlat, rangeOf_spec x hx]

/-- `X[:k] + X[k:] = X` for every sequence and every 64 bit `k`. -/
theorem C11_split {α : Type} (l : List α) (hlen : l.length < 2 ^ 63) (k : I64) :
    ∃ p q, rangeOf l none (some k) = some p ∧ rangeOf l (some k) none = some q ∧ p ++ q = l := by
  refine ⟨_, _, rangeOf_spec l hlen _ _, rangeOf_spec l hlen _ _, ?_⟩
  simp [pySlice]

end

example : NoAssoc ({} : World F64 Unit) (.arr [.int 1, .int 2, .int 3]) (.range (some (i64 (-2))) none) := by
  simp [NoAssoc]
example : assocV ({} : World F64 Unit) (.arr [.int 1, .int 2, .int 3])
    (.range (some (i64 (-2))) (some (i64 100))) = (.arr [.int 2, .int 3], true) := by
  simp [assocV, searchA, defaultAssocFlat]; rfl
example : pySlice [1, 2, 3, 4] (some (-3)) (some (-1)) = [2, 3] := rfl

section
variable {F X : Type} [FloatOps F]

/-! ## C12 Indexing -/

/-- Element `i`, counting from the end for negative `i`. -/
def pyIndex {α : Type} (l : List α) (i : Int) : Option α :=
  if 0 ≤ i then l[i.toNat]?
  else if -(l.length : Int) ≤ i then l[((l.length : Int) + i).toNat]? else none

theorem indexOf_spec {α : Type} (l : List α) (hlen : l.length < 2 ^ 63) (i : I64) :
    indexOf l i = pyIndex l i.toInt := by
  have hn := toInt_ofNat_len hlen
  unfold indexOf pyIndex
  by_cases hi : i.toInt < 0
  · have ha := toInt_add_len hlen i hi
    simp only [if_pos hi, hn, ha]
    rw [if_neg (show ¬ (0 ≤ i.toInt) by omega)]
    by_cases hb : -(l.length : Int) ≤ i.toInt
    · rw [if_neg (by omega), if_pos hb]; unfold goIndex; rw [if_pos (by omega)]
    · rw [if_pos (by omega), if_neg hb]
  · simp only [if_neg hi, hn]
    rw [if_pos (show 0 ≤ i.toInt by omega)]
    by_cases hb : i.toInt > l.length
    · rw [if_pos (by omega)]
      symm
      rw [List.getElem?_eq_none_iff]; omega
    · rw [if_neg (by omega)]; unfold goIndex; rw [if_pos (by omega)]

/-- `X[i]` of an array is element `i` (or `n+i`), and NULL for every other index; of a
string it is the byte value.  The index may be any value that converts to an integer. -/
theorem C12_index (W : World F X) (kv : Val F X) (i : I64) (hk : kv.toInt64 = some i) :
    (∀ l : List (Val F X), l.length < 2 ^ 63 → NoAssoc W (.arr l) (.val kv) →
      assocV W (.arr l) (.val kv) =
        match pyIndex l i.toInt with
        | some v => (v, true)
        | none => (.null, false)) ∧
    (∀ x : Str, x.length < 2 ^ 63 → NoAssoc W (.str x) (.val kv) →
      assocV W (.str x) (.val kv) =
        match pyIndex x i.toInt with
        | some c => (.int (BitVec.ofNat 64 c.toNat), true)
        | none => (.null, false)) := by
  have hns : ∀ s, kv ≠ .str s := by
    intro s h; subst h; simp [Val.toInt64] at hk
  constructor
  · intro l hl hn
    have he : assocV W (.arr l) (.val kv) = defaultAssocFlat (.arr l) (.val kv) := by
      cases kv <;> first | exact absurd rfl (hns _) | simp only [assocV, hn.search]
    rw [he]
    simp only [defaultAssocFlat, hk, indexOf_spec l hl]
    cases pyIndex l i.toInt <;> rfl
  · intro l hl hn
    have he : assocV W (.str l) (.val kv) = defaultAssocFlat (.str l) (.val kv) := by
      cases kv <;> first | exact absurd rfl (hns _) | simp only [assocV, hn.search]
    rw [he]
    simp only [defaultAssocFlat, hk, indexOf_spec l hl]
    cases pyIndex l i.toInt <;> rfl

theorem queryKey_hit (W : World F X) (kv : Val F X) (b : I64) (hk : kv.toInt64 = some b) :
    ∀ (rows : List (Val F X)) (i : I64) (acc : List (Val F X)) (r : Val F X),
      i.toInt ≤ b.toInt → i.toInt + rows.length < 2 ^ 63 →
      rows[(b.toInt - i.toInt).toNat]? = some r →
      queryKey W rows (.val kv) i acc = (r, true)
  | [], i, acc, r, _, _, h => by simp at h
  | x :: xs, i, acc, r, hle, hlt, h => by
      simp only [queryKey, hk]
      by_cases hib : i = b
      · subst hib
        simp at h ⊢
        exact h
      · have hne : i.toInt ≠ b.toInt := fun e => hib (BitVec.eq_of_toInt_eq e)
        have hlow := BitVec.le_toInt (x := i)
        have hone : (1#64).toInt = 1 := rfl
        have hinc : (i + 1#64).toInt = i.toInt + 1 := by
          rw [BitVec.toInt_add, hone]
          simp only [List.length_cons] at hlt
          exact Int.bmod_eq_of_le (by omega) (by omega)
        have hidx : (b.toInt - i.toInt).toNat = (b.toInt - (i + 1#64).toInt).toNat + 1 := by
          rw [hinc]; omega
        rw [hidx, List.getElem?_cons_succ] at h
        have ih := fun acc => queryKey_hit W kv b hk xs (i + 1#64) acc r (by omega)
          (by simp only [List.length_cons] at hlt; omega) h
        have hbeq : (i == b) = false := by simp [hib]
        simp only [hbeq]
        simp only [Bool.false_eq_true, if_false]
        split <;> exact ih _

/-- Indexing a stored query agrees with indexing the array of its rows for indexes
`0 <= i < n`.  Missing from the full claim: negative and out of range indexes, on which
they disagree (`C12_query_refuted`). -/
theorem C12_query_partial (W : World F X) (rows : List (Val F X)) (hlen : rows.length < 2 ^ 63)
    (i : I64) (hi : 0 ≤ i.toInt) (hn : i.toInt < rows.length)
    (hq : NoAssoc W (.query rows) (.val (.int i))) (ha : NoAssoc W (.arr rows) (.val (.int i))) :
    assocV W (.query rows) (.val (.int i)) = assocV W (.arr rows) (.val (.int i)) := by
  have hlt : i.toInt.toNat < rows.length := by omega
  have hget : rows[i.toInt.toNat]? = some rows[i.toInt.toNat] := List.getElem?_eq_getElem hlt
  rw [(C12_index W (.int i) i rfl).1 rows hlen ha]
  have h1 : pyIndex rows i.toInt = some rows[i.toInt.toNat] := by
    simp only [pyIndex]; rw [if_pos hi, hget]
  rw [h1]
  simp only [assocV, hq.search]
  have z : (0#64).toInt = 0 := rfl
  refine queryKey_hit W (.int i) i rfl rows 0#64 [] _ (by rw [z]; exact hi) (by rw [z]; omega) ?_
  rw [z]; simpa using hget

end

def exRows : List (Val F64 Unit) := [.dict [(bs "a", .int 1)], .dict [(bs "a", .int 2)]]

example : assocV ({} : World F64 Unit) (.arr exRows) (.val (.int (i64 (-1)))) =
    (.dict [(bs "a", .int 2)], true) := by
  rw [(C12_index _ _ _ rfl).1 _ (by decide) (by simp [NoAssoc])]; rfl
example : (0 : Int) ≤ (i64 1).toInt ∧ (i64 1).toInt < exRows.length := by decide

/-- A negative index of a stored query gives an empty list instead of the last row, an
index out of range an empty list instead of NULL. -/
theorem C12_query_refuted :
    assocV ({} : World F64 Unit) (.query exRows) (.val (.int (i64 (-1)))) = (.arr [], true) ∧
    assocV ({} : World F64 Unit) (.query exRows) (.val (.int (i64 2))) = (.arr [], true) ∧
    assocV ({} : World F64 Unit) (.arr exRows) (.val (.int (i64 2))) = (.null, false) := by
  refine ⟨?_, ?_, ?_⟩
  · simp [assocV, searchA, queryKey, exRows, Val.toInt64, i64, defaultAssocFlat]
  · simp [assocV, searchA, queryKey, exRows, Val.toInt64, i64, defaultAssocFlat]
  · rw [(C12_index _ _ _ rfl).1 _ (by decide) (by simp [NoAssoc])]; rfl

section
variable {F X : Type} [FloatOps F]

/-! ## C13 Column extraction -/

theorem arrCol_eq (W : World F X) (l : List (Val F X)) (k : Str) :
    arrCol W l k = l.filterMap (fun x => if (assocStr W x k).2 then some (assocStr W x k).1 else none) := by
  induction l with
  | nil => simp [arrCol]
  | cons x xs ih =>
    rw [arrCol, List.filterMap_cons]
    rcases hx : assocStr W x k with ⟨v, p⟩
    cases p <;> simp [ih]

theorem queryCol_eq (W : World F X) (l : List (Val F X)) (k : Str) :
    queryCol W l k = l.map (fun x => if (assocStr W x k).2 then (assocStr W x k).1 else .null) := by
  induction l with
  | nil => simp [queryCol]
  | cons x xs ih =>
    rw [queryCol, List.map_cons]
    rcases hx : assocStr W x k with ⟨v, p⟩
    cases p <;> simp [ih]

/-- `X.field` on an array: the field values of the elements that have the field, in
order; on a query: one entry per row with NULL for rows lacking it; on NULL: NULL. -/
theorem C13_columns (W : World F X) (k : Str) :
    (∀ l, NoAssoc W (.arr l) (.val (.str k)) → assocV W (.arr l) (.val (.str k)) =
      (.arr (l.filterMap (fun x =>
        if (assocV W x (.val (.str k))).2 then some (assocV W x (.val (.str k))).1 else none)), true)) ∧
    (∀ rows, assocV W (.query rows) (.val (.str k)) =
      (.arr (rows.map (fun x =>
        if (assocV W x (.val (.str k))).2 then (assocV W x (.val (.str k))).1 else .null)), true)) ∧
    assocV W .null (.val (.str k)) = (.null, true) := by
  have hstr : ∀ x : Val F X, assocV W x (.val (.str k)) = assocStr W x k := by
    intro x; cases x <;> simp [assocV, assocStr]
  refine ⟨?_, ?_, by simp [assocV]⟩
  · intro l hn
    simp only [hstr]
    rw [assocStr, hn.search, arrCol_eq]
  · intro rows
    simp only [hstr]
    rw [assocStr, queryCol_eq]

/-- The same in terms of plain dict rows: the values under the key. -/
theorem C13_dict_columns (W : World F X) (k : Str) (hk : k ∉ dictMethods)
    (ds : List (List (Str × Val F X))) :
    (NoAssoc W (.arr (ds.map Val.dict)) (.val (.str k)) →
      assocV W (.arr (ds.map Val.dict)) (.val (.str k)) =
        (.arr (ds.filterMap (fun d => OD.get d k)), true)) ∧
    assocV W (.query (ds.map Val.dict)) (.val (.str k)) =
      (.arr (ds.map (fun d => (OD.get d k).getD .null)), true) := by
  have hd : ∀ d : List (Str × Val F X), assocV W (.dict d) (.val (.str k)) =
      ((OD.get d k).getD .null, (OD.get d k).isSome) := by
    intro d
    have hk' : dictMethods.contains k = false := by simpa using hk
    simp only [assocV, assocStr, hk']
    cases h : OD.get d k <;> simp [h]
  refine ⟨fun hn => ?_, ?_⟩
  · rw [(C13_columns W k).1 _ hn, List.filterMap_map]
    congr 2
    apply congrFun; congr 1; funext d
    simp only [Function.comp, hd]
    cases OD.get d k <;> simp
  · rw [(C13_columns W k).2.1, List.map_map]
    congr 2
    apply List.map_congr_left
    intro d _
    simp only [Function.comp, hd]
    cases OD.get d k <;> simp

end

example : bs "a" ∉ dictMethods := by decide
example : assocV ({} : World F64 Unit)
    (.arr [.dict [(bs "a", .int 1)], .dict [(bs "b", .int 9)], .dict [(bs "a", .null)]])
    (.val (.str (bs "a"))) = (.arr [.int 1, .null], true) := by
  exact (C13_dict_columns ({} : World F64 Unit) (bs "a") (by decide)
    [[(bs "a", .int 1)], [(bs "b", .int 9)], [(bs "a", .null)]]).1 (by simp [NoAssoc])
example : assocV ({} : World F64 Unit)
    (.query [.dict [(bs "a", .int 1)], .dict [(bs "b", .int 9)]])
    (.val (.str (bs "a"))) = (.arr [.int 1, .null], true) := by
  have := (C13_dict_columns ({} : World F64 Unit) (bs "a") (by decide)
    [[(bs "a", .int 1)], [(bs "b", .int 9)]]).2
  exact this

section
variable {F X : Type} [FloatOps F]

/-! ## C14 Membership -/

theorem strContains_iff (hay needle : Str) :
    strContains hay needle = true ↔ ∃ pre post, hay = pre ++ needle ++ post := by
  induction hay with
  | nil =>
    simp only [strContains, List.isEmpty_iff]
    constructor
    · rintro rfl; exact ⟨[], [], rfl⟩
    · rintro ⟨p, q, h⟩
      have := congrArg List.length h
      simp at this
      exact List.eq_nil_of_length_eq_zero (by omega)
  | cons h t ih =>
    simp only [strContains, Bool.or_eq_true, List.isPrefixOf_iff_prefix, ih]
    constructor
    · rintro (⟨q, hq⟩ | ⟨p, q, hq⟩)
      · exact ⟨[], q, by simp [hq]⟩
      · exact ⟨h :: p, q, by simp [hq]⟩
    · rintro ⟨p, q, hq⟩
      cases p with
      | nil => left; exact ⟨q, by simpa using hq.symm⟩
      | cons x xs =>
        right
        simp at hq
        exact ⟨xs, q, by simp [hq.2]⟩

theorem od_get_some_iff {V : Type} (d : OD V) (k : Str) :
    (OD.get d k).isSome = true ↔ k ∈ d.map (·.1) := by
  induction d with
  | nil => simp [OD.get]
  | cons p r ih =>
    obtain ⟨k', v⟩ := p
    simp only [OD.get, List.map_cons, List.mem_cons]
    by_cases h : k' = k
    · simp [h]
    · rw [if_neg h, ih]
      constructor
      · exact Or.inr
      · rintro (e | e)
        · exact absurd e.symm h
        · exact e

/-- No registered membership implementation claims the pair. -/
def NoMem (W : World F X) (a b : Val F X) : Prop := ∀ i ∈ W.memI, i.applicable a b = false

theorem NoMem.search {W : World F X} {a b : Val F X} (h : NoMem W a b) : search2 W.memI a b = none := by
  unfold NoMem at h
  generalize W.memI = r at h
  induction r with
  | nil => rfl
  | cons i r ih => simp [search2, h i (by simp)]; exact ih (fun j hj => h j (by simp [hj]))

theorem C14_membership (W : World F X) (a : Val F X) :
    (∀ l, NoMem W a (.arr l) → (memV W a (.arr l) = true ↔ ∃ x ∈ l, eqV W a x = true)) ∧
    (∀ s t, a = .str s → (memV W a (.str t) = true ↔ ∃ pre post, t = pre ++ s ++ post)) ∧
    (∀ s d, a = .str s → (memV W a (.dict d) = true ↔ s ∈ d.map (·.1))) ∧
    memV W a .null = false ∧
    (∀ b, NoMem W a b → (∀ l, b ≠ .arr l) → ((∃ s, a = .str s) → (∀ t, b ≠ .str t) ∧ ∀ d, b ≠ .dict d) →
      memV W a b = false) := by
  refine ⟨?_, ?_, ?_, by simp [memV], ?_⟩
  · intro l hn
    simp [memV, hn.search]
  · rintro s t rfl
    simp only [memV]; exact strContains_iff t s
  · rintro s d rfl
    simp only [memV]; exact od_get_some_iff d s
  · intro b hn hb hs
    have := hn.search
    cases b <;> simp_all [memV]
    all_goals cases a <;> simp_all

end

example : memV ({} : World F64 Unit) (.str (bs "ell")) (.str (bs "hello")) = true := by decide +kernel
example : memV ({} : World F64 Unit) (.int 1) (.arr [.null, .bool true]) = true := by decide +kernel

section
variable {F X : Type} [FloatOps F]

/-! ## C15 Iteration -/

/-- No registered iterator claims the value. -/
def NoIter (W : World F X) (a : Val F X) : Prop := ∀ i ∈ W.iterI, i.applicable a = false

theorem NoIter.search {W : World F X} {a : Val F X} (h : NoIter W a) : search1 W.iterI a = none := by
  unfold NoIter at h
  generalize W.iterI = r at h
  induction r with
  | nil => rfl
  | cons i r ih => simp [search1, h i (by simp)]; exact ih (fun j hj => h j (by simp [hj]))

/-- The row an array element becomes: itself if it is a dict, else `{_value: x}`. -/
def rowFor (x : Val F X) : Val F X :=
  match x with
  | .dict _ => x
  | _ => .dict [(valueKey, x)]

theorem C15_iterate (W : World F X) :
    (∀ l, iterate W (.arr l) = (l.filter (fun x => !x.isNil)).map rowFor) ∧
    (∀ d, iterate W (.dict d) = [.dict d]) ∧
    (∀ rows, iterate W (.query rows) = rows) ∧
    (NoIter W .null → iterate W .null = []) ∧
    (∀ v, NoIter W v → v ≠ .null → (∀ l, v ≠ .arr l) → (∀ d, v ≠ .dict d) → (∀ r, v ≠ .query r) →
      iterate W v = [.dict [(valueKey, v)]]) := by
  refine ⟨?_, fun _ => rfl, fun _ => rfl, ?_, ?_⟩
  · intro l
    simp only [iterate]
    induction l with
    | nil => rfl
    | cons x xs ih =>
      rw [List.filterMap_cons, List.filter_cons, ih]
      cases x <;> rfl
  · intro h; simp [iterate, h.search, Val.isNil]
  · intro v h h1 h2 h3 h4
    have := h.search
    cases v <;> simp_all [iterate, Val.isNil]

/-- Every row delivered for a value that is not a query is a dict. -/
theorem C15_rows_are_dicts (W : World F X) (v : Val F X) (hn : NoIter W v) (hq : ∀ r, v ≠ .query r) :
    ∀ r ∈ iterate W v, ∃ d, r = .dict d := by
  intro r hr
  have hs := hn.search
  cases v <;> simp_all [iterate, Val.isNil]
  obtain ⟨x, _, hx⟩ := hr
  cases x <;> simp [sliceRow] at hx <;> exact ⟨_, hx.symm⟩

end

example : iterate ({} : World F64 Unit) (.arr [.int 1, .null, .dict [(bs "a", .int 2)]]) =
    [.dict [(valueKey, .int 1)], .dict [(bs "a", .int 2)]] := rfl
example : NoIter ({} : World F64 Unit) (.str (bs "x")) := by simp [NoIter]

section
variable {F X : Type} [FloatOps F]

/-! ## C16 Regex cache -/

/-- Pure meaning of `target =~ pattern` for a string pattern. -/
inductive Matches (W : World F X) (E : RegexEngine) (p : Str) : Val F X → Prop where
  | all (v) : p = bs "." ∨ p = bs ".*" ∨ p = [] → Matches W E p v
  | str (t : Str) (re : E.Re) : E.compile (bs "(?i)" ++ p) = some re → E.matchString re t = true →
      Matches W E p (.str t)
  | arr (l : List (Val F X)) (x : Val F X) : x ∈ l → Matches W E p x → Matches W E p (.arr l)
  | host (v) : (∀ t, v ≠ .str t) → (∀ l, v ≠ .arr l) →
      search2 W.regexI (.str p) v = some true → Matches W E p v

/-- A cache reachable from the empty one only holds compile results. -/
def CacheOk (E : RegexEngine) (c : ReCache E) : Prop :=
  ∀ p r, OD.get c p = some r → r = E.compile (bs "(?i)" ++ p)

theorem od_get_erase {V : Type} (d : OD V) (k k' : Str) :
    OD.get (OD.erase d k) k' = if k' = k then none else OD.get d k' := by
  induction d with
  | nil => simp [OD.erase, OD.get]
  | cons p r ih =>
    obtain ⟨a, v⟩ := p
    simp only [OD.erase] at ih ⊢
    by_cases ha : a = k
    · subst ha
      rw [List.filter_cons_of_neg (by simp), ih]
      by_cases hk : k' = a
      · simp [hk]
      · have : ¬ a = k' := fun e => hk e.symm
        simp [hk, OD.get, this]
    · rw [List.filter_cons_of_pos (by simpa using ha)]
      simp only [OD.get, ih]
      by_cases hak : a = k'
      · subst hak; simp [ha]
      · simp [hak]

theorem od_get_append {V : Type} (d e : OD V) (k : Str) :
    OD.get (d ++ e) k = (OD.get d k).or (OD.get e k) := by
  induction d with
  | nil => simp [OD.get]
  | cons p r ih =>
    obtain ⟨a, v⟩ := p
    simp only [List.cons_append, OD.get]
    split
    · simp
    · exact ih

theorem od_get_set {V : Type} (d : OD V) (k k' : Str) (v : V) :
    OD.get (OD.set d k v) k' = if k' = k then some v else OD.get d k' := by
  rw [OD.set, od_get_append, od_get_erase]
  by_cases h : k' = k
  · simp [h, OD.get]
  · have : ¬ k = k' := fun e => h e.symm
    simp [h, OD.get, this]

theorem CacheOk.set {E : RegexEngine} {c : ReCache E} (h : CacheOk E c) (p : Str) :
    CacheOk E (OD.set c p (E.compile (bs "(?i)" ++ p))) := by
  intro p' r hr
  rw [od_get_set] at hr
  split at hr
  · rename_i e; subst e; simp at hr; exact hr.symm
  · exact h p' r hr

theorem reMatch_spec (E : RegexEngine) (c : ReCache E) (hc : CacheOk E c) (p t : Str) :
    (reMatch E c p t).1 = ((E.compile (bs "(?i)" ++ p)).map (fun re => E.matchString re t)).getD false ∧
    CacheOk E (reMatch E c p t).2 := by
  unfold reMatch
  cases hg : OD.get c p with
  | some r =>
    have := hc p r hg
    cases r with
    | none => exact ⟨by rw [← this]; rfl, hc⟩
    | some re => exact ⟨by rw [← this]; rfl, hc⟩
  | none =>
    simp only [ciPrefix]
    cases hcmp : E.compile (bs "(?i)" ++ p) with
    | none => exact ⟨rfl, by have := hc.set p; rwa [hcmp] at this⟩
    | some re => exact ⟨rfl, by have := hc.set p; rwa [hcmp] at this⟩

theorem matchAll_iff (p : Str) : matchAll p = true ↔ p = bs "." ∨ p = bs ".*" ∨ p = [] := by
  simp [matchAll, or_assoc]

theorem Matches.not_all {W : World F X} {E : RegexEngine} {p : Str} {v : Val F X}
    (hp : ¬ matchAll p = true) (h : Matches W E p v) :
    (∃ t re, v = .str t ∧ E.compile (bs "(?i)" ++ p) = some re ∧ E.matchString re t = true) ∨
    (∃ l x, v = .arr l ∧ x ∈ l ∧ Matches W E p x) ∨
    ((∀ t, v ≠ .str t) ∧ (∀ l, v ≠ .arr l) ∧ search2 W.regexI (.str p) v = some true) := by
  cases h with
  | all _ h => exact absurd ((matchAll_iff p).2 h) hp
  | str t re h1 h2 => exact Or.inl ⟨t, re, rfl, h1, h2⟩
  | arr l x h1 h2 => exact Or.inr (Or.inl ⟨l, x, rfl, h1, h2⟩)
  | host _ h1 h2 h3 => exact Or.inr (Or.inr ⟨h1, h2, h3⟩)

mutual
theorem matchV_spec (W : World F X) (E : RegexEngine) (p : Str) :
    ∀ (v : Val F X) (c : ReCache E), CacheOk E c →
      ((matchV W E (.str p) v c).1 = true ↔ Matches W E p v) ∧ CacheOk E (matchV W E (.str p) v c).2
  | .str t, c, hc => by
      by_cases hp : matchAll p = true
      · simp only [matchV, hp, if_true]
        exact ⟨iff_of_true trivial (.all _ ((matchAll_iff p).1 hp)), hc⟩
      · simp only [matchV]
        rw [if_neg hp]
        obtain ⟨h1, h2⟩ := reMatch_spec E c hc p t
        refine ⟨?_, h2⟩
        rw [h1]
        constructor
        · intro h
          cases hcmp : E.compile (bs "(?i)" ++ p) with
          | none => simp [hcmp] at h
          | some re => rw [hcmp] at h; exact .str t re hcmp (by simpa using h)
        · intro h
          rcases h.not_all hp with ⟨t', re, e, h1, h2⟩ | ⟨l, x, e, _⟩ | ⟨h, _⟩
          · cases e; rw [h1]; simpa using h2
          · cases e
          · exact absurd rfl (h t)
  | .arr l, c, hc => by
      by_cases hp : matchAll p = true
      · simp only [matchV, hp, if_true]
        exact ⟨iff_of_true trivial (.all _ ((matchAll_iff p).1 hp)), hc⟩
      · simp only [matchV]
        rw [if_neg hp]
        obtain ⟨h1, h2⟩ := matchAny_spec W E p l c hc
        refine ⟨?_, h2⟩
        rw [h1]
        constructor
        · rintro ⟨x, hx, hm⟩; exact .arr l x hx hm
        · intro h
          rcases h.not_all hp with ⟨t', re, e, h1, h2⟩ | ⟨l', x, e, h3⟩ | ⟨_, h, _⟩
          · cases e
          · cases e; exact ⟨x, h3⟩
          · exact absurd rfl (h l)
  | .null, c, hc => matchV_other W E p .null c hc (by simp) (by simp)
  | .bool b, c, hc => matchV_other W E p (.bool b) c hc (by simp) (by simp)
  | .int b, c, hc => matchV_other W E p (.int b) c hc (by simp) (by simp)
  | .float b, c, hc => matchV_other W E p (.float b) c hc (by simp) (by simp)
  | .time b, c, hc => matchV_other W E p (.time b) c hc (by simp) (by simp)
  | .dict b, c, hc => matchV_other W E p (.dict b) c hc (by simp) (by simp)
  | .query b, c, hc => matchV_other W E p (.query b) c hc (by simp) (by simp)
  | .obj b, c, hc => matchV_other W E p (.obj b) c hc (by simp) (by simp)
theorem matchV_other (W : World F X) (E : RegexEngine) (p : Str) (v : Val F X) (c : ReCache E)
    (hc : CacheOk E c) (h1 : ∀ t, v ≠ .str t) (h2 : ∀ l, v ≠ .arr l) :
    ((matchV W E (.str p) v c).1 = true ↔ Matches W E p v) ∧ CacheOk E (matchV W E (.str p) v c).2 := by
  have he : matchV W E (.str p) v c =
      if matchAll p = true then (true, c) else ((search2 W.regexI (.str p) v).getD false, c) := by
    cases v with
    | str t => exact absurd rfl (h1 t)
    | arr l => exact absurd rfl (h2 l)
    | _ => simp only [matchV]
  rw [he]
  by_cases hp : matchAll p = true
  · rw [if_pos hp]
    exact ⟨iff_of_true rfl (.all _ ((matchAll_iff p).1 hp)), hc⟩
  · rw [if_neg hp]
    refine ⟨?_, hc⟩
    constructor
    · intro h
      cases hs : search2 W.regexI (.str p) v with
      | none => rw [hs] at h; simp at h
      | some b => rw [hs] at h; simp at h; subst h; exact .host v h1 h2 hs
    · intro h
      rcases h.not_all hp with ⟨t', _, e, _⟩ | ⟨l, _, e, _⟩ | ⟨_, _, h⟩
      · exact absurd e (h1 t')
      · exact absurd e (h2 l)
      · rw [h]; rfl
theorem matchAny_spec (W : World F X) (E : RegexEngine) (p : Str) :
    ∀ (l : List (Val F X)) (c : ReCache E), CacheOk E c →
      ((matchAny W E p l c).1 = true ↔ ∃ x ∈ l, Matches W E p x) ∧ CacheOk E (matchAny W E p l c).2
  | [], c, hc => by simp [matchAny]; exact hc
  | x :: xs, c, hc => by
      obtain ⟨h1, h2⟩ := matchV_spec W E p x c hc
      rw [matchAny]
      rcases hm : matchV W E (.str p) x c with ⟨b, c'⟩
      rw [hm] at h1 h2
      cases b with
      | true =>
        simp only at h1 h2 ⊢
        exact ⟨iff_of_true trivial ⟨x, by simp, h1.1 trivial⟩, h2⟩
      | false =>
        simp only at h1 h2 ⊢
        obtain ⟨h3, h4⟩ := matchAny_spec W E p xs c' h2
        refine ⟨?_, h4⟩
        rw [h3]
        constructor
        · rintro ⟨y, hy, hmy⟩; exact ⟨y, by simp [hy], hmy⟩
        · rintro ⟨y, hy, hmy⟩
          simp only [List.mem_cons] at hy
          rcases hy with rfl | hy
          · exact absurd (h1.2 hmy) (by simp)
          · exact ⟨y, hy, hmy⟩
end

/-- The cache after any sequence of previous matches on the scope. -/
def cacheAfter (W : World F X) (E : RegexEngine) (history : List (Val F X × Val F X)) : ReCache E :=
  history.foldl (fun c q => (matchV W E q.1 q.2 c).2) []

/-- After any sequence of previous matches, a match on a string pattern has its pure
meaning: match-all patterns match everything, an invalid pattern matches nothing, an
array matches iff some element does. -/
theorem C16_cache_invisible (W : World F X) (E : RegexEngine) (history : List (Val F X × Val F X))
    (p : Str) (target : Val F X) :
    (matchV W E (.str p) target (cacheAfter W E history)).1 = true ↔ Matches W E p target := by
  have hok : ∀ (h : List (Val F X × Val F X)) (c : ReCache E), CacheOk E c →
      CacheOk E (h.foldl (fun c q => (matchV W E q.1 q.2 c).2) c) := by
    intro h
    induction h with
    | nil => intro c hc; exact hc
    | cons q r ih =>
      intro c hc
      apply ih
      obtain ⟨a, b⟩ := q
      cases a with
      | str s => exact (matchV_spec W E s b c hc).2
      | _ => simpa only [matchV] using hc
  exact (matchV_spec W E p target _ (hok history [] (by intro p r h; simp [OD.get] at h))).1

end

/-- A toy engine: a pattern is literal text, `(?i)` is dropped, `*` alone is invalid. -/
def toyEngine : RegexEngine where
  Re := Str
  compile p := if p = bs "(?i)*" then none else some (p.drop 4)
  matchString re t := strContains t re

example : (matchV ({} : World F64 Unit) toyEngine (.str (bs "b")) (.arr [.null, .str (bs "abc")])
    (cacheAfter ({} : World F64 Unit) toyEngine [(.str (bs "b"), .str (bs "x")), (.str (bs "*"), .str (bs "x"))])).1 = true := by
  decide +kernel
example : Matches ({} : World F64 Unit) toyEngine (bs ".") .null := .all _ (Or.inl rfl)

/-! ## C17 Registration -/

section
variable {α : Type}

/-- Specification: the chronological history of registrations visible in each
dispatcher (its own, and those of its ancestor before it was copied). -/
def regHist (hs : List (List α)) : RegOp α → List (List α)
  | .register d els => hs.modify d (fun h => h ++ els)
  | .copy d => match hs[d]? with
    | some h => hs ++ [h]
    | none => hs

theorem addImpl_rev (l e : List α) : addImpl l e = e.reverse ++ l := by
  unfold addImpl
  induction e generalizing l with
  | nil => rfl
  | cons x xs ih => simp [ih]

theorem regStep_hist (hs : List (List α)) (op : RegOp α) :
    regStep (hs.map List.reverse) op = (regHist hs op).map List.reverse := by
  cases op with
  | register d els =>
    simp only [regStep, regHist]
    apply List.ext_getElem?
    intro i
    simp only [List.getElem?_modify, List.getElem?_map]
    by_cases h : d = i
    · subst h
      cases hs[d]? <;> simp [addImpl_rev]
    · cases hs[i]? <;> simp [h]
  | copy d =>
    simp only [regStep, regHist, List.getElem?_map]
    cases hs[d]? <;> simp

theorem regRun_hist (ops : List (RegOp α)) (hs : List (List α)) :
    ops.foldl regStep (hs.map List.reverse) = (ops.foldl regHist hs).map List.reverse := by
  induction ops generalizing hs with
  | nil => rfl
  | cons op r ih => simp only [List.foldl_cons, regStep_hist, ih]

end

section
variable {F X : Type} [FloatOps F]

theorem search2_eq {R : Type} (l : List (BinImpl (Val F X) R)) (a b : Val F X) :
    search2 l a b = ((l.filter (fun i => i.applicable a b)).head?).map (fun i => i.run a b) := by
  induction l with
  | nil => rfl
  | cons i r ih =>
    by_cases h : i.applicable a b = true
    · simp [search2, h]
    · simp [search2, h, ih]

/-- After any history of registrations and copies starting from one empty dispatcher,
dispatcher `d` invokes, among the implementations in its own history that claim the
operands, the one registered last; registrations on other dispatchers (including the
one it was copied from, after the copy) have no effect. -/
theorem C17_last_registered_wins {R : Type} (ops : List (RegOp (BinImpl (Val F X) R))) (d : Nat)
    (impls hist : List (BinImpl (Val F X) R))
    (h1 : (ops.foldl regStep [[]])[d]? = some impls)
    (h2 : (ops.foldl regHist [[]])[d]? = some hist) (a b : Val F X) :
    search2 impls a b =
      ((hist.filter (fun i => i.applicable a b)).getLast?).map (fun i => i.run a b) := by
  have h := regRun_hist ops [[]]
  simp only [List.map_cons, List.map_nil, List.reverse_nil] at h
  rw [h, List.getElem?_map, h2] at h1
  simp at h1
  subst h1
  rw [search2_eq]
  simp [List.filter_reverse, List.head?_reverse]

theorem regRun_getElem {α : Type} (ops : List (RegOp α)) (d : Nat) (impls hist : List α)
    (h1 : (ops.foldl regStep [[]])[d]? = some impls)
    (h2 : (ops.foldl regHist [[]])[d]? = some hist) : impls = hist.reverse := by
  have h := regRun_hist ops [[]]
  simp only [List.map_cons, List.map_nil, List.reverse_nil] at h
  rw [h, List.getElem?_map, h2] at h1
  simpa using h1.symm

/-- The same for one operand dispatchers (truth, iteration). -/
theorem C17_last_registered_wins_unary {R : Type} (ops : List (RegOp (UnImpl (Val F X) R))) (d : Nat)
    (impls hist : List (UnImpl (Val F X) R))
    (h1 : (ops.foldl regStep [[]])[d]? = some impls)
    (h2 : (ops.foldl regHist [[]])[d]? = some hist) (a : Val F X) :
    search1 impls a =
      ((hist.filter (fun i => i.applicable a)).getLast?).map (fun i => i.run a) := by
  have hs : ∀ l : List (UnImpl (Val F X) R), search1 l a =
      ((l.filter (fun i => i.applicable a)).head?).map (fun i => i.run a) := by
    intro l
    induction l with
    | nil => rfl
    | cons i r ih =>
      by_cases h : i.applicable a = true
      · simp [search1, h]
      · simp [search1, h, ih]
  rw [regRun_getElem ops d impls hist h1 h2, hs]
  simp [List.filter_reverse, List.head?_reverse]

/-- The same for member lookup. -/
theorem C17_last_registered_wins_member (ops : List (RegOp (AssocImpl F X))) (d : Nat)
    (impls hist : List (AssocImpl F X))
    (h1 : (ops.foldl regStep [[]])[d]? = some impls)
    (h2 : (ops.foldl regHist [[]])[d]? = some hist) (a : Val F X) (k : Key F X) :
    searchA impls a k =
      ((hist.filter (fun i => i.applicable a k)).getLast?).map (fun i => i.run a k) := by
  have hs : ∀ l : List (AssocImpl F X), searchA l a k =
      ((l.filter (fun i => i.applicable a k)).head?).map (fun i => i.run a k) := by
    intro l
    induction l with
    | nil => rfl
    | cons i r ih =>
      by_cases h : i.applicable a k = true
      · simp [searchA, h]
      · simp [searchA, h, ih]
  rw [regRun_getElem ops d impls hist h1 h2, hs]
  simp [List.filter_reverse, List.head?_reverse]

/-- A registration on one dispatcher leaves every other one unchanged. -/
theorem C17_copies_independent {α : Type} (st : List (List α)) (d d' : Nat) (els : List α)
    (h : d ≠ d') : (regStep st (.register d els))[d']? = st[d']? := by
  simp only [regStep, List.getElem?_modify]
  simp [h]

/-- A copy starts with exactly the implementations of the original. -/
theorem C17_copy_same {α : Type} (st : List (List α)) (d : Nat) (l : List α) (h : st[d]? = some l) :
    (regStep st (.copy d))[st.length]? = some l ∧ (regStep st (.copy d))[d]? = some l := by
  simp only [regStep, h]
  refine ⟨by simp, ?_⟩
  have hd : d < st.length := by
    rcases Nat.lt_or_ge d st.length with h' | h'
    · exact h'
    · rw [List.getElem?_eq_none_iff.2 h'] at h; simp at h
  rw [List.getElem?_append_left hd, h]

/-- Integer, string and NULL arithmetic never reaches a registered implementation: the
result does not depend on what is registered. -/
theorem C17_builtins_not_overridden (W W' : World F X) (x y : I64) (s t : Str) (v : Val F X) :
    addV W (.int x) (.int y) = addV W' (.int x) (.int y) ∧
    subV W (.int x) (.int y) = subV W' (.int x) (.int y) ∧
    mulV W (.int x) (.int y) = mulV W' (.int x) (.int y) ∧
    divV W (.val (.int x)) (.val (.int y)) = divV W' (.val (.int x)) (.val (.int y)) ∧
    addV W (.str s) (.str t) = addV W' (.str s) (.str t) ∧
    mulV W (.str s) (.int x) = mulV W' (.str s) (.int x) ∧
    addV W .null v = addV W' .null v ∧
    eqV W (.str s) (.str t) = eqV W' (.str s) (.str t) ∧
    ltV W (.int x) (.int y) = ltV W' (.int x) (.int y) := by
  refine ⟨rfl, rfl, rfl, rfl, rfl, rfl, rfl, ?_, rfl⟩
  simp [eqV, eqSwitch]

end

/-- Two implementations telling which one ran. -/
def tagImpl (n : Nat) : BinImpl (Val F64 Unit) Nat := ⟨fun _ _ => true, fun _ _ => n⟩

example :
    (([RegOp.register 0 [tagImpl 1, tagImpl 2], .copy 0, .register 0 [tagImpl 3]] : List _).foldl
      regStep [[]])[1]? = some [tagImpl 2, tagImpl 1] := rfl

end Vfilter
