import Verif.EvalDemo
import Verif.Props.Aggregates
import Verif.Props.Collections
/-!
# C32 in the evaluator: ORDER BY of a query
-/
set_option linter.all false

namespace Vfilter.Vql

section
variable {F S : Type} [LawfulFloat F] {H : Host F S}

/-- `Scope.Sort` of the host sorts with the function `sort` and the comparison of the
package (sort/sort.go:74-100), and changes nothing. -/
def SortsBy (H : Host F S) (W : World F Obj) (sort : (V F → V F → Bool) → List (V F) → List (V F)) : Prop :=
  ∀ k desc rows s st, Runs H (H.sort k desc rows s) st
    (sort (rowLess W (fun r => assocStr W r k) desc) rows) st

/-- The built-in host does. -/
theorem stdHost_sortsBy (W : World F Obj) (matchF : V F → V F → Bool) (fmtV : V F → Str)
    (colName : Col → Str) (num : Str → Option (V F)) (sources : OD (List (V F))) :
    SortsBy (stdHost W matchF fmtV colName num sources : Host F S) W insertionSort :=
  fun _ _ _ _ _ => runs_pure.2 ⟨rfl, rfl⟩

/-- The value in the column of a row. -/
def keyOf (k : Str) : V F → V F
  | .dict d => (OD.get d k).getD .null
  | _ => .null

/-- The row has the column. -/
def HasKey (k : Str) : V F → Prop
  | .dict d => k ∈ d.map (·.1)
  | _ => False

theorem runs_ordered {k : Str} {desc : Bool}
    {ex all : Bool} {cols : List Col} {from_ : Plugin} {where_ gb : Option Comma}
    {s : Nat} {st st' : St F S} {out : List (V F)} :
    Runs H (call (.select (.mk ex all cols from_ where_ gb (some (k, desc)) none) s)) st out st' ↔
      ∃ rows s1, Runs H (call (.select (.mk ex all cols from_ where_ gb none none) s)) st rows s1 ∧
        Runs H (H.sort (ident k) desc rows s) s1 out st' := by
  cases gb with
  | none => exact runs_select_order
  | some gb => exact runs_select_group_order

theorem key_dict (W : World F Obj) {k : Str} (hk : k ∉ dictMethods) {v : V F} (hp : HasKey k v) :
    assocStr W v k = (keyOf k v, true) := by
  have hk' : dictMethods.contains k = false := by simpa using hk
  cases v <;> simp only [HasKey] at hp
  rename_i d
  simp only [assocStr, hk', keyOf]
  have := (od_get_some_iff d k).2 hp
  cases h : OD.get d k with
  | none => rw [h] at this; cases this
  | some x => simp [h]

theorem perm_hasKey {k : Str} {l m : List (V F)} (h : l.Perm m) (hm : ∀ r ∈ m, HasKey k r) :
    ∀ r ∈ l, HasKey k r := fun r hr => hm r (h.mem_iff.1 hr)

/-- A query with ORDER BY emits a permutation of the rows it emits without ORDER BY.  If
every row has the column and the keys are integers, strings and NULL, or floats, or times,
then in ascending order no key is less than an earlier one.  In descending order the same
holds for the sort function Go uses for up to 12 rows.  The query may have WHERE and
GROUP BY.  Missing from the full claim: rows without the column, mixed keys
(`C32_missing_refuted`, `C32_float_null_refuted`), other sort functions in descending
order (`C32_desc_contract_refuted`). -/
theorem C32_evaluates_partial {W : World F Obj} {sort : (V F → V F → Bool) → List (V F) → List (V F)}
    (hH : SortsBy H W sort) (hsort : SortContract sort)
    {ex all : Bool} {cols : List Col} {from_ : Plugin} {where_ gb : Option Comma} {k : Str} {desc : Bool}
    {s : Nat} {st st' : St F S} {out : List (V F)}
    (h : Runs H (call (.select (.mk ex all cols from_ where_ gb (some (k, desc)) none) s)) st out st') :
    ∃ rows, Runs H (call (.select (.mk ex all cols from_ where_ gb none none) s)) st rows st' ∧
      out.Perm rows ∧
      (ident k ∉ dictMethods → (∀ r ∈ rows, HasKey (ident k) r) →
        Ordered (rows.map (fun r => sortKey (keyOf (ident k) r))) →
        (desc = false → out.Pairwise (fun a b =>
          ltV W (sortKey (keyOf (ident k) b)) (sortKey (keyOf (ident k) a)) = false)) ∧
        (desc = true → sort = insertionSort → out.Pairwise (fun a b =>
          ltV W (sortKey (keyOf (ident k) a)) (sortKey (keyOf (ident k) b)) = false))) := by
  obtain ⟨rows, s1, h1, h2⟩ := runs_ordered.1 h
  obtain ⟨rfl, rfl⟩ := (hH _ _ _ _ _).det h2
  refine ⟨rows, h1, C32_permutation W _ desc sort hsort rows, fun hk hkey ho => ?_⟩
  have e : ∀ r ∈ rows, assocStr W r (ident k) = (keyOf (ident k) r, true) :=
    fun r hr => key_dict W hk (hkey r hr)
  have hmap : rows.map (fun r => sortKey (assocStr W r (ident k)).1) =
      rows.map (fun r => sortKey (keyOf (ident k) r)) :=
    List.map_congr_left (fun r hr => by rw [e r hr])
  have hp : ∀ r ∈ rows, (assocStr W r (ident k)).2 = true := fun r hr => by rw [e r hr]
  constructor
  · rintro rfl
    have := C32_asc_partial W (fun r => assocStr W r (ident k)) sort hsort rows hp (hmap ▸ ho)
    refine List.Pairwise.imp_of_mem ?_ this
    intro a b ha hb hab
    have ha := (C32_permutation W (fun r => assocStr W r (ident k)) false sort hsort rows).mem_iff.1 ha
    have hb := (C32_permutation W (fun r => assocStr W r (ident k)) false sort hsort rows).mem_iff.1 hb
    rwa [e a ha, e b hb] at hab
  · rintro rfl rfl
    have := C32_desc_partial W (fun r => assocStr W r (ident k)) rows hp (hmap ▸ ho)
    refine List.Pairwise.imp_of_mem ?_ this
    intro a b ha hb hab
    have ha := (C32_permutation W (fun r => assocStr W r (ident k)) true insertionSort hsort rows).mem_iff.1 ha
    have hb := (C32_permutation W (fun r => assocStr W r (ident k)) true insertionSort hsort rows).mem_iff.1 hb
    rwa [e a ha, e b hb] at hab

/-- `ORDER BY k LIMIT n`: the first rows of the ordered query. -/
theorem C32_limit {ex all : Bool} {cols : List Col} {from_ : Plugin} {where_ gb : Option Comma} {k : Str}
    {desc : Bool} {n : I64} (hn : 1 ≤ n.toInt) {s : Nat} {st st' : St F S} {out : List (V F)} :
    Runs H (call (.select (.mk ex all cols from_ where_ gb (some (k, desc)) (some n)) s)) st out st' ↔
      ∃ rows, Runs H (call (.select (.mk ex all cols from_ where_ gb (some (k, desc)) none) s)) st rows st' ∧
        out = rows.take n.toInt.toNat := by
  rw [runs_select_limit]
  have : limitCount n = n.toInt.toNat := by unfold limitCount; omega
  rw [this]

end

/-- `SELECT * FROM src ORDER BY a DESC` and `... ORDER BY b LIMIT 2`. -/
example : ((demoRows demoSrc [] (.mk false true [] (.src "src") none none (some (bs "a", true)) none)).map
    (fun l => sameV (.arr (l.map (keyOf (bs "a")))) (.arr [.int 3#64, .int 2#64, .int 1#64]))) = some true := by
  decide +kernel
example : ((demoRows demoSrc [] (.mk false true [] (.src "src") none none (some (bs "b", false)) (some 2#64))).map
    (fun l => sameV (.arr (l.map (keyOf (bs "a")))) (.arr [.int 1#64, .int 3#64]))) = some true := by
  decide +kernel

end Vfilter.Vql
