import Verif.EvalWithinLib
import Verif.Props.EvalFns
import Verif.Props.EvalLibrary
import Verif.Props.EvalOnceDemo
/-!
# C29, C30 with the package's functions and plugins
-/
set_option linter.all false

namespace Vfilter.Vql.Pkg

section
variable {F S : Type} [FloatOps F]

/-- A new scope with the given variables. -/
def start (vars : OD (V F)) (h : S) : St F S := { scopes := [⟨[.dict vars], 0, none, none⟩], host := h }

theorem fit_start {vars : OD (V F)} (hv : DataD vars) (h : S) : Fit Know.root (start vars h) where
  closed := by
    refine ⟨?_, fun _ h => False.elim h, ?_, fun _ h => h, fun _ h => False.elim h, fun _ h => False.elim h,
      fun _ h => False.elim h, fun _ h => False.elim h, fun _ h => False.elim h⟩
    · rintro i (rfl : i = 0)
      refine ⟨_, rfl, fun v hm => ?_⟩
      rw [List.mem_singleton.1 hm]
      exact vw_of_data (by simpa [Data] using hv)
    · rintro i (rfl : i = 0)
      exact ⟨_, rfl, ⟨fun p h => by simp at h, fun p h => by simp at h⟩⟩
  rg := fun _ h => False.elim h

variable {matchF : V F → V F → Bool} {fmtV : V F → Str} {colName : Col → Str} {num : Str → Option (V F)}
  {text : Select → Str} {fuel : Nat} {X : Extra F S}

local notation "PH" => libHost {} matchF fmtV colName num text fuel (Extra.plainAgg fmtV X)

/-- **C29** With all functions, plugins and operators of the package (foreach, chain, flatten, if, get, ...)
and whatever the application adds within its arguments: `SELECT .. FROM .. WHERE ..` in a new scope has for
each source row a lazy row with a scope of its own, whose columns were evaluated as often as `Computed`
says when the query has finished.  `min`, `max` and `enumerate` are called on plain data. -/
theorem C29_package_partial (hX : X.Within true) (hnum : ∀ t v, num t = some v → Data v) {vars : OD (V F)}
    (hv : DataD vars) {h : S} {ex all : Bool} {cols : List Col} {from_ : Plugin} {where_ : Option Comma}
    {out : List (V F)} {st' : St F S}
    (hrun : Runs PH (call (.select (.mk ex all cols from_ where_ none none none) 0)) (start vars h) out st') :
    ∃ rows s1, Runs PH (call (.plugin from_ 0)) (start vars h) rows s1 ∧
      ((∀ row ∈ rows, ∃ d, SrcRow PH row d) → ∃ items,
        List.Forall₂ (OnceAt PH all cols st') rows items ∧ (items.map (·.ns)).Nodup ∧
        out.length = (items.filter (·.ok)).length) :=
  C29_select_partial (libHost_plain_within hX hnum) (fit_start hv h) (s := 0) rfl (fun _ h => nomatch h) hrun

/-- The rows of `range`, whatever its arguments. -/
theorem range_rows {s : Nat} {args : OD (V F)} {st st' : St F S} {rows : List (V F)}
    (h : Runs PH (rangeP {} fmtV fuel s args) st rows st') : ∀ row ∈ rows, ∃ i : I64, row = .dict [(bs "_value", .int i)] := by
  obtain ⟨r, s1, _, h2⟩ := runs_bind.1 h
  cases r with
  | none =>
    obtain ⟨rfl, _⟩ := runs_pure.1 h2
    exact fun row hr => nomatch hr
  | some a =>
    obtain ⟨rfl, _⟩ := runs_pure.1 h2
    intro row hr
    obtain ⟨i, _, rfl⟩ := List.mem_map.1 hr
    exact ⟨i, rfl⟩

/-- **C29** over a source of the package: `SELECT cols FROM range(..) WHERE w` with distinct column names
evaluates each column expression at most once for each row and exactly once for the rows it emits, whatever
the arguments of `range`, the column expressions and the condition are - including subqueries, `foreach`, calls of
functions and so on. -/
theorem C29_range_partial (hX : X.Within true) (hnum : ∀ t v, num t = some v → Data v)
    (hx : OD.get X.plugins (bs "range") = none) {vars : OD (V F)} (hv : DataD vars) {h : S} {ex : Bool} {cols : List Col}
    (hs : ∀ c ∈ cols, colName c ≠ bs "*") (hnd : (cols.map colName).Nodup) {args : List Arg} {where_ : Option Comma}
    {out : List (V F)} {st' : St F S}
    (hrun : Runs PH (call (.select (.mk ex false cols (.mk (bs "range") true args) where_ none none none) 0))
      (start vars h) out st') :
    ∃ items : List Built, (items.map (·.ns)).Nodup ∧ out.length = (items.filter (·.ok)).length ∧
      ∀ b ∈ items, (∀ k, st'.evals.count (k, b.ns) ≤ 1) ∧
        (b.ok = true → ∀ k ∈ cols.map colName, st'.evals.count (k, b.ns) = 1) := by
  obtain ⟨rows, s1, h1, h2⟩ := C29_package_partial hX hnum hv hrun
  have hp : ∀ row ∈ rows, ∃ i : I64, row = .dict [(bs "_value", .int i)] := by
    rw [runs_lib_plugin (p := rangeP {} fmtV fuel) _ _ _ _ _ _ _ _
      (show OD.get (Extra.plainAgg fmtV X).plugins (bs "range") = none from hx) (fun s a => rfl) (by decide +kernel)
      (by decide +kernel) (show ((start vars h : St F S).scp 0).depth < 1000 by simp [start, St.scp])] at h1
    obtain ⟨a, s2, _, h3⟩ := h1
    exact range_rows h3
  obtain ⟨items, i1, i2, i3⟩ := h2 (fun row hr => by
    obtain ⟨i, rfl⟩ := hp row hr
    exact ⟨_, srcRow_dict (by simp [OD.WF, OD.keys]) (by simp [OD.keys, PlainKey]; decide)⟩)
  refine ⟨items, i2, i3, fun b hb => ?_⟩
  obtain ⟨row, _, h6⟩ := forall₂_right i1 b hb
  have hname : ∀ ns d, ((specCols PH false cols ns d).map (·.1)) = cols.map colName :=
    fun ns d => specCols_plain hs ns d
  refine ⟨C29_at_most_once_partial h6 (fun d _ => by rw [hname]; exact hnd), fun hok k hk => ?_⟩
  obtain ⟨d, r, _, h7, h8, h9⟩ := h6
  have h9 := h9 k
  have hx : isExprCol r k = true := by
    unfold isExprCol RowCell.getter
    rw [h8]
    cases hf : (specCols PH false cols b.ns d).reverse.find? (fun p => decide (p.1 = k)) with
    | none =>
      rw [List.find?_eq_none] at hf
      rw [← hname b.ns d] at hk
      obtain ⟨p, hp, rfl⟩ := List.mem_map.1 hk
      exact absurd (hf p (List.mem_reverse.2 hp)) (by simp)
    | some p =>
      obtain ⟨c, e⟩ := specCols_expr hs b.ns d p (List.mem_reverse.1 (List.mem_of_find?_eq_some hf))
      simp [e]
  unfold Computed at h9
  rw [hok, hx, h8, hname] at h9
  simp only [Bool.true_eq_false, if_false, if_true] at h9
  split at h9
  · exact h9
  · rw [h9]
    have h10 := List.nodup_iff_count.1 hnd k
    have h11 := List.count_pos_iff.2 hk
    omega

/-- **C30** With all functions, plugins and operators of the package: in a GROUP BY query of a new scope the
aggregator context of a group changes only while a row of that group is processed.  `min`, `max` and
`enumerate` are called on plain data. -/
theorem C30_package_partial (hX : X.Within true) (hnum : ∀ t v, num t = some v → Data v) {vars : OD (V F)}
    (hv : DataD vars) {h : S} {ex all : Bool} {cols : List Col} {from_ : Plugin} {where_ : Option Comma} {gb : Comma}
    {out : List (V F)} {st' : St F S}
    (hrun : Runs PH (call (.select (.mk ex all cols from_ where_ (some gb) none none) 0)) (start vars h) out st') :
    ∃ rows s1, Runs PH (call (.plugin from_ 0)) (start vars h) rows s1 ∧
      ((∀ row ∈ rows, ∃ d, SrcRow PH row d) → ∃ hist,
        GroupedApart PH all cols where_ gb s1.scopes.length [] rows (s1.push 0 []) hist st' ∧ out = groupRows hist) :=
  C30_isolated_partial (libHost_plain_within hX hnum) (fit_start hv h) (fun x hx => nomatch hx) (s := 0) rfl hrun

end

/-! ## Examples -/

/-- Printing booleans. -/
def pkgFmt : V F64 → Str
  | .bool b => if b then bs "true" else bs "false"
  | _ => bs "?"

/-- The package's functions and plugins. -/
def pkg : Host F64 Unit :=
  libHost {} (fun _ _ => false) pkgFmt demoName demoNum (fun _ => []) 50 (Extra.plainAgg pkgFmt {})

/-- `SELECT max(item=_value) AS m, count() AS n FROM range(end=3) WHERE n > 1`. -/
def pkgQuery : Select :=
  .mk false false [.ex (.val (.fcall 2 "max" [("item", .val (.name 5 "_value"))])) "m", .ex (.val (.fcall 3 "count" [])) "n"]
    (.mk (bs "range") true [.mk (bs "end") (.expr (.val (.int "3")))])
    (some (.rel (.name 4 "n") ">" (.int "1"))) none none none

example : ({} : Extra F64 Unit).Within true := extra_within
example : (match pkgQuery with | .mk _ _ cols _ _ _ _ _ => cols.map demoName).Nodup := by decide +kernel
example : ((exec pkg 60 (call (.select pkgQuery 0)) (start [] ())).map (fun r => sameV (.arr r.1)
    (.arr [.dict [(bs "m", .int 1#64), (bs "n", .int 2#64)], .dict [(bs "m", .int 2#64), (bs "n", .int 3#64)]]))) = some true := by
  decide +kernel

/-- `SELECT max(item=_value) AS m, count() AS n FROM range(end=4) GROUP BY _value > 2`. -/
def pkgGroups : Select :=
  .mk false false [.ex (.val (.fcall 2 "max" [("item", .val (.name 5 "_value"))])) "m", .ex (.val (.fcall 3 "count" [])) "n"]
    (.mk (bs "range") true [.mk (bs "end") (.expr (.val (.int "4")))]) none (some (.rel (.name 4 "_value") ">" (.int "2"))) none none

example : ((exec pkg 60 (call (.select pkgGroups 0)) (start [] ())).map (fun r => sameV (.arr r.1)
    (.arr [.dict [(bs "m", .int 2#64), (bs "n", .int 3#64)], .dict [(bs "m", .int 3#64), (bs "n", .int 1#64)]]))) = some true := by
  decide +kernel

end Vfilter.Vql.Pkg
