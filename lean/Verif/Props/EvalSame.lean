import Verif.EvalUses
import Verif.EvalSimStd
import Verif.Props.EvalRepeat
import Verif.EvalTerm
/-!
# C56: what the rows of a query depend on

The rows of a query depend on the variables and the nesting depth of its scope and on nothing
else: not on other scopes, the caches of syntax nodes, aggregator contexts or anything left
behind by earlier statements.  In particular a query gives the same rows after any history of
queries.  The two ways in which this fails for all queries (`C56_refuted`,
`C56_minus_refuted`) are left out: aggregate functions and names that begin with a minus sign.
-/
set_option linter.all false

namespace Vfilter.Vql

section
variable {F S : Type} [FloatOps F] {H : Host F S}

/-- Executions without aggregates.  `tbl` gives the components of the name at each symbol node,
`okFn` and `okPl` the functions and plugins that may be called. -/
def quiet (tbl : Nat → List Str) (okFn okPl : Str → Prop) : Cfg S where
  ag := false
  okFn := okFn
  okPl := okPl
  nd n n' c := n = n' ∧ c = tbl n
  hs _ _ := True
  left := by
    rintro n n' m' c d ⟨rfl, rfl⟩ ⟨rfl, rfl⟩
    exact ⟨rfl, rfl⟩
  right := by
    rintro n n' m' c d ⟨rfl, rfl⟩ ⟨rfl, rfl⟩
    exact ⟨rfl, rfl⟩
  same := fun h => by simp at h

/-- No objects are related. -/
def Corr.none : Corr := ⟨fun _ _ => False, fun _ _ => False, fun _ _ => False, fun _ _ => False, fun _ _ => False⟩

theorem Corr.none_le (W : Corr) : Corr.none.Le W :=
  ⟨fun h => h.elim, fun h => h.elim, fun h => h.elim, fun h => h.elim, fun h => h.elim⟩

/-- A value that does not refer to the heap: data, definitions made by `LET`, host objects. -/
def Tidy (H : Host F S) (Z : Cfg S) (v : V F) : Prop := VR H Z Corr.none v v

omit [FloatOps F] in
theorem Tidy.at {Z : Cfg S} {v : V F} (h : Tidy H Z v) (W : Corr) : VR H Z W v v := h.mono (Corr.none_le W)

mutual
theorem data_r {Z : Cfg S} (W : Corr) : ∀ {v : V F}, Data v → VR H Z W v v
  | .null, _ => .null
  | .bool _, _ => .bool _
  | .int _, _ => .int _
  | .float _, _ => .float _
  | .str _, _ => .str _
  | .time _, _ => .time _
  | .arr l, h => .arr (dataL_r W (l := l) h)
  | .dict d, h => .dict (dataD_r W (l := d) h)
  | .query _, h => h.elim
  | .obj _, h => h.elim
theorem dataL_r {Z : Cfg S} (W : Corr) : ∀ {l : List (V F)}, DataL l → All2 (VR H Z W) l l
  | [], _ => .nil
  | _ :: _, h => .cons (data_r W h.1) (dataL_r W h.2)
theorem dataD_r {Z : Cfg S} (W : Corr) : ∀ {l : List (Str × V F)}, DataD l → All2 (EntR (VR H Z W)) l l
  | [], _ => .nil
  | (_, _) :: _, h => .cons (.mk (data_r W h.1)) (dataD_r W h.2)
end

mutual
theorem data_eq {Z : Cfg S} {W : Corr} : ∀ {v v' : V F}, Data v → VR H Z W v v' → v = v'
  | .null, _, _, .null => rfl
  | .bool _, _, _, .bool _ => rfl
  | .int _, _, _, .int _ => rfl
  | .float _, _, _, .float _ => rfl
  | .str _, _, _, .str _ => rfl
  | .time _, _, _, .time _ => rfl
  | .arr l, _, h, .arr hl => by rw [dataL_eq (l := l) h hl]
  | .dict d, _, h, .dict hl => by rw [dataD_eq (l := d) h hl]
  | .query _, _, h, _ => h.elim
  | .obj _, _, h, _ => h.elim
theorem dataL_eq {Z : Cfg S} {W : Corr} : ∀ {l l' : List (V F)}, DataL l → All2 (VR H Z W) l l' → l = l'
  | [], _, _, .nil => rfl
  | _ :: _, _, h, .cons ha hl => by rw [data_eq h.1 ha, dataL_eq h.2 hl]
theorem dataD_eq {Z : Cfg S} {W : Corr} :
    ∀ {l l' : List (Str × V F)}, DataD l → All2 (EntR (VR H Z W)) l l' → l = l'
  | [], _, _, .nil => rfl
  | (_, _) :: _, _, h, .cons (.mk ha) hl => by rw [data_eq h.1 ha, dataD_eq h.2 hl]
end

theorem closed_of_data {Z : Cfg S} {v : V F} (h : Data v) : Tidy H Z v := data_r _ h

/-- The functions remembered by symbol nodes are the ones they name (`_SymbolRef.function`,
vfilter.go:1024; getFunction 1742-1752).  True for freshly parsed statements. -/
def CacheOk (tbl : Nat → List Str) (st : St F S) : Prop :=
  ∀ n p, st.fns.find? (fun p => p.1 == n) = some p → trimMinus (tbl n) = [p.2]

/-- The relation in which only the scopes `s` and `s'` correspond. -/
def Corr.one (s s' : Nat) : Corr :=
  { Corr.none with sc := fun i j => i = s ∧ j = s' }

omit [FloatOps F] in
theorem start_r {tbl : Nat → List Str} {okFn okPl : Str → Prop} (hm : ∀ n, hasMinus (tbl n) = false)
    {st st' : St F S} {s s' : Nat} (hs : s < st.scopes.length) (hs' : s' < st'.scopes.length)
    (hv : (st'.scp s').vars = (st.scp s).vars) (hc : ∀ v ∈ (st.scp s).vars, Tidy H (quiet tbl okFn okPl) v)
    (hd : (st'.scp s').depth = (st.scp s).depth) (hf : CacheOk tbl st) (hf' : CacheOk tbl st') :
    StR H (quiet tbl okFn okPl) (Corr.one s s') st st' where
  sc := {
    get := by
      rintro i j ⟨rfl, rfl⟩
      refine ⟨st.scp i, st'.scp j, ?_, ?_, ?_, hd.symm, ?_, ?_⟩
      · simp [St.scp, List.getElem?_eq_getElem hs]
      · simp [St.scp, List.getElem?_eq_getElem hs']
      · rw [hv]
        exact All2.refl fun v h => (hc v h).at _
      · intro h
        simp [quiet] at h
      · intro h
        simp [quiet] at h
    left := by
      rintro i j k ⟨rfl, rfl⟩ ⟨_, rfl⟩
      rfl
    right := by
      rintro i j k ⟨rfl, rfl⟩ ⟨rfl, _⟩
      rfl }
  lz := ⟨fun h => h.elim, fun h => h.elim, fun h => h.elim⟩
  rw := ⟨fun h => h.elim, fun h => h.elim, fun h => h.elim⟩
  si := ⟨fun h => h.elim, fun h => h.elim, fun h => h.elim⟩
  cx := ⟨fun h => h.elim, fun h => h.elim, fun h => h.elim⟩
  nd := by
    rintro n n' c ⟨rfl, rfl⟩
    exact ⟨hf n, hf' n, fun h => by simp [hm] at h⟩
  hs := trivial

/-- **C56**, what a query depends on.  A query without aggregates and negated names, on any two
states and scopes with the same variables and the same nesting depth: if it finishes in one, it
finishes in the other, with corresponding rows; if the rows are data, with the same rows. -/
theorem C56_determined_partial {tbl : Nat → List Str} {okFn okPl : Str → Prop}
    (hH : HostR H (quiet tbl okFn okPl)) (hm : ∀ n, hasMinus (tbl n) = false) {q : Select}
    (hq : ∀ u ∈ usesSelect q, UseOk H (quiet tbl okFn okPl) u)
    {st st' : St F S} {s s' : Nat} (hs : s < st.scopes.length) (hs' : s' < st'.scopes.length)
    (hv : (st'.scp s').vars = (st.scp s).vars) (hc : ∀ v ∈ (st.scp s).vars, Tidy H (quiet tbl okFn okPl) v)
    (hd : (st'.scp s').depth = (st.scp s).depth) (hf : CacheOk tbl st) (hf' : CacheOk tbl st')
    {rows : List (V F)} {s1 : St F S} (h : Runs H (stmtP H (.query q) s) st rows s1) :
    ∃ rows' s1', Runs H (stmtP H (.query q) s') st' rows' s1' ∧ CacheOk tbl s1 ∧ CacheOk tbl s1' ∧
      rows'.length = rows.length ∧ (DataL rows → rows' = rows) := by
  obtain ⟨n, h⟩ := h
  have hsim := sim_stmt (run_sim hH n) (W := Corr.one s s') (s := s) (s' := s')
    (StmtR.query (refl_select q hq) rfl) (And.intro rfl rfl)
  obtain ⟨rows', s1', W', h1, hle, hst, hr⟩ := hsim st st' (start_r hm hs hs' hv hc hd hf hf') rows s1 h
  refine ⟨rows', s1', ⟨n, h1⟩, fun n p hp => (hst.nd (n := n) ⟨rfl, rfl⟩).fn p hp,
    fun n p hp => (hst.nd (n := n) ⟨rfl, rfl⟩).fn' p hp, hr.length.symm, fun hdat => (dataL_eq hdat hr).symm⟩

/-- Earlier queries leave the variables and the depth of their scope, and the caches stay
correct. -/
theorem history_keeps {tbl : Nat → List Str} {okFn okPl : Str → Prop} (hP : H.Polite)
    (hH : HostR H (quiet tbl okFn okPl)) (hm : ∀ n, hasMinus (tbl n) = false) {qs : List Select}
    (hqs : ∀ q ∈ qs, ∀ u ∈ usesSelect q, UseOk H (quiet tbl okFn okPl) u)
    {st st' : St F S} {s : Nat} (hs : s < st.scopes.length)
    (hc : ∀ v ∈ (st.scp s).vars, Tidy H (quiet tbl okFn okPl) v) (hf : CacheOk tbl st)
    (h : Stmts H s (qs.map .query) st st') :
    s < st'.scopes.length ∧ (st'.scp s).vars = (st.scp s).vars ∧ (st'.scp s).depth = (st.scp s).depth ∧
      CacheOk tbl st' := by
  induction qs generalizing st with
  | nil =>
    cases h
    exact ⟨hs, rfl, rfl, hf⟩
  | cons q qs ih =>
    rw [List.map_cons] at h
    cases h with
    | cons h1 h2 =>
      obtain ⟨hl, hd, hv⟩ := stmt_vars hP hs h1
      obtain ⟨_, _, _, hf1, _⟩ := C56_determined_partial hH hm (hqs q (by simp)) hs hs rfl hc rfl hf hf h1
      simp only [Stmt.defines] at hv
      obtain ⟨a, b, c, d⟩ := ih (fun q hq => hqs q (by simp [hq])) (Nat.lt_of_lt_of_le hs hl) (by rw [hv]; exact hc) hf1 h2
      exact ⟨a, b.trans hv, c.trans hd, d⟩

/-- **C56**, for queries without aggregates and negated names: after any history of such
queries on a scope, a query finishes if and only if it did before the history, with the same
rows. -/
theorem C56_repeatable_partial {tbl : Nat → List Str} {okFn okPl : Str → Prop} (hP : H.Polite)
    (hH : HostR H (quiet tbl okFn okPl)) (hm : ∀ n, hasMinus (tbl n) = false)
    {q : Select} (hq : ∀ u ∈ usesSelect q, UseOk H (quiet tbl okFn okPl) u)
    {qs : List Select} (hqs : ∀ q ∈ qs, ∀ u ∈ usesSelect q, UseOk H (quiet tbl okFn okPl) u)
    {st st' : St F S} {s : Nat} (hs : s < st.scopes.length)
    (hc : ∀ v ∈ (st.scp s).vars, Tidy H (quiet tbl okFn okPl) v) (hf : CacheOk tbl st)
    (h : Stmts H s (qs.map .query) st st') (rows : List (V F)) (hdat : DataL rows) :
    (∃ s1, Runs H (stmtP H (.query q) s) st rows s1) ↔ ∃ s1, Runs H (stmtP H (.query q) s) st' rows s1 := by
  obtain ⟨hs', hv, hd, hf'⟩ := history_keeps hP hH hm hqs hs hc hf h
  constructor
  · rintro ⟨s1, h1⟩
    obtain ⟨rows', s1', h2, _, _, _, he⟩ := C56_determined_partial hH hm hq hs hs' hv hc hd hf hf' h1
    exact ⟨s1', he hdat ▸ h2⟩
  · rintro ⟨s1, h1⟩
    obtain ⟨rows', s1', h2, _, _, _, he⟩ :=
      C56_determined_partial hH hm hq hs' hs hv.symm (by rw [hv]; exact hc) hd.symm hf' hf h1
    exact ⟨s1', he hdat ▸ h2⟩

/-- **C56** for two evaluations in a row: both give the same rows. -/
theorem C56_twice_partial {tbl : Nat → List Str} {okFn okPl : Str → Prop} (hP : H.Polite)
    (hH : HostR H (quiet tbl okFn okPl)) (hm : ∀ n, hasMinus (tbl n) = false)
    {q : Select} (hq : ∀ u ∈ usesSelect q, UseOk H (quiet tbl okFn okPl) u)
    {st s1 s2 : St F S} {s : Nat} (hs : s < st.scopes.length)
    (hc : ∀ v ∈ (st.scp s).vars, Tidy H (quiet tbl okFn okPl) v) (hf : CacheOk tbl st)
    {rows rows' : List (V F)} (h1 : Runs H (stmtP H (.query q) s) st rows s1)
    (h2 : Runs H (stmtP H (.query q) s) s1 rows' s2) (hdat : DataL rows) : rows' = rows := by
  have h := (C56_repeatable_partial hP hH hm hq (qs := [q]) (by simpa using hq) hs hc hf
    (.cons h1 (.nil _)) rows hdat).1 ⟨_, h1⟩
  obtain ⟨s3, h3⟩ := h
  exact (h2.det h3).1

end

/-! ## When the conditions hold -/

theorem stmts_of_run {F S : Type} [FloatOps F] {H : Host F S} {n s : Nat} {l : List Stmt} {st st' : St F S}
    {rows : List (List (V F))} (h : runStmts H n l s st = some (rows, st')) : Stmts H s l st st' := by
  induction l generalizing st rows with
  | nil =>
    simp only [runStmts, Option.some.injEq, Prod.mk.injEq] at h
    obtain ⟨rfl, rfl⟩ := h
    exact .nil _
  | cons q l ih =>
    simp only [runStmts] at h
    cases h1 : exec H n (stmtP H q s) st with
    | none => rw [h1] at h; simp at h
    | some x =>
      obtain ⟨r, st1⟩ := x
      rw [h1] at h
      simp only [Option.bind_eq_bind, Option.bind_some] at h
      cases h2 : runStmts H n l s st1 with
      | none => rw [h2] at h; simp at h
      | some y =>
        obtain ⟨rs, st2⟩ := y
        rw [h2] at h
        simp only [Option.some.injEq, Prod.mk.injEq, Option.bind_some] at h
        obtain ⟨_, rfl⟩ := h
        exact .cons ⟨n, h1⟩ (ih h2)

theorem runs_of_run {F S : Type} [FloatOps F] {H : Host F S} {n s : Nat} {q : Stmt} {st st' : St F S}
    {r : List (V F)} (h : runStmts H n [q] s st = some ([r], st')) : Runs H (stmtP H q s) st r st' := by
  simp only [runStmts] at h
  cases h1 : exec H n (stmtP H q s) st with
  | none => rw [h1] at h; simp at h
  | some x =>
    obtain ⟨r', st1⟩ := x
    rw [h1] at h
    simp only [Option.bind_eq_bind, Option.bind_some, Option.some.injEq, Prod.mk.injEq, List.cons.injEq, and_true] at h
    obtain ⟨rfl, rfl⟩ := h
    exact ⟨n, h1⟩

/-- The name at a symbol node. -/
def tblOf (us : List Use) (n : Nat) : List Str :=
  match us.find? (fun u => match u with | .sym m _ _ => m == n | .src _ _ => false) with
  | some (.sym _ s _) => splitIdent s
  | _ => []

/-- No aggregate is called, no name begins with a minus sign, and a node has one name. -/
def tame (us : List Use) : Bool :=
  us.all fun u => match u with
    | .sym n s called => splitIdent s == tblOf us n && !hasMinus (splitIdent s) &&
        !(called && (match splitIdent s with | [c] => isAgg c | _ => false))
    | .src _ _ => true

theorem tame_minus {us : List Use} (h : tame us = true) (n : Nat) : hasMinus (tblOf us n) = false := by
  unfold tblOf
  split
  · rename_i m s c he
    have := List.all_eq_true.1 h _ (List.mem_of_find?_eq_some he)
    simp only [Bool.and_eq_true, Bool.not_eq_true'] at this
    exact this.1.2
  · rfl

theorem trim_of_no_minus {l : List Str} (h : hasMinus l = false) : trimMinus l = l := by
  unfold trimMinus
  split
  · simp [hasMinus] at h
  · rfl

/-- Functions that are not aggregates. -/
def notAgg (n : Str) : Prop := isAgg n = false

theorem tame_ok {F S : Type} {H : Host F S} {us : List Use} (h : tame us = true) :
    ∀ u ∈ us, UseOk H (quiet (tblOf us) notAgg (fun _ => True)) u := by
  intro u hu
  have hu' := List.all_eq_true.1 h u hu
  cases u with
  | sym n s called =>
    simp only [Bool.and_eq_true, Bool.not_eq_true', beq_iff_eq] at hu'
    obtain ⟨⟨h1, h2⟩, h3⟩ := hu'
    refine ⟨⟨rfl, h1⟩, fun c hc hcalled _ => ?_⟩
    rw [trim_of_no_minus h2] at hc
    rw [hc, hcalled] at h3
    show isAgg c = false
    simpa using h3
  | src n called => exact fun _ _ _ _ => trivial

theorem flat_of_data {F S : Type} [FloatOps F] {v : V F} (h : Data v) : Flat (S := S) v := fun _ _ W => data_r W h

/-- The built-in functions respect the relation. -/
theorem demo_r {sources : OD (List (V F64))} (hs : ∀ n l, OD.get sources n = some l → DataL l) (tbl : Nat → List Str) :
    HostR (demo sources) (quiet tbl notAgg (fun _ => True)) := by
  refine stdHost_r plain_empty (fun _ _ => rfl) (fun _ => rfl) (fun t v h => ?_) (fun n l h v hv => ?_)
    (fun n hn ha => by
      have h0 : isAgg n = false := hn
      rw [ha] at h0
      simp at h0)
  · unfold demoNum at h
    split at h
    · cases h
      exact flat_of_data trivial
    · cases h
  · have hl := hs n l h
    clear h
    induction l with
    | nil => simp at hv
    | cons a l ih =>
      rcases List.mem_cons.1 hv with rfl | hv
      · exact flat_of_data hl.1
      · exact ih hv hl.2

/-- **C56** for the built-in functions `if` and `scope` and sources with fixed rows: a query without
aggregates and negated names gives the same rows on a scope after any such queries. -/
theorem C56_builtin_partial {sources : OD (List (V F64))} (hsrc : ∀ n l, OD.get sources n = some l → DataL l)
    {q : Select} {qs : List Select} (ht : tame (usesSelect q ++ (qs.map usesSelect).flatten) = true)
    {vars : OD (V F64)} (hv : DataD vars) {st' : St F64 Unit}
    (h : Stmts (demo sources) 0 (qs.map .query) (St.init vars) st') (rows : List (V F64)) (hd : DataL rows) :
    (∃ s1, Runs (demo sources) (stmtP (demo sources) (.query q) 0) (St.init vars) rows s1) ↔
      ∃ s1, Runs (demo sources) (stmtP (demo sources) (.query q) 0) st' rows s1 := by
  refine C56_repeatable_partial (demo_polite _) (demo_r hsrc _) (tame_minus ht) (q := q) (qs := qs)
    (fun u hu => tame_ok ht u (by simp [hu])) (fun q hq u hu => tame_ok ht u ?_) (by simp [St.init]) ?_ ?_ h rows hd
  · refine List.mem_append_right _ (List.mem_flatten.2 ⟨_, List.mem_map.2 ⟨q, hq, rfl⟩, hu⟩)
  · intro v hm
    simp only [St.init, St.scp, List.getElem?_cons_zero, Option.getD_some, List.mem_singleton] at hm
    subst hm
    exact closed_of_data hv
  · intro n p hp
    simp [St.init] at hp

/-- `SELECT a AS m FROM src WHERE a > x` -/
def aboveQuery : Select :=
  .mk false false [.ex (.val (.name 0 "a")) "m"] (.src "src") (some (.rel (.name 1 "a") ">" (.name 2 "x"))) none none none

/-- `SELECT if(condition=b, then=x) AS m FROM src` -/
def pickQuery : Select :=
  .one (.val (.fcall 3 "if" [("condition", .val (.name 4 "b")), ("then", .val (.name 5 "x"))])) "m" (.src "src")

theorem demoSrc_data : ∀ n l, OD.get demoSrc n = some l → DataL l := by
  intro n l h
  unfold demoSrc at h
  simp only [OD.get] at h
  split at h
  · cases h
    simp [DataL, Data, DataD]
  · cases h

example : tame (usesSelect aboveQuery ++ (([pickQuery, aboveQuery] : List Select).map usesSelect).flatten) = true := by
  decide +kernel

/-- The query finishes with two rows and gives them again after other queries. -/
example : ∃ s1 s2 s3 r1 r2, Stmts (demo demoSrc) 0 [.query pickQuery, .query aboveQuery] (St.init [(bs "x", .int 1)]) s1 ∧
    r1 = [.dict [(bs "m", .int 2)], .dict [(bs "m", .int 3)]] ∧
    Runs (demo demoSrc) (stmtP (demo demoSrc) (.query aboveQuery) 0) (St.init [(bs "x", .int 1)]) r1 s2 ∧
    Runs (demo demoSrc) (stmtP (demo demoSrc) (.query aboveQuery) 0) s1 r2 s3 ∧ r2 = r1 := by
  obtain ⟨st', h⟩ := runStmts_of_givesAll (sources := demoSrc) (vars := [(bs "x", .int 1)])
    (l := [.query pickQuery, .query aboveQuery])
    (rows := [[.dict [(bs "m", .int 1)], .dict [(bs "m", .int 1)], .dict [(bs "m", .int 1)]],
      [.dict [(bs "m", .int 2)], .dict [(bs "m", .int 3)]]]) (by decide +kernel)
  obtain ⟨st2, h2⟩ := runStmts_of_givesAll (sources := demoSrc) (vars := [(bs "x", .int 1)])
    (l := [.query aboveQuery]) (rows := [[.dict [(bs "m", .int 2)], .dict [(bs "m", .int 3)]]]) (by decide +kernel)
  have hst := stmts_of_run h
  have h2' := runs_of_run h2
  have := (C56_builtin_partial demoSrc_data (q := aboveQuery) (qs := [pickQuery, aboveQuery]) (by decide +kernel)
    (vars := [(bs "x", .int 1)]) ⟨trivial, trivial⟩ hst _ (by simp [DataL, Data, DataD])).1 ⟨_, h2'⟩
  obtain ⟨s3, h3⟩ := this
  exact ⟨_, _, _, _, _, hst, rfl, h2', h3, rfl⟩

end Vfilter.Vql
