import Verif.Props.EvalFns
import Verif.Props.EvalGroup
import Verif.Props.EvalWhere
import Verif.Props.Aggregates
/-!
# Aggregate functions in a GROUP BY query (C30, C31)

`SELECT k, count() AS n, sum(item=x) AS t .. FROM .. WHERE .. GROUP BY k`: the columns of the row
of a group are the aggregates of exactly the rows of the group.
-/
set_option linter.all false

namespace Vfilter.Vql
open Fmt

section
variable {F S : Type} [LawfulFloat F] {H : Host F S}

/-! ## Aggregates as functions of the calls -/

/-- What an aggregate returns last when it is called with these items, starting from nothing. -/
def aggLast (W : World F Obj) (ops : List (AggOp F Obj)) : Cell F Obj :=
  match (aggRun W [] (ops.map (fun o => (([] : Str), o)))).getLast? with
  | some (_, c) => c
  | none => .null

theorem aggLast_of {W : World F Obj} {ops : List (AggOp F Obj)} {c : Cell F Obj}
    (h : LastResult W [] (ops.map (fun o => (([] : Str), o))) c) : aggLast W ops = c := by
  unfold LastResult at h
  rw [C31_independent W [] _ [] [] rfl] at h
  have e : (ops.map (fun o => (([] : Str), o))).filter (fun p => decide (p.1 = ([] : Str))) =
      ops.map (fun o => (([] : Str), o)) := by
    apply List.filter_eq_self.2
    intro p hp
    obtain ⟨o, _, rfl⟩ := List.mem_map.1 hp
    simp
  rw [e] at h
  unfold aggLast
  rw [h]

omit [LawfulFloat F] in
theorem callsOf_map (ops : List (AggOp F Obj)) :
    CallsOf ([] : Str) (ops.map (fun o => (([] : Str), o))) ops := by
  unfold CallsOf
  have e : (ops.map (fun o => (([] : Str), o))).filter (fun p => decide (p.1 = ([] : Str))) =
      ops.map (fun o => (([] : Str), o)) := by
    apply List.filter_eq_self.2
    intro p hp
    obtain ⟨o, _, rfl⟩ := List.mem_map.1 hp
    simp
  rw [e, List.map_map]
  simp [Function.comp_def]

/-- Only the calls of an instance matter for what is stored under its name. -/
theorem aggSt_get {W : World F Obj} (id : Str) (calls : List (Str × AggOp F Obj)) :
    ∀ c c' : AggCtx F Obj, c.get id = c'.get id →
    (aggSt W c calls).get id = (aggSt W c' (calls.filter (fun p => decide (p.1 = id)))).get id := by
  induction calls with
  | nil => intro c c' h; exact h
  | cons p r ih =>
    intro c c' h
    obtain ⟨i, op⟩ := p
    by_cases hi : i = id
    · subst hi
      simp only [List.filter_cons, decide_true, if_true, aggSt]
      exact ih _ _ (aggCall_congr W c c' i op h).2
    · simp only [List.filter_cons, hi, decide_false, Bool.false_eq_true, if_false, aggSt]
      refine ih _ _ ?_
      rw [aggCall_get_ne W c i id op (fun e => hi e.symm)]
      exact h

/-- The name of the instance does not matter. -/
theorem aggSt_rename {W : World F Obj} (id id' : Str) (ops : List (AggOp F Obj)) :
    ∀ c c' : AggCtx F Obj, c.get id = c'.get id' →
    (aggSt W c (ops.map (fun o => (id, o)))).get id = (aggSt W c' (ops.map (fun o => (id', o)))).get id' := by
  induction ops with
  | nil => intro c c' h; exact h
  | cons o r ih =>
    intro c c' h
    simp only [List.map_cons, aggSt]
    refine ih _ _ ?_
    cases o with
    | sum i => cases i <;> simp [aggCall, AggCtx.modify, OD.get_set_self, h]
    | _ => simp [aggCall, AggCtx.modify, OD.get_set_self, h]

theorem aggCall_rename {W : World F Obj} (id id' : Str) (o : AggOp F Obj) (c c' : AggCtx F Obj)
    (h : c.get id = c'.get id') : (aggCall W c id o).2 = (aggCall W c' id' o).2 := by
  cases o with
  | sum i => cases i <;> simp [aggCall, AggCtx.modify, h]
  | _ => simp [aggCall, AggCtx.modify, h]

theorem aggLast_append {W : World F Obj} (id : Str) (ops : List (AggOp F Obj)) (o : AggOp F Obj)
    (c : AggCtx F Obj) (h : c.get id = (aggSt W [] (ops.map (fun o => (id, o)))).get id) :
    (aggCall W c id o).2 = aggLast W (ops ++ [o]) := by
  unfold aggLast
  rw [List.map_append, List.map_cons, List.map_nil, aggRun_last]
  refine aggCall_rename _ _ _ _ _ ?_
  rw [h]
  exact aggSt_rename _ _ _ _ _ rfl

/-! ## Columns -/

/-- What a column is as a function of the source rows: a function of the row, or an aggregate function
called at a syntax node with an item computed from the row. -/
inductive ColKind (F : Type) where
  | plain (f : OD (V F) → V F)
  | agg (node : Nat) (op : OD (V F) → AggOp F Obj)

/-- A column of a query and what it is. -/
structure ColSpec (F : Type) where
  col : Col
  name : Str
  kind : ColKind F

/-- The value of the column in the row of a group: that of the last row of the group, or the aggregate of
all its rows. -/
def ColKind.result (W : World F Obj) (ds : List (OD (V F))) : ColKind F → V F
  | .plain f => (ds.getLast?.map f).getD .null
  | .agg _ op => (aggLast W (ds.map op)).toVal

/-- The row of a group. -/
def groupRowOf (W : World F Obj) (specs : List (ColSpec F)) (ds : List (OD (V F))) : OD (V F) :=
  specs.map (fun c => (c.name, c.kind.result W ds))

/-- The aggregate calls of a row. -/
def rowCalls (specs : List (ColSpec F)) (d : OD (V F)) : List (Str × AggOp F Obj) :=
  specs.filterMap (fun c => match c.kind with
    | .plain _ => none
    | .agg node op => some (aggId node, op d))

/-- The columns computed one after the other from a source row with an aggregator context. -/
def rowWith (W : World F Obj) (d : OD (V F)) : AggCtx F Obj → List (ColSpec F) → OD (V F)
  | _, [] => []
  | ctx, c :: cs => match c.kind with
    | .plain f => (c.name, f d) :: rowWith W d ctx cs
    | .agg node op => (c.name, (aggCall W ctx (aggId node) (op d)).2.toVal) ::
        rowWith W d (aggCall W ctx (aggId node) (op d)).1 cs

/-- No call site occurs in two columns. -/
def nodesOf (specs : List (ColSpec F)) : List Nat :=
  specs.filterMap (fun c => match c.kind with
    | .plain _ => none
    | .agg node _ => some node)

omit [LawfulFloat F] in
theorem aggId_inj {m n : Nat} (h : aggId m = aggId n) : m = n := by
  have := congrArg List.length h
  simpa [aggId] using this

omit [LawfulFloat F] in
theorem rowCalls_filter {specs : List (ColSpec F)} (hn : (nodesOf specs).Nodup) {c : ColSpec F} (hc : c ∈ specs)
    {node : Nat} {op : OD (V F) → AggOp F Obj} (hk : c.kind = .agg node op) (d : OD (V F)) :
    (rowCalls specs d).filter (fun p => decide (p.1 = aggId node)) = [(aggId node, op d)] := by
  have hno : ∀ l : List (ColSpec F), node ∉ nodesOf l →
      (rowCalls l d).filter (fun p => decide (p.1 = aggId node)) = [] := by
    intro l hl
    apply List.filter_eq_nil_iff.2
    intro p hp
    obtain ⟨x, hx, hx2⟩ := List.mem_filterMap.1 hp
    simp only [decide_eq_true_eq]
    intro e
    cases hkx : x.kind with
    | plain f => simp [hkx] at hx2
    | agg n o =>
      simp only [hkx, Option.some.injEq] at hx2
      subst hx2
      have := aggId_inj e
      subst this
      exact hl (List.mem_filterMap.2 ⟨x, hx, by simp [hkx]⟩)
  induction specs with
  | nil => simp at hc
  | cons x xs ih =>
    rcases List.mem_cons.1 hc with rfl | hc'
    · have e1 : nodesOf (c :: xs) = node :: nodesOf xs := by simp [nodesOf, hk]
      rw [e1, List.nodup_cons] at hn
      have e2 : rowCalls (c :: xs) d = (aggId node, op d) :: rowCalls xs d := by simp [rowCalls, hk]
      rw [e2, List.filter_cons, if_pos (by simp), hno xs hn.1]
    · cases hkx : x.kind with
      | plain f =>
        have e1 : nodesOf (x :: xs) = nodesOf xs := by simp [nodesOf, hkx]
        have e2 : rowCalls (x :: xs) d = rowCalls xs d := by simp [rowCalls, hkx]
        rw [e1] at hn
        rw [e2]
        exact ih hn hc'
      | agg n o =>
        have e1 : nodesOf (x :: xs) = n :: nodesOf xs := by simp [nodesOf, hkx]
        have e2 : rowCalls (x :: xs) d = (aggId n, o d) :: rowCalls xs d := by simp [rowCalls, hkx]
        rw [e1, List.nodup_cons] at hn
        have hne : n ≠ node := by
          rintro rfl
          exact hn.1 (List.mem_filterMap.2 ⟨c, hc', by simp [hk]⟩)
        rw [e2, List.filter_cons, if_neg (by simpa using fun e => hne (aggId_inj e))]
        exact ih hn.2 hc'

omit [LawfulFloat F] in
theorem calls_filter {specs : List (ColSpec F)} (hn : (nodesOf specs).Nodup) {c : ColSpec F} (hc : c ∈ specs)
    {node : Nat} {op : OD (V F) → AggOp F Obj} (hk : c.kind = .agg node op) (ds : List (OD (V F))) :
    (ds.flatMap (rowCalls specs)).filter (fun p => decide (p.1 = aggId node)) =
      (ds.map op).map (fun o => (aggId node, o)) := by
  induction ds with
  | nil => rfl
  | cons d ds ih =>
    rw [List.flatMap_cons, List.filter_append, ih, rowCalls_filter hn hc hk]
    rfl

/-- The columns of the last row of a group are the aggregates of all rows of the group. -/
theorem rowWith_eq {W : World F Obj} {specs : List (ColSpec F)} (hn : (nodesOf specs).Nodup)
    (ds : List (OD (V F))) (d : OD (V F)) :
    rowWith W d (aggSt W [] (ds.flatMap (rowCalls specs))) specs = groupRowOf W specs (ds ++ [d]) := by
  have key : ∀ (cs pre : List (ColSpec F)), specs = pre ++ cs →
      rowWith W d (aggSt W [] (ds.flatMap (rowCalls specs) ++ rowCalls pre d)) cs =
        cs.map (fun c => (c.name, c.kind.result W (ds ++ [d]))) := by
    intro cs
    induction cs with
    | nil => intro pre _; rfl
    | cons c cs ih =>
      intro pre he
      have he' : specs = (pre ++ [c]) ++ cs := by simp [he]
      have hih := ih (pre ++ [c]) he'
      cases hk : c.kind with
      | plain f =>
        have e2 : rowCalls (pre ++ [c]) d = rowCalls pre d := by simp [rowCalls, hk]
        rw [e2] at hih
        simp only [rowWith, hk, hih, List.map_cons, ColKind.result]
        simp
      | agg node op =>
        have e2 : rowCalls (pre ++ [c]) d = rowCalls pre d ++ [(aggId node, op d)] := by simp [rowCalls, hk]
        rw [e2, ← List.append_assoc, aggSt_append] at hih
        simp only [aggSt] at hih
        simp only [rowWith, hk, hih, List.map_cons, ColKind.result]
        have hval : (aggCall W (aggSt W [] (ds.flatMap (rowCalls specs) ++ rowCalls pre d)) (aggId node) (op d)).2 =
            aggLast W ((ds ++ [d]).map op) := by
          rw [List.map_append, List.map_cons, List.map_nil]
          refine aggLast_append _ _ _ _ ?_
          rw [aggSt_get (aggId node) _ [] [] rfl, List.filter_append]
          have hc : c ∈ specs := by rw [he]; simp
          rw [calls_filter hn hc hk]
          have hpre : (rowCalls pre d).filter (fun p => decide (p.1 = aggId node)) = [] := by
            have h1 := rowCalls_filter hn hc hk d
            have h2 : rowCalls specs d = rowCalls pre d ++ ((aggId node, op d) :: rowCalls cs d) := by
              rw [he]; simp [rowCalls, hk]
            rw [h2, List.filter_append, List.filter_cons, if_pos (by simp)] at h1
            cases hp : (rowCalls pre d).filter (fun p => decide (p.1 = aggId node)) with
            | nil => rfl
            | cons x xs => rw [hp] at h1; simp at h1
          rw [hpre, List.append_nil]
        rw [hval]
  have := key specs [] rfl
  unfold groupRowOf
  simpa [rowCalls] using this

/-! ## States -/

/-- What was there is still there. -/
structure Still (st st' : St F S) : Prop where
  scopes : st.scopes <+: st'.scopes
  ctxs : st.ctxs <+: st'.ctxs
  rows : st.rows <+: st'.rows

omit [LawfulFloat F] in
theorem Still.refl (st : St F S) : Still st st := ⟨List.prefix_refl _, List.prefix_refl _, List.prefix_refl _⟩

omit [LawfulFloat F] in
theorem Still.of_eq {st st' : St F S} (h1 : st'.scopes = st.scopes) (h2 : st'.ctxs = st.ctxs) (h3 : st'.rows = st.rows) :
    Still st st' := ⟨h1 ▸ List.prefix_refl _, h2 ▸ List.prefix_refl _, h3 ▸ List.prefix_refl _⟩

omit [LawfulFloat F] in
theorem prefix_get {α : Type} {l l' : List α} (h : l <+: l') {i : Nat} {x : α} (hx : l[i]? = some x) : l'[i]? = some x := by
  obtain ⟨t, rfl⟩ := h
  rw [List.getElem?_append_left (by
    rcases Nat.lt_or_ge i l.length with h | h
    · exact h
    · rw [List.getElem?_eq_none h] at hx; cases hx)]
  exact hx

/-- The item is not a query. -/
def PlainOp : AggOp F Obj → Prop
  | .min v => isQuery v = false
  | .max v => isQuery v = false
  | _ => True

/-- No aggregate of the context is a query. -/
def PlainAgg (ctx : AggCtx F Obj) : Prop := ∀ id c, ctx.get id = some c → isQuery c.toVal = false

theorem plain_call {W : World F Obj} {ctx : AggCtx F Obj} {id : Str} {op : AggOp F Obj} (h : PlainAgg ctx) (ho : PlainOp op) :
    isQuery (aggCall W ctx id op).2.toVal = false ∧ PlainAgg (aggCall W ctx id op).1 := by
  have key : ∀ f : Option (Cell F Obj) → Cell F Obj, isQuery (f (ctx.get id)).toVal = false →
      isQuery (ctx.modify id f).2.toVal = false ∧ PlainAgg (ctx.modify id f).1 := by
    intro f hf
    refine ⟨hf, ?_⟩
    intro j c hj
    simp only [AggCtx.modify] at hj
    by_cases hji : j = id
    · subst hji
      rw [OD.get_set_self] at hj
      cases hj
      exact hf
    · rw [OD.get_set_ne _ _ hji] at hj
      exact h j c hj
  cases op with
  | count =>
    refine key _ ?_
    cases ctx.get id with
    | none => rfl
    | some c => cases c <;> rfl
  | sum i =>
    cases i with
    | none => exact ⟨rfl, h⟩
    | some i =>
      refine key _ ?_
      cases ctx.get id with
      | none => rfl
      | some c => cases c <;> rfl
  | min v =>
    refine key _ ?_
    cases hg : ctx.get id with
    | none => exact ho
    | some c =>
      simp only [minMod]
      split
      · exact h _ _ hg
      · exact ho
  | max v =>
    refine key _ ?_
    cases hg : ctx.get id with
    | none => exact ho
    | some c =>
      simp only [maxMod]
      split
      · exact h _ _ hg
      · exact ho
  | enumerate v =>
    refine key _ ?_
    cases ctx.get id with
    | none => rfl
    | some c => cases c <;> rfl

/-- The column is what its description says, in the scope of a row `base` and the source row. -/
def ColSpec.Does (H : Host F S) (W : World F Obj) (I : St F S → Prop) (base : List (V F)) (ok : OD (V F) → Prop)
    (c : ColSpec F) : Prop :=
  ∀ (st st' : St F S) (ns : Nat) (d : OD (V F)) (v : V F), I st → ns < st.scopes.length →
    (st.scp ns).vars = base ++ [.dict d] → (st.scp ns).depth < 1000 → ok d →
    Runs H (call (.getter (.col c.col c.name ns))) st v st' →
    match c.kind with
      | .plain f => I st' ∧ v = f d ∧ Still st st'
      | .agg node op => PlainOp (op d) ∧ ∃ s1, Still st s1 ∧
          (isQuery (s1.agg W node ns (op d)).1 = false → I st' ∧ (v, st') = s1.agg W node ns (op d))

/-- The invariant is about the functions that the syntax nodes were used for. -/
def Local (I : St F S → Prop) : Prop :=
  ∀ st st' : St F S, st'.fns = st.fns → I st → I st'

/-- A lazy row with these columns, some of which that are not aggregates have been computed. -/
structure LazyRow (specs : List (ColSpec F)) (base : List (V F)) (ns cell : Nat) (d : OD (V F)) (st : St F S) : Prop where
  lt : ns < st.scopes.length
  vars : (st.scp ns).vars = base ++ [.dict d]
  depth : (st.scp ns).depth < 1000
  row : ∃ r, st.rows[cell]? = some r ∧ r.cols = specs.map (fun c => (c.name, .col c.col c.name ns)) ∧
    ∀ k v, OD.get r.cache k = some v → ∃ c ∈ specs, ∃ f, c.name = k ∧ c.kind = .plain f ∧ v = f d

/-- What evaluating WHERE or the key of GROUP BY may do. -/
structure Harmless (I : St F S → Prop) (specs : List (ColSpec F)) (base : List (V F)) (ns cell : Nat) (d : OD (V F))
    (st st' : St F S) : Prop where
  inv : I st'
  scopes : st.scopes <+: st'.scopes
  ctxs : st.ctxs <+: st'.ctxs
  row : LazyRow specs base ns cell d st'

/-- The program gives `f d` where the source row and the lazy row are visible. -/
def Gives {α : Type} (H : Host F S) (I : St F S → Prop) (base : List (V F)) (ok : OD (V F) → Prop)
    (specs : List (ColSpec F)) (p : Nat → Prog F S α) (f : OD (V F) → α) : Prop :=
  ∀ (st st' : St F S) (s ns cell : Nat) (d : OD (V F)) (a : α), I st → s < st.scopes.length →
    (st.scp s).vars = base ++ [.dict d, .obj (.row cell)] → (st.scp s).depth < 1000 → ok d →
    LazyRow specs base ns cell d st → Runs H (p s) st a st' →
    a = f d ∧ Harmless I specs base ns cell d st st'

/-! ## One row -/

/-- The aggregator context of the columns is the one that the scope above them has been given. -/
theorem agg_step {W : World F Obj} {st : St F S} {node ns a c : Nat} {op : AggOp F Obj} {ctx : AggCtx F Obj}
    (h1 : (st.scp ns).ag = none) (h2 : (st.scp ns).parent = some a) (h3 : (st.scp a).ag = some c)
    (h4 : 0 < ns) (h5 : st.ctxs[c]? = some ctx) :
    st.agg W node ns op = ((aggCall W ctx (aggId node) op).2.toVal,
      { st with ctxs := st.ctxs.set c (aggCall W ctx (aggId node) op).1 }) := by
  obtain ⟨n, rfl⟩ : ∃ n, ns = n + 1 := ⟨ns - 1, by omega⟩
  have hh : st.agHolder (n + 1 + 1) (n + 1) = a := by
    rw [St.agHolder]
    simp only [h1, h2]
    rw [St.agHolder]
    simp only [h3]
  have hg : st.getAg (n + 1) = (c, st) := by
    unfold St.getAg
    simp only [hh, h3]
  unfold St.agg
  simp only [Prim.step, hg, h5, Option.getD_some]

omit [LawfulFloat F] in
theorem prefix_scp {st st' : St F S} (h : st.scopes <+: st'.scopes) {i : Nat} (hi : i < st.scopes.length) :
    st'.scp i = st.scp i := by
  obtain ⟨t, ht⟩ := h
  unfold St.scp
  rw [← ht, List.getElem?_append_left hi]

omit [LawfulFloat F] in
theorem prefix_len {α : Type} {l l' : List α} (h : l <+: l') : l.length ≤ l'.length := h.length_le

theorem mat_cols {W : World F Obj} {I : St F S → Prop} (hI : Local I) {base : List (V F)} {ok : OD (V F) → Prop}
    {all : List (ColSpec F)} (hall : ∀ c ∈ all, c.Does H W I base ok) (hnames : (all.map (·.name)).Nodup)
    {ns a cell c : Nat} {d : OD (V F)} (hok : ok d) (hns : a < ns) :
    ∀ (l pre : List (ColSpec F)) (acc out : OD (V F)) (ctx : AggCtx F Obj) (st st' : St F S), all = pre ++ l →
      OD.keys acc = pre.map (·.name) → I st → LazyRow all base ns cell d st →
      (st.scp ns).ag = none → (st.scp ns).parent = some a → (st.scp a).ag = some c →
      st.ctxs[c]? = some ctx → PlainAgg ctx →
      Runs H (foldP (matColP cell) acc (l.map (·.name))) st out st' →
      out = acc ++ rowWith W d ctx l ∧ I st' ∧ st.scopes <+: st'.scopes ∧
        st'.ctxs[c]? = some (aggSt W ctx (rowCalls l d)) ∧ PlainAgg (aggSt W ctx (rowCalls l d)) ∧
        ∀ i x, i ≠ c → st.ctxs[i]? = some x → st'.ctxs[i]? = some x := by
  intro l
  induction l with
  | nil =>
    intro pre acc out ctx st st' _ _ hi _ _ _ _ hc hpa h
    simp only [List.map_nil, foldP, runs_pure] at h
    obtain ⟨rfl, rfl⟩ := h
    exact ⟨by simp [rowWith], hi, List.prefix_refl _, by simpa [rowCalls, aggSt] using hc, by simpa [rowCalls, aggSt] using hpa,
      fun i x _ h => h⟩
  | cons x l ih =>
    intro pre acc out ctx st st' he hacc hi hrow hag hpar hset hc hpa h
    simp only [List.map_cons, foldP, runs_bind] at h
    obtain ⟨acc1, s1, h1, h2⟩ := h
    obtain ⟨r, hr, hcols, hcache⟩ := hrow.row
    have hx : x ∈ all := by rw [he]; simp
    have hmem : x.name ∈ r.cols.map (·.1) := by
      rw [hcols, List.map_map]
      exact List.mem_map.2 ⟨x, hx, rfl⟩
    obtain ⟨v, hv, rfl⟩ := (runs_matCol hr hmem).1 h1
    have huniq : ∀ y ∈ all, y.name = x.name → y = x := by
      intro y hy e
      exact List.inj_on_of_nodup_map hnames hy hx e
    have hnot : x.name ∉ OD.keys acc := by
      rw [hacc]
      intro hin
      rw [he, List.map_append, List.nodup_append] at hnames
      exact hnames.2.2 _ hin _ (by simp) rfl
    have hacc1 : OD.set acc x.name v = acc ++ [(x.name, v)] := OD.set_of_not_mem acc v hnot
    have hkeys1 : OD.keys (OD.set acc x.name v) = (pre ++ [x]).map (·.name) := by
      rw [hacc1, OD.keys_append, hacc]; simp [OD.keys]
    have he1 : all = (pre ++ [x]) ++ l := by rw [he]; simp
    -- the column was computed before, or is computed now
    have hval : (∃ f, x.kind = .plain f ∧ v = f d ∧ I s1 ∧ Still st s1) ∨
        (∃ node op s0, x.kind = .agg node op ∧ PlainOp (op d) ∧ Still st s0 ∧
          (isQuery (s0.agg W node ns (op d)).1 = false → I s1 ∧ (v, s1) = s0.agg W node ns (op d))) := by
      unfold ColVal at hv
      cases hcv : OD.get r.cache x.name with
      | some w =>
        simp only [hcv] at hv
        obtain ⟨rfl, rfl⟩ := hv
        obtain ⟨y, hy, f, hn, hk, hw⟩ := hcache _ _ hcv
        have := huniq y hy hn
        subst this
        exact .inl ⟨f, hk, hw, hi, Still.refl _⟩
      | none =>
        simp only [hcv] at hv
        obtain ⟨g, hg, hrun⟩ := hv
        obtain ⟨g', hg', hgm⟩ := getter_of_mem hmem
        rw [hg] at hg'
        cases hg'
        rw [hcols] at hgm
        obtain ⟨y, hy, hye⟩ := List.mem_map.1 hgm
        have := huniq y hy (congrArg Prod.fst hye)
        subst this
        have hge : g = .col y.col y.name ns := (congrArg Prod.snd hye).symm
        subst hge
        have hm := hall y hx st s1 ns d v hi hrow.lt hrow.vars hrow.depth hok hrun
        cases hk : y.kind with
        | plain f =>
          simp only [hk] at hm
          exact .inl ⟨f, rfl, hm.2.1, hm.1, hm.2.2⟩
        | agg node op =>
          simp only [hk] at hm
          obtain ⟨hpo, s0, hs0, hagg⟩ := hm
          exact .inr ⟨node, op, s0, rfl, hpo, hs0, hagg⟩
    have halt : a < st.scopes.length := Nat.lt_trans hns hrow.lt
    -- facts that are kept when what was there is still there
    have keep : ∀ s2 : St F S, st.scopes <+: s2.scopes → st.rows <+: s2.rows →
        LazyRow all base ns cell d s2 ∧ (s2.scp ns).ag = none ∧ (s2.scp ns).parent = some a ∧ (s2.scp a).ag = some c := by
      intro s2 hs hrw
      refine ⟨⟨Nat.lt_of_lt_of_le hrow.lt (prefix_len hs), ?_, ?_, r, prefix_get hrw hr, hcols, hcache⟩, ?_, ?_, ?_⟩
      · rw [prefix_scp hs hrow.lt]; exact hrow.vars
      · rw [prefix_scp hs hrow.lt]; exact hrow.depth
      · rw [prefix_scp hs hrow.lt]; exact hag
      · rw [prefix_scp hs hrow.lt]; exact hpar
      · rw [prefix_scp hs halt]; exact hset
    rcases hval with ⟨f, hk, rfl, hi1, hst⟩ | ⟨node, op, s0, hk, hpo, hst, hagg⟩
    · obtain ⟨k1, k2, k3, k4⟩ := keep s1 hst.scopes hst.rows
      obtain ⟨r1, r2, r3, r4, r6, r5⟩ := ih (pre ++ [x]) _ out ctx s1 st' he1 hkeys1 hi1 k1 k2 k3 k4
        (prefix_get hst.ctxs hc) hpa h2
      have ec : rowCalls (x :: l) d = rowCalls l d := by simp [rowCalls, hk]
      rw [ec]
      refine ⟨?_, r2, hst.scopes.trans r3, r4, r6, ?_⟩
      · rw [r1, hacc1, List.append_assoc]
        simp [rowWith, hk]
      · intro i y hne hy
        exact r5 i y hne (prefix_get hst.ctxs hy)
    · obtain ⟨k1, k2, k3, k4⟩ := keep s0 hst.scopes hst.rows
      have hc0 := prefix_get hst.ctxs hc
      obtain ⟨hq1, hq2⟩ := plain_call (W := W) (id := aggId node) hpa hpo
      rw [agg_step k2 k3 k4 (by omega) hc0] at hagg
      obtain ⟨hi1, hagg⟩ := hagg hq1
      rw [Prod.mk.injEq] at hagg
      obtain ⟨hv, hs1⟩ := hagg
      obtain ⟨k1', k2', k3', k4'⟩ := keep s1 (by rw [hs1]; exact hst.scopes) (by rw [hs1]; exact hst.rows)
      have hlen : c < s0.ctxs.length := by
        rcases Nat.lt_or_ge c s0.ctxs.length with h | h
        · exact h
        · rw [List.getElem?_eq_none h] at hc0; cases hc0
      have hc1 : s1.ctxs[c]? = some (aggCall W ctx (aggId node) (op d)).1 := by
        rw [hs1]
        simp [hlen]
      obtain ⟨r1, r2, r3, r4, r6, r5⟩ := ih (pre ++ [x]) _ out _ s1 st' he1 hkeys1 hi1 k1' k2' k3' k4' hc1 hq2 h2
      have ec : aggSt W ctx (rowCalls (x :: l) d) = aggSt W (aggCall W ctx (aggId node) (op d)).1 (rowCalls l d) := by
        simp [rowCalls, hk, aggSt]
      rw [ec]
      refine ⟨?_, r2, ?_, r4, r6, ?_⟩
      · rw [r1, hacc1, List.append_assoc, hv]
        simp [rowWith, hk]
      · refine List.IsPrefix.trans ?_ r3
        rw [hs1]; exact hst.scopes
      · intro i y hne hy
        refine r5 i y hne ?_
        rw [hs1]
        show (s0.ctxs.set c _)[i]? = some y
        rw [List.getElem?_set_ne (fun e => hne e.symm)]
        exact prefix_get hst.ctxs hy

/-- The columns of a SELECT without stars. -/
theorem specCols_specs {specs : List (ColSpec F)} (hname : ∀ c ∈ specs, H.colName c.col = c.name ∧ c.name ≠ bs "*")
    (ns : Nat) (d : OD (V F)) :
    specCols H false (specs.map (·.col)) ns d = specs.map (fun c => (c.name, .col c.col c.name ns)) := by
  have key : ∀ (l : List (ColSpec F)) (acc : List (Str × Getter F)),
      (∀ c ∈ l, H.colName c.col = c.name ∧ c.name ≠ bs "*") →
      (l.map (·.col)).foldl (fun acc c => if H.colName c = bs "*" then starCols d acc
        else acc ++ [(H.colName c, .col c (H.colName c) ns)]) acc =
      acc ++ l.map (fun c => (c.name, .col c.col c.name ns)) := by
    intro l
    induction l with
    | nil => intro acc _; simp
    | cons c l ih =>
      intro acc h
      obtain ⟨h1, h2⟩ := h c (by simp)
      simp only [List.map_cons, List.foldl_cons, h1, if_neg h2]
      rw [ih _ (fun c hc => h c (by simp [hc]))]
      simp
  unfold specCols
  rw [key specs _ hname]
  simp

section
variable {W : World F Obj} {I : St F S → Prop} {base : List (V F)} {ok : OD (V F) → Prop}
  {specs : List (ColSpec F)} {where_ : Option Comma} {gb : Comma} {pass : OD (V F) → Bool} {key : OD (V F) → Str}

/-- The query: every column, the condition and the key are what they are said to be for source rows that
are `ok`. -/
structure Described (H : Host F S) (W : World F Obj) (I : St F S → Prop) (base : List (V F)) (ok : OD (V F) → Prop)
    (specs : List (ColSpec F)) (where_ : Option Comma) (gb : Comma) (pass : OD (V F) → Bool) (key : OD (V F) → Str) : Prop where
  stable : Local I
  names : ∀ c ∈ specs, H.colName c.col = c.name ∧ c.name ≠ bs "*"
  apart : (specs.map (·.name)).Nodup
  nodes : (nodesOf specs).Nodup
  cols : ∀ c ∈ specs, c.Does H W I base ok
  wf : ∀ d, ok d → OD.WF d ∧ ∀ k ∈ OD.keys d, PlainKey k
  filter : ∀ g, Gives H I base ok specs (fun s => passP H where_ s g) pass
  group : Gives H I base ok specs (fun s => do
    let v ← call (.comma gb s)
    H.toStr v s) key

/-- The scope a GROUP BY works in. -/
structure Frames (I : St F S → Prop) (base : List (V F)) (g : Nat) (st : St F S) : Prop where
  inv : I st
  lt : g < st.scopes.length
  vars : (st.scp g).vars = base
  depth : (st.scp g).depth < 998

omit [LawfulFloat F] in
theorem Frames.keep {g : Nat} {st st' : St F S} (h : Frames I base g st) (hi : I st') (hs : st.scopes <+: st'.scopes) :
    Frames I base g st' where
  inv := hi
  lt := Nat.lt_of_lt_of_le h.lt (prefix_len hs)
  vars := by rw [prefix_scp hs h.lt]; exact h.vars
  depth := by rw [prefix_scp hs h.lt]; exact h.depth

theorem group_step (hq : Described H W I base ok specs where_ gb pass key) {g : Nat} {hist new : List (Entry F)}
    {d : OD (V F)} (hok : ok d) {st st' : St F S} (hf : Frames I base g st)
    (h : GroupStep H false (specs.map (·.col)) where_ gb g hist (.dict d) st new st')
    (hctx : ∀ e, lastOf (key d) hist = some e → ∃ ctx, st.ctxs[e.ctx]? = some ctx ∧ PlainAgg ctx) :
    I st' ∧ st.scopes <+: st'.scopes ∧
      if pass d then ∃ c ctx, new = [⟨key d, c, .dict (rowWith W d ctx specs)⟩] ∧
        st'.ctxs[c]? = some (aggSt W ctx (rowCalls specs d)) ∧ PlainAgg (aggSt W ctx (rowCalls specs d)) ∧
        (∀ i x, i ≠ c → st.ctxs[i]? = some x → st'.ctxs[i]? = some x) ∧
        match lastOf (key d) hist with
        | some e => c = e.ctx ∧ st.ctxs[c]? = some ctx
        | none => st.ctxs.length ≤ c ∧ ctx = []
      else new = [] ∧ st.ctxs <+: st'.ctxs := by
  obtain ⟨res, s1, ⟨cell, t0, b, t1, h1, h2, h3⟩, h4⟩ := h
  obtain ⟨hw, hpk⟩ := hq.wf d hok
  obtain ⟨rfl, rfl⟩ := (runs_transform (answers_dict hw hpk)).1 h1
  rw [specCols_specs hq.names] at h2
  -- the state when the condition is evaluated
  generalize ht : ((((st.push g []).push st.scopes.length [.dict d]).addRow
    (specs.map (fun c => (c.name, .col c.col c.name (st.push g []).scopes.length)))).appendVar st.scopes.length
      (.dict d)).appendVar st.scopes.length (.obj (.row (st.push g []).rows.length)) = t at h2
  have hscopes : t.scopes = st.scopes ++ [⟨base ++ [.dict d, .obj (.row st.rows.length)], (st.scp g).depth + 1, some g, none⟩,
      ⟨base ++ [.dict d], (st.scp g).depth + 2, some st.scopes.length, none⟩] := by
    rw [← ht]
    simp [St.appendVar, St.addRow, St.push, St.scp]
    have := hf.vars
    unfold St.scp at this
    exact this
  have hrows : t.rows = st.rows ++ [⟨specs.map (fun c => (c.name, .col c.col c.name (st.scopes.length + 1))), []⟩] := by
    rw [← ht]
    simp [St.appendVar, St.addRow, St.push]
  have hctxs : t.ctxs = st.ctxs := by
    rw [← ht]; rfl
  have hit : I t := by
    refine hq.stable st t ?_ hf.inv
    rw [← ht]; rfl
  have hsa : t.scp st.scopes.length =
      ⟨base ++ [.dict d, .obj (.row st.rows.length)], (st.scp g).depth + 1, some g, none⟩ := by
    unfold St.scp; rw [hscopes]; simp [St.scp]
  have hsn : t.scp (st.scopes.length + 1) =
      ⟨base ++ [.dict d], (st.scp g).depth + 2, some st.scopes.length, none⟩ := by
    unfold St.scp; rw [hscopes]; simp [St.scp]
  have hdep := hf.depth
  have hrow : LazyRow specs base (st.scopes.length + 1) st.rows.length d t := by
    refine ⟨by rw [hscopes]; simp, by rw [hsn], by rw [hsn]; show _ + 2 < 1000; omega,
      ⟨⟨specs.map (fun c => (c.name, .col c.col c.name (st.scopes.length + 1))), []⟩, ?_, rfl, ?_⟩⟩
    · rw [hrows]; simp
    · intro k v hkv; simp [OD.get] at hkv
  have hlt : st.scopes.length < t.scopes.length := by rw [hscopes]; simp
  have hpre : st.scopes <+: t.scopes := by rw [hscopes]; exact List.prefix_append _ _
  obtain ⟨rfl, hh⟩ := hq.filter g t t1 st.scopes.length _ _ d b hit hlt (by rw [hsa])
    (by rw [hsa]; show _ + 1 < 1000; omega) hok hrow h2
  cases hp : pass d with
  | false =>
    simp only [hp, Bool.false_eq_true, if_false] at h3 ⊢
    obtain ⟨rfl, rfl⟩ := h3
    obtain ⟨rfl, rfl⟩ := h4
    exact ⟨hh.inv, hpre.trans hh.scopes, rfl, by rw [← hctxs]; exact hh.ctxs⟩
  | true =>
    simp only [hp, if_true] at h3 ⊢
    obtain ⟨v, s3, k, h5, h6, rfl⟩ := h3
    obtain ⟨c, s2, out, h7, h8, rfl⟩ := h4
    have hsa1 : t1.scp st.scopes.length = t.scp st.scopes.length := prefix_scp hh.scopes hlt
    obtain ⟨rfl, hh2⟩ := hq.group t1 s1 st.scopes.length _ _ d k hh.inv (Nat.lt_of_lt_of_le hlt (prefix_len hh.scopes))
      (by rw [hsa1, hsa]) (by rw [hsa1, hsa]; show _ + 1 < 1000; omega) hok hh.row
      (runs_bind.2 ⟨v, s3, h5, h6⟩)
    have hc1 : st.ctxs <+: s1.ctxs := by
      rw [← hctxs]; exact hh.ctxs.trans hh2.ctxs
    have hsc1 : t.scopes <+: s1.scopes := hh.scopes.trans hh2.scopes
    -- the context of the group
    obtain ⟨ctx, hs2c, hpl, hs2s, hs2r, hs2i, hs2k, hmatch⟩ : ∃ ctx, s2.ctxs[c]? = some ctx ∧ PlainAgg ctx ∧ s2.scopes = s1.scopes ∧ s2.rows = s1.rows ∧ I s2 ∧
        st.ctxs <+: s2.ctxs ∧
        (match lastOf (key d) hist with
        | some e => c = e.ctx ∧ st.ctxs[c]? = some ctx
        | none => st.ctxs.length ≤ c ∧ ctx = []) := by
      cases hl : lastOf (key d) hist with
      | some e =>
        simp only [hl] at h7 ⊢
        obtain ⟨rfl, rfl⟩ := h7
        obtain ⟨ctx, hx, hpl⟩ := hctx e hl
        exact ⟨ctx, prefix_get hc1 hx, hpl, rfl, rfl, hh2.inv, hc1, rfl, hx⟩
      | none =>
        simp only [hl] at h7 ⊢
        obtain ⟨rfl, rfl⟩ := h7
        refine ⟨[], by simp, fun id c h => by simp [OD.get] at h, rfl, rfl, hq.stable s1 _ rfl hh2.inv, hc1.trans (List.prefix_append _ _), prefix_len hc1, rfl⟩
    have hlt1 : st.scopes.length < s2.scopes.length := by
      rw [hs2s]; exact Nat.lt_of_lt_of_le hlt (prefix_len hsc1)
    have hlt2 : st.scopes.length + 1 < s2.scopes.length := by
      rw [hs2s]; exact Nat.lt_of_lt_of_le hrow.lt (prefix_len hsc1)
    have hscn : (s2.setAg st.scopes.length c).scp (st.scopes.length + 1) =
        ⟨base ++ [.dict d], (st.scp g).depth + 2, some st.scopes.length, none⟩ := by
      rw [← hsn, ← prefix_scp hsc1 hrow.lt]
      unfold St.setAg St.scp
      simp only
      rw [List.getElem?_set_ne (by omega), hs2s]
    have hsca : ((s2.setAg st.scopes.length c).scp st.scopes.length).ag = some c := by
      unfold St.setAg St.scp
      simp only
      rw [List.getElem?_set_self hlt1]
      rfl
    have hrow2 : LazyRow specs base (st.scopes.length + 1) st.rows.length d (s2.setAg st.scopes.length c) := by
      refine ⟨?_, by rw [hscn], by rw [hscn]; show _ + 2 < 1000; omega, ?_⟩
      · unfold St.setAg; simpa using hlt2
      · obtain ⟨r, hr, hr2⟩ := hh2.row.row
        refine ⟨r, ?_, hr2⟩
        show s2.rows[_]? = _
        rw [hs2r]; exact hr
    obtain ⟨r, hr, hcols, _⟩ := hrow2.row
    obtain ⟨o, h9, rfl⟩ := (runs_matRow hr).1 h8
    have hnm : r.cols.map (·.1) = specs.map (·.name) := by rw [hcols, List.map_map]; rfl
    rw [hnm] at h9
    obtain ⟨r1, r2, r3, r4, r6, r5⟩ := mat_cols hq.stable hq.cols hq.apart hok (Nat.lt_succ_self _) specs [] [] o ctx
      (s2.setAg st.scopes.length c) st' rfl rfl (hq.stable s2 _ rfl hs2i) hrow2 (by rw [hscn]) (by rw [hscn]) hsca hs2c hpl h9
    have hpre2 : st.scopes <+: st'.scopes := by
      refine List.IsPrefix.trans ?_ r3
      obtain ⟨u, hu⟩ := hpre.trans hsc1
      show st.scopes <+: s2.scopes.set st.scopes.length _
      rw [hs2s, ← hu, List.set_append_right _ _ (Nat.le_refl _)]
      exact List.prefix_append _ _
    refine ⟨r2, hpre2, c, ctx, by rw [r1]; rfl, r4, r6, ?_, hmatch⟩
    intro i x hne hx
    exact r5 i x hne (prefix_get hs2k hx)

/-! ## All rows -/

/-- What is known when the rows that passed so far are `ds`. -/
structure Tally (W : World F Obj) (specs : List (ColSpec F)) (key : OD (V F) → Str) (ds : List (OD (V F)))
    (hist : List (Entry F)) (st : St F S) : Prop where
  keys : hist.map (·.key) = ds.map key
  get : ∀ k e, lastOf k hist = some e →
    e.out = .dict (groupRowOf W specs (ds.filter (fun d => decide (key d = k)))) ∧
    st.ctxs[e.ctx]? = some (aggSt W [] ((ds.filter (fun d => decide (key d = k))).flatMap (rowCalls specs))) ∧
    PlainAgg (aggSt W [] ((ds.filter (fun d => decide (key d = k))).flatMap (rowCalls specs)))
  apart : ∀ k k' e e', lastOf k hist = some e → lastOf k' hist = some e' → k ≠ k' → e.ctx ≠ e'.ctx

omit [LawfulFloat F] in
theorem lastOf_none {k : Str} {hist : List (Entry F)} (h : lastOf k hist = none) : k ∉ hist.map (·.key) := by
  intro hm
  obtain ⟨e, he, rfl⟩ := List.mem_map.1 hm
  unfold lastOf at h
  have := List.find?_eq_none.1 h e (by simpa using he)
  simp at this

theorem grouped_tally (hq : Described H W I base ok specs where_ gb pass key) {g : Nat} :
    ∀ (rest : List (OD (V F))) (ds : List (OD (V F))) (hist out : List (Entry F)) (st st' : St F S),
      (∀ d ∈ rest, ok d) → Frames I base g st → Tally W specs key ds hist st →
      Grouped H false (specs.map (·.col)) where_ gb g hist (rest.map .dict) st out st' →
      Tally W specs key (ds ++ rest.filter pass) out st' := by
  intro rest
  induction rest with
  | nil =>
    intro ds hist out st st' _ _ ht h
    cases h
    simpa using ht
  | cons d rest ih =>
    intro ds hist out st st' hok hf ht h
    rw [List.map_cons] at h
    cases h with
    | @cons _ new _ _ _ _ s1 _ hstep hrest =>
      have hokd := hok d (by simp)
      obtain ⟨hi, hsc, hres⟩ := group_step hq hokd hf hstep (fun e he => ⟨_, (ht.get _ _ he).2⟩)
      have hok' : ∀ d ∈ rest, ok d := fun d hd => hok d (by simp [hd])
      cases hp : pass d with
      | false =>
        simp only [hp, Bool.false_eq_true, if_false] at hres
        obtain ⟨rfl, hpre⟩ := hres
        rw [List.append_nil] at hrest
        rw [List.filter_cons, if_neg (by simp [hp])]
        refine ih ds hist out s1 st' hok' (hf.keep hi hsc) ⟨ht.keys, ?_, ht.apart⟩ hrest
        intro k e he
        exact ⟨(ht.get k e he).1, prefix_get hpre (ht.get k e he).2.1, (ht.get k e he).2.2⟩
      | true =>
        simp only [hp, if_true] at hres
        obtain ⟨c, ctx, rfl, hc, hpl, hother, hm⟩ := hres
        rw [List.filter_cons, if_pos hp]
        have hsplit : ds ++ d :: rest.filter pass = (ds ++ [d]) ++ rest.filter pass := by simp
        rw [hsplit]
        -- the context holds the aggregates of the rows of the group before
        have hctx : ctx = aggSt W [] ((ds.filter (fun x => decide (key x = key d))).flatMap (rowCalls specs)) := by
          cases hl : lastOf (key d) hist with
          | some e =>
            simp only [hl] at hm
            have := (ht.get _ _ hl).2.1
            rw [← hm.1, hm.2] at this
            exact Option.some.inj this
          | none =>
            simp only [hl] at hm
            have hn := lastOf_none hl
            rw [ht.keys] at hn
            have : ds.filter (fun x => decide (key x = key d)) = [] := by
              apply List.filter_eq_nil_iff.2
              intro x hx
              simp only [decide_eq_true_eq]
              intro e
              exact hn (List.mem_map.2 ⟨x, hx, e⟩)
            rw [this, hm.2]
            rfl
        -- no other group has this context
        have hne : ∀ k e, lastOf k hist = some e → k ≠ key d → e.ctx ≠ c := by
          intro k e he hk
          cases hl : lastOf (key d) hist with
          | some e' =>
            simp only [hl] at hm
            rw [hm.1]
            exact ht.apart k (key d) e e' he hl hk
          | none =>
            simp only [hl] at hm
            have h1 := (ht.get k e he).2.1
            intro hcc
            have : e.ctx < st.ctxs.length := by
              rcases Nat.lt_or_ge e.ctx st.ctxs.length with h | h
              · exact h
              · rw [List.getElem?_eq_none h] at h1; cases h1
            omega
        refine ih (ds ++ [d]) _ out s1 st' hok' (hf.keep hi hsc) ⟨?_, ?_, ?_⟩ hrest
        · simp [ht.keys]
        · intro k e he
          rw [lastOf_append] at he
          by_cases hk : key d = k
          · simp only [if_pos hk, Option.some.injEq] at he
            subst he
            subst hk
            have hfil : (ds ++ [d]).filter (fun x => decide (key x = key d)) =
                ds.filter (fun x => decide (key x = key d)) ++ [d] := by simp
            rw [hfil]
            refine ⟨?_, ?_⟩
            · show (Val.dict _ : V F) = _
              rw [hctx, rowWith_eq hq.nodes]
            · have ef : aggSt W [] ((ds.filter (fun x => decide (key x = key d)) ++ [d]).flatMap (rowCalls specs)) =
                  aggSt W ctx (rowCalls specs d) := by
                rw [hctx, ← aggSt_append, List.flatMap_append]
                simp
              rw [ef]
              exact ⟨hc, hpl⟩
          · simp only [if_neg hk] at he
            have hfil : (ds ++ [d]).filter (fun x => decide (key x = k)) = ds.filter (fun x => decide (key x = k)) := by
              simp [hk]
            rw [hfil]
            exact ⟨(ht.get k e he).1, hother _ _ (hne k e he (fun e => hk e.symm)) (ht.get k e he).2.1,
              (ht.get k e he).2.2⟩
        · intro k k' e e' he he' hkk
          rw [lastOf_append] at he he'
          by_cases hk : key d = k
          · simp only [if_pos hk, Option.some.injEq] at he
            have hk' : ¬ key d = k' := fun x => hkk (hk.symm.trans x)
            simp only [if_neg hk'] at he'
            subst he
            exact fun x => hne k' e' he' (fun x => hk' x.symm) x.symm
          · simp only [if_neg hk] at he
            by_cases hk' : key d = k'
            · simp only [if_pos hk', Option.some.injEq] at he'
              subst he'
              exact hne k e he (fun x => hk x.symm)
            · simp only [if_neg hk'] at he'
              exact ht.apart k k' e e' he he' hkk

/-- **C30** A GROUP BY query over source rows `ds` of known columns, whose columns, condition and key are
described by functions of the source row: the result has one row for each distinct key of the rows that
pass, in order of first appearance; in it each aggregate column is the aggregate of exactly the rows of
the group (in order), and each other column has its value for the last row of the group. -/
theorem C30_aggregates_partial {ex : Bool} {from_ : Plugin} {s : Nat} {st st' : St F S} {out : List (V F)}
    {ds : List (OD (V F))} {s1 : St F S}
    (hsrc : Runs H (call (.plugin from_ s)) st (ds.map .dict) s1)
    (hq : Described H W I (s1.scp s).vars ok specs where_ gb pass key)
    (hd : (s1.scp s).depth < 997) (hI : I s1) (hok : ∀ d ∈ ds, ok d)
    (h : Runs H (call (.select (.mk ex false (specs.map (·.col)) from_ where_ (some gb) none none) s)) st out st') :
    out = (firstKeys ((ds.filter pass).map key)).map (fun k =>
      .dict (groupRowOf W specs ((ds.filter pass).filter (fun d => decide (key d = k))))) := by
  obtain ⟨rows, t1, hist, h1, h2, rfl⟩ := C30_groups.1 h
  obtain ⟨hr, rfl⟩ := h1.det hsrc
  subst hr
  have hf : Frames I (t1.scp s).vars t1.scopes.length (t1.push s []) := by
    refine ⟨hq.stable t1 _ rfl hI, by simp, ?_, ?_⟩
    · rw [push_scp]; simp
    · rw [push_scp]; show _ + 1 < 998; omega
  have ht := grouped_tally hq ds [] [] hist (t1.push s []) st' hok hf
    ⟨rfl, fun k e he => by simp [lastOf] at he, fun k k' e e' he => by simp [lastOf] at he⟩ h2
  rw [List.nil_append] at ht
  unfold groupRows
  rw [ht.keys]
  have heq : ∀ (l : List Str) (f : Str → Option (V F)) (g : Str → V F), (∀ k ∈ l, f k = some (g k)) →
      l.filterMap f = l.map g := by
    intro l f g hfg
    induction l with
    | nil => rfl
    | cons k l ih =>
      rw [List.filterMap_cons, hfg k (by simp), List.map_cons, ih (fun k hk => hfg k (by simp [hk]))]
  apply heq
  intro k hk
  cases hl : lastOf k hist with
  | none =>
    have := lastOf_none hl
    rw [ht.keys] at this
    exact absurd (mem_firstKeys.1 hk) this
  | some e =>
    simp only [Option.map_some, (ht.get k e hl).1]

end

/-! ## Columns that are names and calls of the package's aggregates -/

/-- A value that stands for itself: no stored query, function or lazy expression. -/
def Datum (v : V F) : Prop := Plain v ∧ Simple v

/-- The row has a column of this name. -/
def HasDatum (k : String) (d : OD (V F)) : Prop := ∃ v, OD.get d (bs k) = some v ∧ Datum v

/-- The value of the column. -/
def field (k : String) (d : OD (V F)) : V F := (OD.get d (bs k)).getD .null

/-- Every syntax node names one function. -/
def NodesName (nm : Nat → Str) (st : St F S) : Prop := ∀ p ∈ st.fns, p.2 = nm p.1

omit [LawfulFloat F] in
theorem nodesName_local (nm : Nat → Str) : Local (NodesName (F := F) (S := S) nm) := by
  intro st st' hf h p hp
  rw [hf] at hp
  exact h p hp

omit [LawfulFloat F] in
theorem simple_query {v : V F} (h : Simple v) : isQuery v = false := by
  cases v with
  | obj o => cases o <;> simp_all [Simple, isQuery]
  | _ => simp_all [Simple, isQuery]

theorem resolve_last {k : Str} (hk : PlainKey k) {s : Nat} {base : List (V F)} {d : OD (V F)} {v : V F} {st st' : St F S}
    {r : Option (V F) × Bool} (hv : (st.scp s).vars = base ++ [.dict d]) (hd : (st.scp s).depth < 1000)
    (hg : OD.get d k = some v) :
    Runs H (call (.resolve s k)) st r st' ↔ r = (some v, true) ∧ st' = st := by
  rw [runs_resolve hd, hv]
  simp only [List.reverse_append, List.reverse_cons, List.reverse_nil, List.nil_append, List.cons_append]
  rw [runs_resolveLoop_cons]
  constructor
  · rintro ⟨e, b, s1, h1, h2⟩
    obtain ⟨h3, rfl⟩ := (runs_assoc_dict hk).1 h1
    simp only [dictAns, hg] at h3
    cases h3
    simpa using h2
  · rintro ⟨rfl, rfl⟩
    exact ⟨some v, true, _, (runs_assoc_dict hk).2 ⟨by simp [dictAns, hg], rfl⟩, by simp⟩

/-- In the scope of a column a name of the source row is the value of the row. -/
theorem name_last {node : Nat} {k : String} (h1 : splitIdent (bs k) = [bs k]) (h2 : hasMinus [bs k] = false)
    (hk : PlainKey (bs k)) {s : Nat} {base : List (V F)} {d : OD (V F)} {st st' : St F S} {a : V F}
    (hv : (st.scp s).vars = base ++ [.dict d]) (hd : (st.scp s).depth < 1000) (hg : HasDatum k d) :
    Runs H (call (.value (.name node k) s)) st a st' ↔ a = field k d ∧ st' = st.seen node := by
  obtain ⟨v, hv1, hv2⟩ := hg
  have hr : Runs H (call (.resolve s (bs k))) (st.seen node) (some v, true) (st.seen node) :=
    (resolve_last hk (by simpa using hv) (by simpa using hd) hv1).2 ⟨rfl, rfl⟩
  unfold Value.name
  rw [runs_name_plain h1 h2 hr hv2.1]
  simp [field, hv1]

theorem colValue_plain {ns : Nat} {v w : V F} (h : isQuery v = false) {st st' : St F S} :
    Runs H (colValueP ns v) st w st' ↔ w = v ∧ st' = st := by
  have e : (colValueP ns v : Prog F S (V F)) = pure v := by
    unfold colValueP
    cases v <;> simp_all [isQuery]
  rw [e]
  exact runs_pure

/-- The getter of a column that is an expression. -/
theorem runs_getter_expr {e : AndE} {as_ : String} {ns : Nat} {name : Str} {st st' : St F S} {v : V F} :
    Runs H (call (.getter (.col (.ex e as_) name ns))) st v st' ↔
      ∃ a s1, Runs H (call (.and e ns)) ((Prim.eval name ns : Prim F S).step st).2 a s1 ∧ Runs H (colValueP ns a) s1 v st' := by
  rw [runs_call]
  simp only [body]
  rw [runs_pb, runs_bind]
  constructor
  · rintro ⟨a, s1, h1, h2⟩
    rw [runs_call] at h1
    exact ⟨a, s1, h1, h2⟩
  · rintro ⟨a, s1, h1, h2⟩
    refine ⟨a, s1, ?_, h2⟩
    rw [runs_call]
    exact h1

section
variable {W : World F Obj} {base : List (V F)} {ok : OD (V F) → Prop} {nm : Nat → Str}

/-- `k AS as_`: a column of the source row. -/
theorem does_name {node : Nat} {k as_ : String} (h1 : splitIdent (bs k) = [bs k]) (h2 : hasMinus [bs k] = false)
    (hk : PlainKey (bs k)) (hok : ∀ d, ok d → HasDatum k d) :
    (⟨.ex (.val (.name node k)) as_, bs as_, .plain (field k)⟩ : ColSpec F).Does H W (NodesName nm) base ok := by
  intro st st' ns d v hi hlt hv hd hokd h
  obtain ⟨a, s1, h3, h4⟩ := runs_getter_expr.1 h
  rw [runs_and_val] at h3
  obtain ⟨rfl, rfl⟩ := (name_last (st := ((Prim.eval (bs as_) ns : Prim F S).step st).2) h1 h2 hk hv hd
    (hok d hokd)).1 h3
  obtain ⟨x, hx, hx2⟩ := hok d hokd
  have hq : isQuery (field k d) = false := by
    unfold field; rw [hx]; exact simple_query hx2.2
  obtain ⟨rfl, rfl⟩ := (colValue_plain hq).1 h4
  exact ⟨hi, rfl, List.prefix_refl _, List.prefix_refl _, List.prefix_refl _⟩

omit [LawfulFloat F] in
theorem fnStart_same (st : St F S) (node : Nat) (name : String) (s : Nat) (args : List (String × AndE)) :
    (st.fnStart node name s args).scopes = st.scopes ∧ (st.fnStart node name s args).ctxs = st.ctxs ∧
      (st.fnStart node name s args).rows = st.rows := by
  unfold St.fnStart St.fnSeen
  simp only [Prim.step]
  split <;> exact ⟨rfl, rfl, rfl⟩

omit [LawfulFloat F] in
theorem fnStart_names {st : St F S} {node : Nat} {name : String} {s : Nat} {args : List (String × AndE)}
    (h : NodesName nm st) (hn : nm node = bs name) :
    st.Names node name s args ∧ NodesName nm (st.fnStart node name s args) := by
  have hfns : ((st.seen node).lazyArgs s (args.map (·.2))).fns = st.fns := rfl
  unfold St.Names St.fnStart St.fnName St.fnSeen
  simp only [Prim.step]
  cases hf : ((st.seen node).lazyArgs s (args.map (·.2))).fns.find? (fun p => p.1 == node) with
  | none =>
    refine ⟨rfl, ?_⟩
    intro p hp
    rcases List.mem_append.1 hp with hp | hp
    · exact h p hp
    · simp only [List.mem_singleton] at hp
      subst hp
      exact hn.symm
  | some p =>
    have h1 := List.find?_some hf
    have h2 := List.mem_of_find?_eq_some hf
    have h3 : p.1 = node := by simpa using h1
    refine ⟨?_, h⟩
    show p.2 = _
    rw [h p h2, h3, hn]

omit [LawfulFloat F] in
theorem agg_fns [FloatOps F] {W : World F Obj} (st : St F S) (node s : Nat) (op : AggOp F Obj) :
    (st.agg W node s op).2.fns = st.fns := by
  unfold St.agg
  simp only [Prim.step]
  unfold St.getAg
  dsimp only
  cases (st.scp (st.agHolder (s + 1) s)).ag <;> rfl

/-- A column that is one call of an aggregate. -/
theorem does_agg {e : Value} {as_ : String} {node : Nat} {op : OD (V F) → AggOp F Obj}
    (hop : ∀ d, ok d → PlainOp (op d))
    (he : ∀ (st st' : St F S) (ns : Nat) (d : OD (V F)) (a : V F), NodesName nm st →
      (st.scp ns).vars = base ++ [.dict d] → (st.scp ns).depth < 1000 → ok d →
      Runs H (call (.value e ns)) st a st' →
      ∃ s1, NodesName nm s1 ∧ Still st s1 ∧ (a, st') = s1.agg W node ns (op d)) :
    (⟨.ex (.val e) as_, bs as_, .agg node op⟩ : ColSpec F).Does H W (NodesName nm) base ok := by
  intro st st' ns d v hi hlt hv hd hokd h
  obtain ⟨a, s1, h3, h4⟩ := runs_getter_expr.1 h
  rw [runs_and_val] at h3
  obtain ⟨s2, hn, hst, hagg⟩ := he ((Prim.eval (bs as_) ns : Prim F S).step st).2 s1 ns d a hi hv hd hokd h3
  rw [Prod.ext_iff] at hagg
  obtain ⟨ha, hs1⟩ := hagg
  simp only at ha hs1
  have hns1 : NodesName nm s1 := by
    rw [hs1]
    intro p hp
    rw [agg_fns] at hp
    exact hn p hp
  have hnq : isQuery a = false → v = a ∧ st' = s1 := fun hq => (colValue_plain hq).1 h4
  refine ⟨hop d hokd, s2, ⟨hst.scopes, hst.ctxs, hst.rows⟩, ?_⟩
  intro hq
  rw [← ha] at hq
  obtain ⟨rfl, rfl⟩ := hnq hq
  exact ⟨hns1, Prod.ext ha hs1⟩

/-- A name that is one component. -/
structure IsName (k : String) : Prop where
  split : splitIdent (bs k) = [bs k]
  minus : hasMinus [bs k] = false
  key : PlainKey (bs k)

theorem forces_name {node : Nat} {k : String} (hk : IsName k) {s : Nat} {d : OD (V F)} {st st' : St F S} {a : V F}
    (hv : (st.scp s).vars = base ++ [.dict d]) (hd : (st.scp s).depth < 1000) (hg : HasDatum k d)
    (h : Forces H (.val (.name node k)) s st a st') : a = field k d ∧ st' = st.seen node := by
  obtain ⟨r, s1, h1, h2⟩ := h
  rw [runs_and_val] at h1
  obtain ⟨rfl, rfl⟩ := (name_last hk.split hk.minus hk.key hv hd hg).1 h1
  obtain ⟨x, hx, hx2⟩ := hg
  have he : field k d = x := by unfold field; rw [hx]; rfl
  rw [he] at h2 ⊢
  have hs := hx2.2
  cases x with
  | query rows => simp [Simple, isQuery] at hs
  | obj o => cases o <;> simp_all [Simple]
  | _ => exact h2

omit [LawfulFloat F] in
theorem setLazy_same (st : St F S) (c : Nat) (v : V F) : (st.setLazy c v).scopes = st.scopes ∧
    (st.setLazy c v).ctxs = st.ctxs ∧ (st.setLazy c v).rows = st.rows ∧ (st.setLazy c v).fns = st.fns :=
  ⟨rfl, rfl, rfl, rfl⟩

section
variable {matchF : V F → V F → Bool} {fmtV : V F → Str} {colName : Col → Str}
  {num : Str → Option (V F)} {text : Select → Str} {fuel : Nat} {X : Extra F S}

local notation "LH" => libHost W matchF fmtV colName num text fuel X

/-- `count() AS n`. -/
theorem does_count (hx : OD.get X.fns (bs "count") = none) {node : Nat} (hn : nm node = bs "count") {as_ : String} :
    (⟨.ex (.val (.fcall node "count" [])) as_, bs as_, .agg node (fun _ => .count)⟩ : ColSpec F).Does LH W
      (NodesName nm) base ok := by
  refine does_agg (fun _ _ => trivial) ?_
  intro st st' ns d a hi hv hd hok h
  obtain ⟨h1, h2⟩ := fnStart_names (s := ns) (args := []) hi hn
  obtain ⟨e1, e2, e3⟩ := fnStart_same st node "count" ns []
  exact ⟨_, h2, .of_eq e1 e2 e3, (C31_count_evaluates W matchF fmtV colName num text fuel X hx h1).1 h⟩

/-- `sum(item=x) AS n` of integers. -/
theorem does_sum (hx : OD.get X.fns (bs "sum") = none) {node n2 : Nat} (hn : nm node = bs "sum") {x as_ : String}
    (hname : IsName x) (hok : ∀ d, ok d → HasDatum x d ∧ (field x d).toInt64.isSome) :
    (⟨.ex (.val (.fcall node "sum" [("item", .val (.name n2 x))])) as_, bs as_,
      .agg node (fun d => .sum (field x d).toInt64)⟩ : ColSpec F).Does LH W (NodesName nm) base ok := by
  refine does_agg (fun _ _ => trivial) ?_
  intro st st' ns d a hi hv hd hokd h
  obtain ⟨h1, h2⟩ := fnStart_names (s := ns) (args := [("item", .val (.name n2 x))]) hi hn
  obtain ⟨e1, e2, e3⟩ := fnStart_same st node "sum" ns [("item", .val (.name n2 x))]
  have esc : (st.fnStart node "sum" ns [("item", .val (.name n2 x))]).scp ns = st.scp ns := by
    unfold St.scp; rw [e1]
  obtain ⟨v, s1, hf, hm⟩ := (C31_sum_evaluates W matchF fmtV colName num text fuel X hx h1).1 h
  obtain ⟨rfl, rfl⟩ := forces_name (base := base) hname (by rw [esc]; exact hv) (by rw [esc]; exact hd) (hok d hokd).1 hf
  obtain ⟨i, hi2⟩ := Option.isSome_iff_exists.1 (hok d hokd).2
  simp only [hi2] at hm
  refine ⟨_, ?_, ?_, by rw [hi2]; exact hm⟩
  · exact h2
  · exact .of_eq e1 e2 e3

/-- `min(item=x) AS n`. -/
theorem does_min (hx : OD.get X.fns (bs "min") = none) {node n2 : Nat} (hn : nm node = bs "min") {x as_ : String}
    (hname : IsName x) (hok : ∀ d, ok d → HasDatum x d) :
    (⟨.ex (.val (.fcall node "min" [("item", .val (.name n2 x))])) as_, bs as_,
      .agg node (fun d => .min (field x d))⟩ : ColSpec F).Does LH W (NodesName nm) base ok := by
  refine does_agg (fun d hd => ?_) ?_
  · obtain ⟨v, h1, h2⟩ := hok d hd
    show isQuery (field x d) = false
    unfold field; rw [h1]; exact simple_query h2.2
  intro st st' ns d a hi hv hd hokd h
  obtain ⟨h1, h2⟩ := fnStart_names (s := ns) (args := [("item", .val (.name n2 x))]) hi hn
  obtain ⟨e1, e2, e3⟩ := fnStart_same st node "min" ns [("item", .val (.name n2 x))]
  have esc : (st.fnStart node "min" ns [("item", .val (.name n2 x))]).scp ns = st.scp ns := by
    unfold St.scp; rw [e1]
  obtain ⟨v, s1, hf, hm⟩ := (C31_min_evaluates W matchF fmtV colName num text fuel X hx h1).1 h
  obtain ⟨rfl, rfl⟩ := forces_name (base := base) hname (by rw [esc]; exact hv) (by rw [esc]; exact hd) (hok d hokd) hf
  refine ⟨_, ?_, ?_, hm⟩
  · exact h2
  · exact .of_eq e1 e2 e3

/-- `max(item=x) AS n`. -/
theorem does_max (hx : OD.get X.fns (bs "max") = none) {node n2 : Nat} (hn : nm node = bs "max") {x as_ : String}
    (hname : IsName x) (hok : ∀ d, ok d → HasDatum x d) :
    (⟨.ex (.val (.fcall node "max" [("item", .val (.name n2 x))])) as_, bs as_,
      .agg node (fun d => .max (field x d))⟩ : ColSpec F).Does LH W (NodesName nm) base ok := by
  refine does_agg (fun d hd => ?_) ?_
  · obtain ⟨v, h1, h2⟩ := hok d hd
    show isQuery (field x d) = false
    unfold field; rw [h1]; exact simple_query h2.2
  intro st st' ns d a hi hv hd hokd h
  obtain ⟨h1, h2⟩ := fnStart_names (s := ns) (args := [("item", .val (.name n2 x))]) hi hn
  obtain ⟨e1, e2, e3⟩ := fnStart_same st node "max" ns [("item", .val (.name n2 x))]
  have esc : (st.fnStart node "max" ns [("item", .val (.name n2 x))]).scp ns = st.scp ns := by
    unfold St.scp; rw [e1]
  obtain ⟨v, s1, hf, hm⟩ := (C31_max_evaluates W matchF fmtV colName num text fuel X hx h1).1 h
  obtain ⟨rfl, rfl⟩ := forces_name (base := base) hname (by rw [esc]; exact hv) (by rw [esc]; exact hd) (hok d hokd) hf
  refine ⟨_, ?_, ?_, hm⟩
  · exact h2
  · exact .of_eq e1 e2 e3

/-- `enumerate(items=x) AS n`. -/
theorem does_enumerate (hx : OD.get X.fns (bs "enumerate") = none) {node n2 : Nat} (hn : nm node = bs "enumerate")
    {x as_ : String} (hname : IsName x) (hok : ∀ d, ok d → HasDatum x d) :
    (⟨.ex (.val (.fcall node "enumerate" [("items", .val (.name n2 x))])) as_, bs as_,
      .agg node (fun d => .enumerate (field x d))⟩ : ColSpec F).Does LH W (NodesName nm) base ok := by
  refine does_agg (fun d hd => trivial) ?_
  intro st st' ns d a hi hv hd hokd h
  obtain ⟨h1, h2⟩ := fnStart_names (s := ns) (args := [("items", .val (.name n2 x))]) hi hn
  obtain ⟨e1, e2, e3⟩ := fnStart_same st node "enumerate" ns [("items", .val (.name n2 x))]
  have esc : (st.fnStart node "enumerate" ns [("items", .val (.name n2 x))]).scp ns = st.scp ns := by
    unfold St.scp; rw [e1]
  obtain ⟨v, s1, hf, hm⟩ := (C31_enumerate_evaluates W matchF fmtV colName num text fuel X hx h1).1 h
  obtain ⟨rfl, rfl⟩ := forces_name (base := base) hname (by rw [esc]; exact hv) (by rw [esc]; exact hd) (hok d hokd) hf
  refine ⟨_, ?_, ?_, hm⟩
  · exact h2
  · exact .of_eq e1 e2 e3

end

/-! ## The condition and the key -/

/-- No condition. -/
theorem gives_pass {I : St F S → Prop} {specs : List (ColSpec F)} (g : Nat) :
    Gives H I base ok specs (fun s => passP H none s g) (fun _ => true) := by
  intro st st' s ns cell d a hi _ _ _ _ hr h
  obtain ⟨rfl, rfl⟩ := runs_pure.1 h
  exact ⟨rfl, hi, List.prefix_refl _, List.prefix_refl _, hr⟩

/-- A name that is a column of the query and not an aggregate has the value of the column. -/
theorem name_column {I : St F S → Prop} (hI : Local I) {specs : List (ColSpec F)} (hnd : (specs.map (·.name)).Nodup)
    {c : ColSpec F} (hc : c ∈ specs) {f : OD (V F) → V F} (hk : c.kind = .plain f) (hdoes : c.Does H W I base ok)
    {node : Nat} {k : String} (hn : IsName k) (hck : c.name = bs k) (hplain : ∀ d, ok d → Plain (f d))
    {st st' : St F S} {s ns cell : Nat} {d : OD (V F)} {a : V F} (hi : I st) (hs : s < st.scopes.length)
    (hv : (st.scp s).vars = base ++ [.dict d, .obj (.row cell)]) (hd : (st.scp s).depth < 1000) (hok : ok d)
    (hr : LazyRow specs base ns cell d st) (h : Runs H (call (.value (.name node k) s)) st a st') :
    a = f d ∧ Harmless I specs base ns cell d st st' := by
  unfold Value.name at h
  obtain ⟨e, b, s1, h1, h2⟩ := (runs_name hn.split hn.minus).1 h
  have hi1 : I (st.seen node) := hI st _ rfl hi
  obtain ⟨r, hr1, hcols, hcache⟩ := hr.row
  have hmem : bs k ∈ r.cols.map (·.1) := by
    rw [hcols, List.map_map, ← hck]
    exact List.mem_map.2 ⟨c, hc, rfl⟩
  obtain ⟨v, s2, h3, h4, h5⟩ := (C28_where_alias (by simpa using hd) (by simpa using hv) (by simpa using hr1) hmem).1 h1
  cases h4
  have hu : ∀ y ∈ specs, y.name = bs k → y = c := by
    intro y hy e
    exact List.inj_on_of_nodup_map hnd hy hc (e.trans hck.symm)
  -- the value of the column and the state after it
  have hval : v = f d ∧ I s2 ∧ Still st s2 := by
    unfold ColVal at h3
    cases hcv : OD.get r.cache (bs k) with
    | some w =>
      simp only [hcv] at h3
      obtain ⟨rfl, rfl⟩ := h3
      obtain ⟨y, hy, f', hn', hk', hw⟩ := hcache _ _ hcv
      have := hu y hy hn'
      subst this
      rw [hk] at hk'
      cases hk'
      exact ⟨hw, hi1, .of_eq rfl rfl rfl⟩
    | none =>
      simp only [hcv] at h3
      obtain ⟨g, hg, hrun⟩ := h3
      obtain ⟨g', hg', hgm⟩ := getter_of_mem hmem
      rw [hg] at hg'
      cases hg'
      rw [hcols] at hgm
      obtain ⟨y, hy, hye⟩ := List.mem_map.1 hgm
      have := hu y hy (congrArg Prod.fst hye)
      subst this
      have hge : g = .col y.col y.name ns := (congrArg Prod.snd hye).symm
      subst hge
      have hm := hdoes (st.seen node) s2 ns d v hi1 hr.lt hr.vars hr.depth hok hrun
      simp only [hk] at hm
      exact ⟨hm.2.1, hm.1, ⟨hm.2.2.scopes, hm.2.2.ctxs, hm.2.2.rows⟩⟩
  obtain ⟨rfl, hi2, hst⟩ := hval
  have hr2 := prefix_get hst.rows hr1
  have hlt : cell < s2.rows.length := by
    rcases Nat.lt_or_ge cell s2.rows.length with h | h
    · exact h
    · rw [List.getElem?_eq_none h] at hr2; cases hr2
  have base1 : ∀ t : St F S, t.scopes = s2.scopes →
      (∃ r, t.rows[cell]? = some r ∧ r.cols = specs.map (fun c => (c.name, .col c.col c.name ns)) ∧
        ∀ k v, OD.get r.cache k = some v → ∃ c ∈ specs, ∃ f, c.name = k ∧ c.kind = .plain f ∧ v = f d) →
      LazyRow specs base ns cell d t := by
    intro t ht hrow
    have hsc : st.scopes <+: t.scopes := by rw [ht]; exact hst.scopes
    exact ⟨Nat.lt_of_lt_of_le hr.lt (prefix_len hsc), by rw [prefix_scp hsc hr.lt]; exact hr.vars,
      by rw [prefix_scp hsc hr.lt]; exact hr.depth, hrow⟩
  have hh : Harmless I specs base ns cell d st s1 := by
    rw [h5]
    cases hcv : OD.get r.cache (bs k) with
    | some w => exact ⟨hi2, hst.scopes, hst.ctxs, base1 _ rfl ⟨r, hr2, hcols, hcache⟩⟩
    | none =>
      refine ⟨hI s2 _ rfl hi2, hst.scopes, hst.ctxs, base1 _ rfl ⟨{ r with cache := OD.set r.cache (bs k) (f d) }, ?_, hcols, ?_⟩⟩
      · simp only [Prim.step, hr2]
        rw [List.getElem?_set_self hlt]
      · intro j w hj
        by_cases hjk : j = bs k
        · subst hjk
          rw [OD.get_set_self] at hj
          cases hj
          exact ⟨c, hc, f, hck, hk, rfl⟩
        · rw [OD.get_set_ne _ _ hjk] at hj
          exact hcache j w hj
  simp only [if_true, Option.getD_some, symValue_plain (hplain d hok), negateP, Bool.false_eq_true, if_false] at h2
  obtain ⟨rfl, rfl⟩ := runs_pure.1 h2
  exact ⟨rfl, hh⟩

/-- Grouping by a column. -/
theorem gives_key {I : St F S → Prop} (hI : Local I) {specs : List (ColSpec F)} (hnd : (specs.map (·.name)).Nodup)
    {c : ColSpec F} (hc : c ∈ specs) {f : OD (V F) → V F} (hk : c.kind = .plain f) (hdoes : c.Does H W I base ok)
    {node : Nat} {k : String} (hn : IsName k) (hck : c.name = bs k) (hplain : ∀ d, ok d → Plain (f d))
    {key : OD (V F) → Str} (hkey : ∀ d, ok d → ∀ (s : Nat) (st st' : St F S) x, Runs H (H.toStr (f d) s) st x st' →
      x = key d ∧ st' = st) :
    Gives H I base ok specs (fun s => do
      let v ← call (.comma (.val (.name node k)) s)
      H.toStr v s) key := by
  intro st st' s ns cell d a hi hs hv hd hok hr h
  obtain ⟨v, s1, h1, h2⟩ := runs_bind.1 h
  rw [runs_comma_val] at h1
  obtain ⟨rfl, hh⟩ := name_column hI hnd hc hk hdoes hn hck hplain hi hs hv hd hok hr h1
  obtain ⟨rfl, rfl⟩ := hkey d hok _ _ _ _ h2
  exact ⟨rfl, hh⟩

/-! ## What the aggregates are -/

theorem aggLast_count {W : World F Obj} {α : Type} (l : List α) (hne : l ≠ []) :
    aggLast W (l.map (fun _ => (.count : AggOp F Obj))) = .count (BitVec.ofNat 64 l.length) := by
  obtain ⟨n, hn⟩ : ∃ n, l.length = n + 1 := ⟨l.length - 1, by have := List.length_pos_iff.2 hne; omega⟩
  have e : l.map (fun _ => (.count : AggOp F Obj)) = List.replicate (n + 1) .count := by
    rw [← hn]
    exact List.map_const'
  rw [e, hn]
  exact aggLast_of (C31_count W [] n _ (callsOf_map _))

theorem aggLast_sum {W : World F Obj} (l : List I64) (hne : l ≠ []) :
    aggLast W (l.map (fun i => (.sum (some i) : AggOp F Obj))) = .sum (BitVec.ofInt 64 (l.map BitVec.toInt).sum) := by
  have e : sumOf (l.map some) = (l.map BitVec.toInt).sum := by
    unfold sumOf
    congr 2
    induction l with
    | nil => rfl
    | cons a l ih => simp
  rw [← e]
  have e2 : l.map some = (l.dropLast.map some) ++ [some (l.getLast hne)] := by
    conv => lhs; rw [← List.dropLast_append_getLast hne]
    simp
  have e3 : l.map (fun i => (.sum (some i) : AggOp F Obj)) = (l.map some).map .sum := by rw [List.map_map]; rfl
  rw [e3, e2]
  exact aggLast_of (C31_sum W [] _ _ _ (callsOf_map _))

theorem aggLast_enumerate {W : World F Obj} (l : List (V F)) (hne : l ≠ []) :
    aggLast W (l.map (fun v => (.enumerate v : AggOp F Obj))) = .items l :=
  aggLast_of (C31_enumerate W [] l hne _ (callsOf_map _))

theorem aggLast_min {W : World F Obj} (l : List (V F)) (hne : l ≠ []) (ho : Ordered l) :
    ∃ m, aggLast W (l.map (fun v => (.min v : AggOp F Obj))) = .val m ∧ FirstMin (ltV W) l m := by
  obtain ⟨m, h1, h2⟩ := C31_min_partial W [] l hne ho _ (callsOf_map _)
  exact ⟨m, aggLast_of h1, h2⟩

theorem aggLast_max {W : World F Obj} (l : List (V F)) (hne : l ≠ []) (ho : Ordered l) :
    ∃ m, aggLast W (l.map (fun v => (.max v : AggOp F Obj))) = .val m ∧ LastMax (ltV W) l m := by
  obtain ⟨m, h1, h2⟩ := C31_max_partial W [] l hne ho _ (callsOf_map _)
  exact ⟨m, aggLast_of h1, h2⟩

/-! ## A histogram -/

section
variable {matchF : V F → V F → Bool} {fmtV : V F → Str} {colName : Col → Str}
  {num : Str → Option (V F)} {text : Select → Str} {fuel : Nat} {X : Extra F S}

local notation "LH" => libHost W matchF fmtV colName num text fuel X

/-- The text of a value. -/
def strOf : V F → Str
  | .str t => t
  | _ => []

/-- The number of a value. -/
def numberOf : V F → I64
  | .int i => i
  | _ => 0

/-- A row with a text in column `k` and a number in column `x`. -/
def Sample (k x : String) (d : OD (V F)) : Prop :=
  OD.WF d ∧ (∀ j ∈ OD.keys d, PlainKey j) ∧ (∃ t, OD.get d (bs k) = some (.str t)) ∧ ∃ i, OD.get d (bs x) = some (.int i)

/-- A name given to a column. -/
def IsAlias (a : String) : Prop := bs a ≠ [] ∧ bs a ≠ bs "*"

/-- `SELECT k, count() AS n, sum(item=x) AS t FROM .. GROUP BY k`. -/
def histogram (n0 n1 n2 n3 n4 : Nat) (k x n t : String) (from_ : Plugin) : Select :=
  .mk false false [.ex (.val (.name n0 k)) k, .ex (.val (.fcall n1 "count" [])) n,
    .ex (.val (.fcall n2 "sum" [("item", .val (.name n3 x))])) t] from_ none (some (.val (.name n4 k))) none none

/-- **C30** `SELECT k, count() AS n, sum(item=x) AS t FROM .. GROUP BY k` with the functions of the package:
one row for each text of the column `k` in order of first appearance, with the number of the rows having
it and the sum of their numbers `x` (modulo 2^64). -/
theorem C30_histogram_partial {n0 n1 n2 n3 n4 : Nat} {k x n t : String} (hk : IsName k) (hx : IsName x)
    (hnames : [bs k, bs n, bs t].Nodup) (hk2 : IsAlias k) (hn : IsAlias n) (ht : IsAlias t) (hnodes : n1 ≠ n2)
    (hcol : ∀ e a, IsAlias a → colName (.ex e a) = bs a) (hX : OD.get X.fns (bs "count") = none ∧ OD.get X.fns (bs "sum") = none)
    (hn1 : nm n1 = bs "count") (hn2 : nm n2 = bs "sum")
    {from_ : Plugin} {s : Nat} {st s1 st' : St F S} {ds : List (OD (V F))} {out : List (V F)}
    (hsrc : Runs LH (call (.plugin from_ s)) st (ds.map .dict) s1) (hI : NodesName nm s1)
    (hd : (s1.scp s).depth < 997) (hds : ∀ d ∈ ds, Sample k x d)
    (h : Runs LH (call (.select (histogram n0 n1 n2 n3 n4 k x n t from_) s)) st out st') :
    out = (firstKeys (ds.map (fun d => strOf (field k d)))).map (fun c =>
      let g := ds.filter (fun d => decide (strOf (field k d) = c))
      .dict [(bs k, .str c), (bs n, .int (BitVec.ofNat 64 g.length)),
        (bs t, .int (BitVec.ofInt 64 (g.map (fun d => (numberOf (field x d)).toInt)).sum))]) := by
  have hdk : ∀ d : OD (V F), Sample k x d → HasDatum k d := by
    rintro d ⟨_, _, ⟨u, hu⟩, _⟩
    exact ⟨_, hu, trivial, rfl⟩
  have hdx : ∀ d : OD (V F), Sample k x d → HasDatum x d ∧ (field x d).toInt64.isSome := by
    rintro d ⟨_, _, _, ⟨i, hi⟩⟩
    refine ⟨⟨_, hi, trivial, rfl⟩, ?_⟩
    unfold field
    rw [hi]
    rfl
  let specs : List (ColSpec F) := [⟨.ex (.val (.name n0 k)) k, bs k, .plain (field k)⟩,
    ⟨.ex (.val (.fcall n1 "count" [])) n, bs n, .agg n1 (fun _ => .count)⟩,
    ⟨.ex (.val (.fcall n2 "sum" [("item", .val (.name n3 x))])) t, bs t, .agg n2 (fun d => .sum (field x d).toInt64)⟩]
  have hcols : ∀ c ∈ specs, c.Does LH W (NodesName nm) (s1.scp s).vars (Sample k x) := by
    intro c hc
    simp only [specs, List.mem_cons, List.not_mem_nil, or_false] at hc
    rcases hc with rfl | rfl | rfl
    · exact does_name hk.split hk.minus hk.key hdk
    · exact does_count hX.1 hn1
    · exact does_sum hX.2 hn2 hx hdx
  have hnd : (specs.map (·.name)).Nodup := hnames
  have hq : Described LH W (NodesName nm) (s1.scp s).vars (Sample k x) specs none (.val (.name n4 k)) (fun _ => true)
      (fun d => strOf (field k d)) := by
    refine ⟨nodesName_local nm, ?_, hnd, ?_, hcols, fun d hd => ⟨hd.1, hd.2.1⟩, fun g => gives_pass g, ?_⟩
    · intro c hc
      simp only [specs, List.mem_cons, List.not_mem_nil, or_false] at hc
      rcases hc with rfl | rfl | rfl
      · exact ⟨hcol _ _ hk2, hk2.2⟩
      · exact ⟨hcol _ _ hn, hn.2⟩
      · exact ⟨hcol _ _ ht, ht.2⟩
    · simpa [specs, nodesOf] using hnodes
    · refine gives_key (nodesName_local nm) hnd (c := ⟨.ex (.val (.name n0 k)) k, bs k, .plain (field k)⟩) (by simp [specs])
        rfl (hcols _ (by simp [specs])) hk rfl ?_ ?_
      · intro d hd
        obtain ⟨v, h1, h2⟩ := hdk d hd
        unfold field; rw [h1]; exact h2.1
      · intro d hd s st st' y hy
        obtain ⟨_, _, ⟨u, hu⟩, _⟩ := hd
        have e : field k d = .str u := by unfold field; rw [hu]; rfl
        rw [e] at hy ⊢
        exact runs_pure.1 hy
  have hres := C30_aggregates_partial (ex := false) hsrc hq hd hI hds h
  rw [hres]
  have hft : ds.filter (fun _ => true) = ds := by simp
  rw [hft]
  apply List.map_congr_left
  intro c hc
  have hmem := mem_firstKeys.1 hc
  obtain ⟨d0, hd0, hc0⟩ := List.mem_map.1 hmem
  dsimp only
  have hne : ds.filter (fun d => decide (strOf (field k d) = c)) ≠ [] := by
    intro e
    have := List.filter_eq_nil_iff.1 e d0 hd0
    simp [hc0] at this
  have hall : ∀ d ∈ ds.filter (fun d => decide (strOf (field k d) = c)), Sample k x d ∧ strOf (field k d) = c := by
    intro d hd
    have := List.mem_filter.1 hd
    exact ⟨hds d this.1, by simpa using this.2⟩
  generalize ds.filter (fun d => decide (strOf (field k d) = c)) = g at hne hall
  congr 1
  simp only [groupRowOf, specs, List.map_cons, List.map_nil, ColKind.result]
  have e1 : (g.getLast?.map (field k)).getD .null = .str c := by
    rw [List.getLast?_eq_some_getLast hne]
    obtain ⟨⟨_, _, ⟨u, hu⟩, _⟩, h2⟩ := hall _ (List.getLast_mem hne)
    simp only [Option.map_some, Option.getD_some]
    unfold field at h2 ⊢
    rw [hu] at h2 ⊢
    simp only [Option.getD_some, strOf] at h2 ⊢
    rw [h2]
  have e2 : g.map (fun d => (.sum (field x d).toInt64 : AggOp F Obj)) =
      (g.map (fun d => numberOf (field x d))).map (fun i => .sum (some i)) := by
    rw [List.map_map]
    apply List.map_congr_left
    intro d hd
    obtain ⟨⟨_, _, _, ⟨i, hi⟩⟩, _⟩ := hall d hd
    unfold field
    simp only [Function.comp, hi, Option.getD_some, numberOf]
    rfl
  rw [e1, aggLast_count g hne, e2, aggLast_sum _ (by simpa using hne), List.map_map]
  rfl

end

end

end

/-! ## Example -/

/-- A host with the functions of the package and a plugin that gives these rows. -/
def histHost (rows : List (V F64)) : Host F64 Unit :=
  libHost {} (fun _ _ => false) (fun _ => bs "?") demoName demoNum (fun _ => []) 50
    { plugins := [(bs "src", fun _ _ => pure rows)] }

/-- A row of the example. -/
def histRow (k : String) (x : Int) : OD (V F64) := [(bs "k", .str (bs k)), (bs "x", .int (BitVec.ofInt 64 x))]

example :
    (match exec (histHost (([histRow "a" 1, histRow "b" 10, histRow "a" 3, histRow "a" (-7)]).map .dict)) 80
        (call (.select (histogram 0 1 2 3 4 "k" "x" "n" "t" (.src "src")) 0)) (St.init []) with
      | some (r, st) => decide (st.log = []) && sameV (.arr r) (.arr [
          .dict [(bs "k", .str (bs "a")), (bs "n", .int 3#64), (bs "t", .int (BitVec.ofInt 64 (-3)))],
          .dict [(bs "k", .str (bs "b")), (bs "n", .int 1#64), (bs "t", .int 10#64)]])
      | none => false) = true := by decide +kernel

example : IsName "k" := ⟨by decide +kernel, by decide +kernel, by unfold PlainKey; decide +kernel⟩
example : ∀ e a, IsAlias a → demoName (.ex e a) = bs a := by
  intro e a ha
  unfold Col.ex demoName
  cases h : bs a with
  | nil => exact absurd h ha.1
  | cons x l => rfl

end Vfilter.Vql
