import Verif.EvalDemo
/-!
# C41, C42: subselect columns and SELECT from a variable
-/
set_option linter.all false

namespace Vfilter.Vql

section
variable {F S : Type} [FloatOps F] {H : Host F S}

/-! ## C42: FROM a variable -/

/-- The stages of `FROM name` without parentheses: the name is looked up, then the value it
stands for is turned into rows. -/
theorem plugin_runs {name : Str} {args : List Arg} {s : Nat} {st st' : St F S} {rows : List (V F)} :
    Runs H (call (.plugin (.mk name false args) s)) st rows st' ↔
      ∃ found s1, Runs H (findP H.isPlugin Obj.plugin false (splitIdent name) s) st found s1 ∧
        match found with
        | none => rows = [] ∧ st' = { s1 with log := s1.log ++ [bs "ERROR: Plugin not found " ++ name] }
        | some v => Runs H (call (.evalSymbol v s)) s1 rows st' := by
  rw [runs_call]
  simp only [body, runs_bind]
  constructor
  · rintro ⟨found, s1, h1, h2⟩
    refine ⟨found, s1, h1, ?_⟩
    cases found with
    | none =>
      exact runs_pure.1 (runs_pb.1 h2)
    | some v => simpa using h2
  · rintro ⟨found, s1, h1, h2⟩
    refine ⟨found, s1, h1, ?_⟩
    cases found with
    | none =>
      exact runs_pb.2 (runs_pure.2 h2)
    | some v => simpa using h2

/-- **C42** An unknown symbol yields no rows and no failure: evaluation goes on with only a
log message added. -/
theorem C42_unknown {name : Str} {args : List Arg} {s : Nat} {st s1 : St F S}
    (h : Runs H (findP H.isPlugin Obj.plugin false (splitIdent name) s) st none s1) :
    Runs H (call (.plugin (.mk name false args) s)) st []
      { s1 with log := s1.log ++ [bs "ERROR: Plugin not found " ++ name] } :=
  plugin_runs.2 ⟨none, s1, h, rfl, rfl⟩

theorem evalSymbol_runs {v : V F} {s : Nat} {st st' : St F S} {rows : List (V F)}
    (hd : (st.scp s).depth < 1000) :
    Runs H (call (.evalSymbol v s)) st rows st' ↔
      match v with
      | .obj (.sexpr e) => ∃ r s1, Runs H (call (.and e.body s)) st r s1 ∧
          Runs H (call (.evalSymbol r s)) s1 rows st'
      | .arr l => rows = l ∧ st' = st
      | v => if isQuery v then Runs H (call (.evalQuery v s)) st rows st' else rows = [v] ∧ st' = st := by
  rw [runs_call]
  simp only [body]
  have ho : overflow (st.scp s).depth = false := by simp [overflow]; omega
  rw [runs_pb]
  simp only [Prim.step, ho, Bool.false_eq_true, if_false]
  cases v with
  | obj o =>
    cases o <;> simp [isQuery, runs_bind]
  | _ => simp [isQuery]

/-- **C42** `FROM x` where the symbol path `x` leads to an array: its elements in order. -/
theorem C42_array {name : Str} {args : List Arg} {s : Nat} {st s1 st' : St F S} {l rows : List (V F)}
    (h : Runs H (findP H.isPlugin Obj.plugin false (splitIdent name) s) st (some (.arr l)) s1)
    (hd : (s1.scp s).depth < 1000) :
    Runs H (call (.plugin (.mk name false args) s)) st rows st' ↔ rows = l ∧ st' = s1 := by
  rw [plugin_runs]
  constructor
  · rintro ⟨found, s2, h1, h2⟩
    obtain ⟨rfl, rfl⟩ := h1.det h
    simpa using (evalSymbol_runs hd).1 h2
  · rintro ⟨rfl, rfl⟩
    exact ⟨_, _, h, (evalSymbol_runs hd).2 (by simp)⟩

/-- **C42** `FROM x` where `x` is a stored query (`LET x = SELECT ..`): the rows of the
query, evaluated in a copy of the scope of the reference. -/
theorem C42_query {name : Str} {args : List Arg} {s : Nat} {st s1 st' : St F S} {q : SQuery}
    {rows : List (V F)}
    (h : Runs H (findP H.isPlugin Obj.plugin false (splitIdent name) s) st (some (.obj (.squery q))) s1)
    (hd : (s1.scp s).depth < 1000) :
    Runs H (call (.plugin (.mk name false args) s)) st rows st' ↔
      Runs H (call (.select q.query s1.scopes.length)) ((Prim.copy s).step s1).2 rows st' := by
  have hq : ∀ st2 : St F S, Runs H (call (.evalQuery (.obj (.squery q)) s)) st2 rows st' ↔
      Runs H (call (.select q.query st2.scopes.length)) ((Prim.copy s).step st2).2 rows st' := by
    intro st2
    conv => lhs; rw [runs_call]
    simp only [body]
    exact runs_pb
  rw [plugin_runs]
  constructor
  · rintro ⟨found, s2, h1, h2⟩
    obtain ⟨rfl, rfl⟩ := h1.det h
    have := (evalSymbol_runs hd).1 h2
    simp only [isQuery, if_true] at this
    exact (hq _).1 this
  · intro hr
    refine ⟨_, _, h, (evalSymbol_runs hd).2 ?_⟩
    simp only [isQuery, if_true]
    exact (hq _).2 hr

/-- **C42** `FROM x` where `x` is a materialized query (`LET x <= SELECT ..`): its rows. -/
theorem C42_materialized {name : Str} {args : List Arg} {s : Nat} {st s1 st' : St F S}
    {l rows : List (V F)}
    (h : Runs H (findP H.isPlugin Obj.plugin false (splitIdent name) s) st (some (.query l)) s1)
    (hd : (s1.scp s).depth < 1000) :
    Runs H (call (.plugin (.mk name false args) s)) st rows st' ↔ rows = l ∧ st' = s1 := by
  have hq : Runs H (call (.evalQuery (.query l) s)) s1 rows st' ↔ rows = l ∧ st' = s1 := by
    conv => lhs; rw [runs_call]
    simp [body]
  rw [plugin_runs, ← hq]
  constructor
  · rintro ⟨found, s2, h1, h2⟩
    obtain ⟨rfl, rfl⟩ := h1.det h
    have := (evalSymbol_runs hd).1 h2
    simpa only [isQuery, if_true] using this
  · intro hr
    refine ⟨_, _, h, (evalSymbol_runs hd).2 ?_⟩
    simpa only [isQuery, if_true] using hr

/-- **C42** `FROM x` where `x` is a LET expression: the expression is evaluated in the scope
of the reference and its value takes the place of `x`. -/
theorem C42_expression {name : Str} {args : List Arg} {s : Nat} {st s1 st' : St F S} {e : SExpr}
    {rows : List (V F)}
    (h : Runs H (findP H.isPlugin Obj.plugin false (splitIdent name) s) st (some (.obj (.sexpr e))) s1)
    (hd : (s1.scp s).depth < 1000) :
    Runs H (call (.plugin (.mk name false args) s)) st rows st' ↔
      ∃ v s2, Runs H (call (.and e.body s)) s1 v s2 ∧ Runs H (call (.evalSymbol v s)) s2 rows st' := by
  rw [plugin_runs]
  constructor
  · rintro ⟨found, s2, h1, h2⟩
    obtain ⟨rfl, rfl⟩ := h1.det h
    simpa using (evalSymbol_runs hd).1 h2
  · intro hr
    exact ⟨_, _, h, (evalSymbol_runs hd).2 (by simpa using hr)⟩

/-- A value that is neither a LET expression nor a query nor an array. -/
def Single : V F → Prop
  | .obj (.sexpr _) => False
  | .arr _ => False
  | v => isQuery v = false

/-- **C42** `FROM x` for any other value: the value itself is the only row. -/
theorem C42_single {name : Str} {args : List Arg} {s : Nat} {st s1 st' : St F S} {v : V F}
    {rows : List (V F)}
    (h : Runs H (findP H.isPlugin Obj.plugin false (splitIdent name) s) st (some v) s1)
    (hv : Single v) (hd : (s1.scp s).depth < 1000) :
    Runs H (call (.plugin (.mk name false args) s)) st rows st' ↔ rows = [v] ∧ st' = s1 := by
  have hs : Runs H (call (.evalSymbol v s)) s1 rows st' ↔ rows = [v] ∧ st' = s1 := by
    rw [evalSymbol_runs hd]
    cases v with
    | obj o => cases o <;> simp_all [Single, isQuery]
    | _ => simp_all [Single, isQuery]
  rw [plugin_runs, ← hs]
  constructor
  · rintro ⟨found, s2, h1, h2⟩
    obtain ⟨rfl, rfl⟩ := h1.det h
    exact h2
  · intro hr
    exact ⟨_, _, h, hr⟩

/-- A variable of a scope made of dictionaries is found by its name; nothing is evaluated. -/
theorem find_var {isReg : Str → Bool} {mk : Str → Obj} {x : Str} (hx : PlainKey x) {s : Nat}
    {st st' : St F S} {ds : List (OD (V F))} (hd : (st.scp s).depth < 1000)
    (hv : (st.scp s).vars = ds.map .dict) {r : Option (V F)} :
    Runs H (findP isReg mk false [x] s) st r st' ↔
      match lookup ds x with
      | some v => r = some v ∧ st' = st
      | none => r = none ∧ st' = { st with log := st.log ++ [bs "ERROR: not found " ++ x] } := by
  simp only [findP, Bool.false_eq_true, false_and, if_false]
  rw [runs_walk_one]
  simp only [resolve_dicts hx hd hv, Prod.mk.injEq]
  cases h : lookup ds x with
  | none =>
    constructor
    · rintro ⟨e, b, s1, ⟨⟨rfl, rfl⟩, rfl⟩, h2⟩
      simpa using h2
    · rintro ⟨rfl, rfl⟩
      exact ⟨_, _, _, ⟨⟨rfl, rfl⟩, rfl⟩, by simp⟩
  | some v =>
    constructor
    · rintro ⟨e, b, s1, ⟨⟨rfl, rfl⟩, rfl⟩, h2⟩
      simpa using h2
    · rintro ⟨rfl, rfl⟩
      exact ⟨_, _, _, ⟨⟨rfl, rfl⟩, rfl⟩, by simp⟩

/-- **C42** For a variable `x` bound to an array: `FROM x` gives its elements, for every
scope made of dictionaries. -/
theorem C42_variable_array {name x : Str} {args : List Arg} {s : Nat} {st st' : St F S}
    {ds : List (OD (V F))} {l rows : List (V F)} (hn : splitIdent name = [x]) (hx : PlainKey x)
    (hd : (st.scp s).depth < 1000) (hv : (st.scp s).vars = ds.map .dict)
    (hl : lookup ds x = some (.arr l)) :
    Runs H (call (.plugin (.mk name false args) s)) st rows st' ↔ rows = l ∧ st' = st := by
  refine C42_array ?_ hd
  rw [hn, find_var hx hd hv, hl]
  simp

/-- **C42** For a variable bound to a plain value: the value is the only row. -/
theorem C42_variable_single {name x : Str} {args : List Arg} {s : Nat} {st st' : St F S}
    {ds : List (OD (V F))} {v : V F} {rows : List (V F)} (hn : splitIdent name = [x])
    (hx : PlainKey x) (hd : (st.scp s).depth < 1000) (hv : (st.scp s).vars = ds.map .dict)
    (hl : lookup ds x = some v) (hs : Single v) :
    Runs H (call (.plugin (.mk name false args) s)) st rows st' ↔ rows = [v] ∧ st' = st := by
  refine C42_single ?_ hs hd
  rw [hn, find_var hx hd hv, hl]
  simp

/-- **C42** For an unbound name: no rows, and the only effect is two log messages. -/
theorem C42_variable_unknown {name x : Str} {args : List Arg} {s : Nat} {st : St F S}
    {ds : List (OD (V F))} (hn : splitIdent name = [x])
    (hx : PlainKey x) (hd : (st.scp s).depth < 1000) (hv : (st.scp s).vars = ds.map .dict)
    (hl : lookup ds x = none) :
    ∃ msgs, Runs H (call (.plugin (.mk name false args) s)) st [] { st with log := st.log ++ msgs } := by
  refine ⟨[bs "ERROR: not found " ++ x, bs "ERROR: Plugin not found " ++ name], ?_⟩
  have h := C42_unknown (H := H) (name := name) (args := args) (s := s) (st := st)
    (s1 := { st with log := st.log ++ [bs "ERROR: not found " ++ x] }) (by
      rw [hn, find_var hx hd hv, hl]
      simp)
  simpa using h

/-! ## C41: subselect columns -/

/-- A row with exactly one column stands for the value of that column. -/
def unwrapRow : OD (V F) → V F
  | [(_, v)] => v
  | d => .dict d

/-- A list of exactly one item stands for the item. -/
def unwrapList : List (V F) → V F
  | [v] => v
  | l => .arr l

theorem runs_unwrap_dict {d : OD (V F)} {s : Nat} {st st' : St F S} {r : List (V F)}
    (hk : ∀ k ∈ OD.keys d, PlainKey k) :
    Runs H (unwrapP s (.dict d)) st r st' ↔ r = [unwrapRow d] ∧ st' = st := by
  simp only [unwrapP, runs_bind]
  constructor
  · rintro ⟨ms, s1, h1, h2⟩
    obtain ⟨rfl, rfl⟩ := runs_members_dict.1 h1
    match d, hk with
    | [], _ => simpa [OD.keys, unwrapRow] using h2
    | [(k, v)], hk =>
      simp only [OD.keys, List.map_cons, List.map_nil, runs_bind] at h2
      obtain ⟨⟨e, b⟩, s2, h3, h4⟩ := h2
      obtain ⟨h5, rfl⟩ := (runs_assoc_dict (hk k (by simp [OD.keys]))).1 h3
      simp only [dictAns, OD.get, if_true, Option.isSome_some, Prod.mk.injEq] at h5
      obtain ⟨rfl, rfl⟩ := h5
      simpa [unwrapRow] using h4
    | (k, v) :: p :: d, _ => simpa [OD.keys, unwrapRow] using h2
  · rintro ⟨rfl, rfl⟩
    refine ⟨_, _, runs_members_dict.2 ⟨rfl, rfl⟩, ?_⟩
    match d, hk with
    | [], _ => simp [OD.keys, unwrapRow]
    | [(k, v)], hk =>
      simp only [OD.keys, List.map_cons, List.map_nil, runs_bind]
      refine ⟨(some v, true), _, (runs_assoc_dict (hk k (by simp [OD.keys]))).2 ⟨?_, rfl⟩, ?_⟩
      · simp [dictAns, OD.get]
      · simp [unwrapRow]
    | (k, v) :: p :: d, _ => simp [OD.keys, unwrapRow]

theorem chain_unwrap {s : Nat} : ∀ (ds : List (OD (V F))) (acc out : List (V F)) (st st' : St F S),
    (∀ d ∈ ds, ∀ k ∈ OD.keys d, PlainKey k) →
    (Runs H (foldP (fun acc i => do
        let r ← unwrapP s i
        pure (acc ++ r)) acc (ds.map .dict)) st out st' ↔ out = acc ++ ds.map unwrapRow ∧ st' = st)
  | [], acc, out, st, st', _ => by simp [foldP]
  | d :: ds, acc, out, st, st', hk => by
    simp only [List.map_cons, foldP, runs_bind]
    constructor
    · rintro ⟨a, s1, ⟨r, s2, h1, h2⟩, h3⟩
      obtain ⟨rfl, rfl⟩ := (runs_unwrap_dict (hk d (by simp))).1 h1
      obtain ⟨rfl, rfl⟩ := runs_pure.1 h2
      have := (chain_unwrap ds _ _ _ _ (fun d hd => hk d (by simp [hd]))).1 h3
      simpa using this
    · rintro ⟨rfl, rfl⟩
      refine ⟨acc ++ [unwrapRow d], _,
        ⟨_, _, (runs_unwrap_dict (hk d (by simp))).2 ⟨rfl, rfl⟩, runs_pure.2 ⟨rfl, rfl⟩⟩, ?_⟩
      exact (chain_unwrap ds _ _ _ _ (fun d hd => hk d (by simp [hd]))).2 (by simp)

/-- **C41** A `{ SELECT }` column is the list of the rows of the query, a row of one column
replaced by its value, and a list of one item by the item.  (Stated for queries whose rows
are dictionaries, as all rows of a SELECT are (`select_dicts`), with column names other
than the built-in `@Items` and so on.) -/
theorem C41_unwrap {q : Select} {as_ : Str} {s : Nat} {st st' : St F S} {v : V F}
    {ds : List (OD (V F))} (hq : Runs H (call (.select q s)) st (ds.map .dict) st')
    (hk : ∀ d ∈ ds, ∀ k ∈ OD.keys d, PlainKey k) {st2 : St F S} :
    Runs H (call (.col (.mk (.select q) as_) s)) st v st2 ↔
      v = unwrapList (ds.map unwrapRow) ∧ st2 = st' := by
  have hm : ∀ l : List (V F), Runs H (match l with | [x] => pure x | rows => pure (.arr rows) : Prog F S (V F))
      st' v st2 ↔ v = unwrapList l ∧ st2 = st' := by
    intro l
    unfold unwrapList
    split <;> simp
  conv => lhs; rw [runs_call]
  simp only [body]
  constructor
  · intro h
    obtain ⟨items, s1, h1, h2⟩ := runs_bind.1 h
    obtain ⟨rfl, rfl⟩ := h1.det hq
    obtain ⟨rows, s2, h3, h4⟩ := runs_bind.1 h2
    obtain ⟨rfl, rfl⟩ := (chain_unwrap ds [] rows _ _ hk).1 h3
    exact (hm _).1 h4
  · intro h
    refine runs_bind.2 ⟨_, _, hq, runs_bind.2 ⟨_, _, (chain_unwrap ds [] _ _ _ hk).2 ⟨rfl, rfl⟩, ?_⟩⟩
    exact (hm _).2 h

/-- **C41** Every `{ SELECT }` column: its rows are dictionaries, and its value is the
unwrapped list. -/
theorem C41_column (hs : SortOK H) {q : Select} {as_ : Str} {s : Nat} {st st' : St F S} {v : V F}
    (h : Runs H (call (.col (.mk (.select q) as_) s)) st v st') :
    ∃ (ds : List (OD (V F))) (s1 : St F S), Runs H (call (.select q s)) st (ds.map .dict) s1 ∧
      ((∀ d ∈ ds, ∀ k ∈ OD.keys d, PlainKey k) → v = unwrapList (ds.map unwrapRow) ∧ st' = s1) := by
  have h' := h
  rw [runs_call] at h
  simp only [body] at h
  obtain ⟨items, s1, h1, _⟩ := runs_bind.1 h
  have hd := select_dicts hs h1
  obtain ⟨ds, rfl⟩ := all_dicts items hd
  exact ⟨ds, s1, h1, fun hk => (C41_unwrap h1 hk).1 h'⟩

end

/-! ## Examples -/

/-- `SELECT { SELECT a FROM src } AS x FROM scope()`: a list of the values. -/
example : gives demoSrc [] (.mk false false [.mk (.select (.mk false false
      [.mk (.expr (.val (.name 0 "a"))) []] (.src "src") none none none none)) (bs "x")]
    (.src "scope") none none none none)
    [.dict [(bs "x", .arr [.int 1#64, .int 2#64, .int 3#64])]] = true := by decide +kernel

/-- With one row: the value itself.  With two columns: the row. -/
example : gives demoSrc [] (.mk false false [.mk (.select (.mk false false
      [.mk (.expr (.val (.name 0 "a"))) []] (.src "src") none none none (some 1#64))) (bs "x"),
      .mk (.select (.mk false true [] (.src "src") none none none (some 1#64))) (bs "y")]
    (.src "scope") none none none none)
    [.dict [(bs "x", .int 1#64), (bs "y", .dict [(bs "a", .int 1#64), (bs "b", .str (bs "x"))])]]
    = true := by decide +kernel

/-- `SELECT * FROM x` for an array of dictionaries, an unknown name, a plain value. -/
example : gives [] [(bs "x", .arr [.dict [(bs "a", .int 1#64)], .dict [(bs "a", .int 2#64)]])]
    (.mk false true [] (.mk (bs "x") false []) none none none none)
    [.dict [(bs "a", .int 1#64)], .dict [(bs "a", .int 2#64)]] = true := by decide +kernel
example : gives [] [] (.mk false true [] (.mk (bs "x") false []) none none none none) [] = true := by
  decide +kernel
example : gives [] [(bs "x", .dict [(bs "a", .int 1#64)])]
    (.mk false true [] (.mk (bs "x") false []) none none none none)
    [.dict [(bs "a", .int 1#64)]] = true := by decide +kernel
/-- A value without members is a row without columns. -/
example : gives [] [(bs "x", .int 5#64)]
    (.mk false true [] (.mk (bs "x") false []) none none none none) [.dict []] = true := by decide +kernel

end Vfilter.Vql
