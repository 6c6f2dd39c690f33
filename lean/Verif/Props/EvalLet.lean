import Verif.Props.EvalWhere
/-!
# C33, C34: LET by name and by value, calling LET functions
-/
set_option linter.all false

namespace Vfilter.Vql

section
variable {F S : Type} [FloatOps F] {H : Host F S}

/-! ## Lookup when the innermost variables are dictionaries -/

/-- A name defined by one of the innermost dictionaries refers to the last of them that has
it, whatever the other variables are. -/
theorem resolve_inner {s : Nat} {k : Str} (hk : PlainKey k) {st st' : St F S}
    {r : Option (V F) × Bool} {base : List (V F)} {ds : List (OD (V F))} {v : V F}
    (hd : (st.scp s).depth < 1000)
    (hv : (st.scp s).vars = base ++ ds.map .dict) (hl : lookup ds k = some v) :
    Runs H (call (.resolve s k)) st r st' ↔ r = (some v, true) ∧ st' = st := by
  have loop : ∀ (l : List (OD (V F))) (rest : List (V F)) d, l.findSome? (fun d => OD.get d k) = some v →
      (Runs H (resolveLoopP s k d (l.map .dict ++ rest)) st r st' ↔ r = (some v, true) ∧ st' = st) := by
    intro l
    induction l with
    | nil => intro rest d h; simp at h
    | cons x l ih =>
      intro rest d h
      rw [List.map_cons, List.cons_append, runs_resolveLoop_cons]
      simp only [runs_assoc_dict hk, dictAns, Prod.mk.injEq]
      rw [List.findSome?_cons] at h
      cases hg : OD.get x k with
      | none =>
        simp only [hg] at h
        constructor
        · rintro ⟨e, b, s1, ⟨⟨rfl, rfl⟩, rfl⟩, h2⟩
          simp only [Option.isSome_none, Bool.false_eq_true, if_false, Bool.false_and] at h2
          exact (ih _ _ h).1 h2
        · intro h2
          refine ⟨_, _, _, ⟨⟨rfl, rfl⟩, rfl⟩, ?_⟩
          simp only [Option.isSome_none, Bool.false_eq_true, if_false, Bool.false_and]
          exact (ih _ _ h).2 h2
      | some w =>
        simp only [hg, Option.some.injEq] at h
        subst h
        constructor
        · rintro ⟨e, b, s1, ⟨⟨rfl, rfl⟩, rfl⟩, h2⟩
          simpa using h2
        · rintro ⟨rfl, rfl⟩
          exact ⟨_, _, _, ⟨⟨rfl, rfl⟩, rfl⟩, by simp⟩
  rw [runs_resolve hd, hv, List.reverse_append, ← List.map_reverse]
  exact loop _ _ _ hl

/-- A name that the innermost dictionaries do not have is looked up in the rest. -/
theorem resolve_outer {s : Nat} {k : Str} (hk : PlainKey k) {st st' : St F S}
    {r : Option (V F) × Bool} {base : List (V F)} {ds : List (OD (V F))}
    (hd : (st.scp s).depth < 1000)
    (hv : (st.scp s).vars = base ++ ds.map .dict) (hl : lookup ds k = none) :
    Runs H (call (.resolve s k)) st r st' ↔ Runs H (resolveLoopP s k none base.reverse) st r st' := by
  have loop : ∀ (l : List (OD (V F))) (rest : List (V F)), l.findSome? (fun d => OD.get d k) = none →
      (Runs H (resolveLoopP s k none (l.map .dict ++ rest)) st r st' ↔
        Runs H (resolveLoopP s k none rest) st r st') := by
    intro l
    induction l with
    | nil => intro rest h; exact Iff.rfl
    | cons x l ih =>
      intro rest h
      rw [List.map_cons, List.cons_append, runs_resolveLoop_cons]
      simp only [runs_assoc_dict hk, dictAns, Prod.mk.injEq]
      rw [List.findSome?_cons] at h
      cases hg : OD.get x k with
      | some w => simp [hg] at h
      | none =>
        simp only [hg] at h
        constructor
        · rintro ⟨e, b, s1, ⟨⟨rfl, rfl⟩, rfl⟩, h2⟩
          simp only [Option.isSome_none, Bool.false_eq_true, if_false, Bool.false_and] at h2
          exact (ih _ h).1 h2
        · intro h2
          refine ⟨_, _, _, ⟨⟨rfl, rfl⟩, rfl⟩, ?_⟩
          simp only [Option.isSome_none, Bool.false_eq_true, if_false, Bool.false_and]
          exact (ih _ h).2 h2
  rw [runs_resolve hd, hv, List.reverse_append, ← List.map_reverse]
  exact loop _ _ hl

/-! ## What statements do to the scope -/

/-- The name a statement defines. -/
def Stmt.defines : Stmt → Option Str
  | .let_ n _ _ _ _ => some (ident n)
  | .query _ => none

omit [FloatOps F] in
theorem appendVar_scp (st : St F S) (s : Nat) (v : V F) (h : s < st.scopes.length) :
    (st.appendVar s v).scp s = { st.scp s with vars := (st.scp s).vars ++ [v] } := by
  unfold St.appendVar
  exact scp_set_self h

omit [FloatOps F] in
@[simp] theorem appendVar_len (st : St F S) (s : Nat) (v : V F) :
    (st.appendVar s v).scopes.length = st.scopes.length := by
  simp [St.appendVar]

theorem runs_matExpr_polite (s : Nat) (v : V F) : (matExprP s v : Prog F S _).Polite false [] := by
  unfold matExprP
  split
  · exact (polite_materializeP _ _ _).bind (fun _ => trivial)
  · trivial

/-- A statement appends at most one variable to its scope, the one it defines. -/
theorem stmt_vars (hH : H.Polite) {q : Stmt} {s : Nat} {st st' : St F S} {rows : List (V F)}
    (hs : s < st.scopes.length) (h : Runs H (stmtP H q s) st rows st') :
    st.scopes.length ≤ st'.scopes.length ∧ (st'.scp s).depth = (st.scp s).depth ∧
    match q.defines with
    | none => (st'.scp s).vars = (st.scp s).vars
    | some x => ∃ v, (st'.scp s).vars = (st.scp s).vars ++ [.dict [(x, v)]] := by
  have app : ∀ {s1 : St F S} {x : Str} {v : V F}, st.scopes.length ≤ s1.scopes.length →
      Frame st.scopes.length st s1 →
      st.scopes.length ≤ (s1.appendVar s (.dict [(x, v)])).scopes.length ∧
      ((s1.appendVar s (.dict [(x, v)])).scp s).depth = (st.scp s).depth ∧
      ∃ v', ((s1.appendVar s (.dict [(x, v)])).scp s).vars = (st.scp s).vars ++ [.dict [(x, v')]] := by
    intro s1 x v hl hf
    have hs1 := Nat.lt_of_lt_of_le hs hl
    rw [appendVar_len, appendVar_scp _ _ _ hs1]
    exact ⟨hl, hf.depth s hs, v, by rw [hf.vars s hs]⟩
  cases q with
  | query q =>
    unfold stmtP at h
    rw [runs_pb, copy_push, runs_pb, append_push] at h
    have hg := h.grows
    have hf := h.frame hH (polite_call (fl := false) _ _)
    have hl : st.scopes.length < (st.push s ([] ++ [.dict [(bs "$Query", .str (H.stmtText q))]])).scopes.length := by simp
    refine ⟨Nat.le_trans (by simp) hg.scopes, ?_, ?_⟩
    · rw [hf.depth s (Nat.lt_trans hs hl), push_scp_lt _ _ _ hs]
    · simp only [Stmt.defines]
      rw [hf.vars s (Nat.lt_trans hs hl), push_scp_lt _ _ _ hs]
  | let_ name called params mat b =>
    simp only [Stmt.defines]
    cases b with
    | expr e =>
      unfold stmtP at h
      cases mat with
      | true =>
        simp only [if_true] at h
        obtain ⟨v, s1, h1, h2⟩ := runs_bind.1 h
        obtain ⟨v', s2, h3, h4⟩ := runs_bind.1 h2
        rw [runs_pb] at h4
        obtain ⟨rfl, rfl⟩ := runs_pure.1 h4
        have f1 := h1.frame hH (polite_call (fl := false) _ _)
        have f2 := h3.frame hH (runs_matExpr_polite _ _)
        exact app (Nat.le_trans h1.grows.scopes h3.grows.scopes) (f1.trans (f2.mono h1.grows.scopes))
      | false =>
        simp only [Bool.false_eq_true, if_false] at h
        rw [runs_pb] at h
        obtain ⟨rfl, rfl⟩ := runs_pure.1 h
        exact app (Nat.le_refl _) (.of_eq (fun _ _ => rfl))
    | select q =>
      unfold stmtP at h
      cases mat with
      | true =>
        simp only [if_true] at h
        obtain ⟨v, s1, h1, h2⟩ := runs_bind.1 h
        rw [runs_pb] at h2
        obtain ⟨rfl, rfl⟩ := runs_pure.1 h2
        have f1 := h1.frame hH (polite_materializeP (fl := false) _ _ _)
        exact app h1.grows.scopes f1
      | false =>
        simp only [Bool.false_eq_true, if_false] at h
        rw [runs_pb] at h
        obtain ⟨rfl, rfl⟩ := runs_pure.1 h
        exact app (Nat.le_refl _) (.of_eq (fun _ _ => rfl))

/-- Statements executed one after the other on a scope. -/
inductive Stmts (H : Host F S) (s : Nat) : List Stmt → St F S → St F S → Prop where
  | nil (st : St F S) : Stmts H s [] st st
  | cons {q : Stmt} {l : List Stmt} {rows : List (V F)} {st s1 s2 : St F S} :
      Runs H (stmtP H q s) st rows s1 → Stmts H s l s1 s2 → Stmts H s (q :: l) st s2

theorem stmts_vars (hH : H.Polite) {l : List Stmt} {s : Nat} {st st' : St F S} (hs : s < st.scopes.length)
    (h : Stmts H s l st st') : s < st'.scopes.length ∧ (st'.scp s).depth = (st.scp s).depth ∧
    ∃ ds : List (OD (V F)), (st'.scp s).vars = (st.scp s).vars ++ ds.map .dict ∧
      ∀ x, (∀ q ∈ l, q.defines ≠ some x) → lookup ds x = none := by
  induction h with
  | nil => exact ⟨hs, rfl, [], by simp, fun x _ => rfl⟩
  | @cons q l rows st s1 s2 h1 h2 ih =>
    obtain ⟨hl, hd, hv⟩ := stmt_vars hH hs h1
    obtain ⟨hs2, hd2, ds, hds, hx⟩ := ih (Nat.lt_of_lt_of_le hs hl)
    refine ⟨hs2, hd2.trans hd, ?_⟩
    cases hq : q.defines with
    | none =>
      simp only [hq] at hv
      exact ⟨ds, by rw [hds, hv], fun x h => hx x (fun q hq => h q (by simp [hq]))⟩
    | some y =>
      simp only [hq] at hv
      obtain ⟨v, hv⟩ := hv
      refine ⟨[(y, v)] :: ds, by rw [hds, hv]; simp, fun x h => ?_⟩
      rw [← List.singleton_append, lookup_append, hx x (fun q hq => h q (by simp [hq])), lookup_singleton]
      have : y ≠ x := by
        rintro rfl
        exact h q (by simp) hq
      simp [OD.get, this]

/-! ## C33 -/

/-- What `LET x <= e` stores: the value of the expression, a query being materialized. -/
def MatValue (H : Host F S) (b : LetBody) (s : Nat) (st : St F S) (v : V F) (st' : St F S) : Prop :=
  match b with
  | .expr e => ∃ w s1, Runs H (call (.and e s)) st w s1 ∧ Runs H (matExprP s w) s1 v st'
  | .select q => ∃ rows, Runs H (materializeP s (.obj (.select q))) st rows st' ∧ v = .query rows

theorem runs_let_mat {name : Str} {called : Bool} {params : List LetParam} {b : LetBody} {s : Nat}
    {st st' : St F S} {rows : List (V F)} :
    Runs H (stmtP H (.let_ name called params true b) s) st rows st' ↔
      ∃ v s1, MatValue H b s st v s1 ∧ rows = [] ∧ st' = s1.appendVar s (.dict [(ident name, v)]) := by
  cases b with
  | expr e =>
    unfold stmtP MatValue
    simp only [if_true]
    constructor
    · intro h
      obtain ⟨v, s1, h1, h2⟩ := runs_bind.1 h
      obtain ⟨v', s2, h3, h4⟩ := runs_bind.1 h2
      rw [runs_pb] at h4
      obtain ⟨rfl, rfl⟩ := runs_pure.1 h4
      exact ⟨v', s2, ⟨v, s1, h1, h3⟩, rfl, rfl⟩
    · rintro ⟨v, s1, ⟨w, s2, h1, h2⟩, rfl, rfl⟩
      refine runs_bind.2 ⟨_, _, h1, runs_bind.2 ⟨_, _, h2, ?_⟩⟩
      rw [runs_pb]
      exact runs_pure.2 ⟨rfl, rfl⟩
  | select q =>
    unfold stmtP MatValue
    simp only [if_true]
    constructor
    · intro h
      obtain ⟨v, s1, h1, h2⟩ := runs_bind.1 h
      rw [runs_pb] at h2
      obtain ⟨rfl, rfl⟩ := runs_pure.1 h2
      exact ⟨_, s1, ⟨v, h1, rfl⟩, rfl, rfl⟩
    · rintro ⟨v, s1, ⟨rows, h1, rfl⟩, rfl, rfl⟩
      refine runs_bind.2 ⟨_, _, h1, ?_⟩
      rw [runs_pb]
      exact runs_pure.2 ⟨rfl, rfl⟩

/-- **C33** `LET x <= e` is by value: whatever statements follow on the scope (other than
definitions of `x`), and whatever happens while they run, `x` keeps the value `e` had when
the statement ran, and looking it up evaluates nothing. -/
theorem C33_by_value (hH : H.Polite) {name : Str} {called : Bool} {params : List LetParam} {b : LetBody}
    {s : Nat} {st s1 s2 : St F S} {rows : List (V F)} {later : List Stmt}
    (hs : s < st.scopes.length) (hd : (st.scp s).depth < 1000) (hx : PlainKey (ident name))
    (h : Runs H (stmtP H (.let_ name called params true b) s) st rows s1)
    (hl : Stmts H s later s1 s2) (hdef : ∀ q ∈ later, q.defines ≠ some (ident name)) :
    ∃ v s0, MatValue H b s st v s0 ∧
      ∀ (α : Type) (p : Prog F S α) a s3, p.Polite false [] → Runs H p s2 a s3 →
        ∀ r s4, (Runs H (call (.resolve s (ident name))) s3 r s4 ↔ r = (some v, true) ∧ s4 = s3) := by
  obtain ⟨v, s0, hv, rfl, rfl⟩ := runs_let_mat.1 h
  refine ⟨v, s0, hv, ?_⟩
  have hfr : Frame st.scopes.length st s0 ∧ st.scopes.length ≤ s0.scopes.length := by
    cases b with
    | expr e =>
      obtain ⟨w, s5, h1, h2⟩ := hv
      have f1 := h1.frame hH (polite_call (fl := false) _ _)
      have f2 := h2.frame hH (runs_matExpr_polite _ _)
      exact ⟨f1.trans (f2.mono h1.grows.scopes), Nat.le_trans h1.grows.scopes h2.grows.scopes⟩
    | select q =>
      obtain ⟨rows, h1, _⟩ := hv
      exact ⟨h1.frame hH (polite_materializeP (fl := false) _ _ _), h1.grows.scopes⟩
  have hs0 := Nat.lt_of_lt_of_le hs hfr.2
  obtain ⟨hs2, hd2, ds, hds, hnone⟩ := stmts_vars hH (by simpa using hs0) hl
  rw [appendVar_scp _ _ _ hs0] at hds hd2
  intro α p a s3 hp hr r s4
  have hf3 := hr.frame hH hp
  refine resolve_inner hx (base := (s0.scp s).vars) (ds := [(ident name, v)] :: ds) ?_ ?_ ?_
  · rw [hf3.depth s hs2, hd2]
    simpa [hfr.1.depth s hs] using hd
  · rw [hf3.vars s hs2, hds]; simp
  · rw [← List.singleton_append, lookup_append, hnone _ hdef, lookup_singleton]
    simp [OD.get]

/-- **C33** `LET x = e` stores the definition, nothing is evaluated. -/
theorem C33_definition {name : Str} {called : Bool} {params : List LetParam} {b : LetBody} {s : Nat}
    {st st' : St F S} {rows : List (V F)} :
    Runs H (stmtP H (.let_ name called params false b) s) st rows st' ↔
      rows = [] ∧ st' = st.appendVar s (.dict [(ident name, match b with
        | .expr e => .obj (.sexpr ⟨ident name, (letParams params).1, (letParams params).2, e⟩)
        | .select q => .obj (.squery ⟨ident name, (letParams params).1, (letParams params).2, q⟩))]) := by
  cases b <;>
  · unfold stmtP
    simp only [Bool.false_eq_true, if_false]
    exact runs_pb.trans runs_pure

/-- **C33** `LET x = e` (no parameters) is by name: a reference to `x` from scope `s` is the
evaluation of `e` at that moment, in a copy of the scope of the reference (`{}` is the empty
set of arguments). -/
theorem C33_by_name {node : Nat} {symbol c : Str} {s : Nat} {st s1 st' : St F S} {a : V F}
    {nm : Str} {e : AndE}
    (hs : splitIdent symbol = [c]) (hm : hasMinus [c] = false) (hd : (s1.scp s).depth < 999)
    (hr : Runs H (call (.resolve s c)) (st.seen node) (some (.obj (.sexpr ⟨nm, [], [], e⟩)), true) s1) :
    Runs H (call (.value (.sym (.mk node symbol false [])) s)) st a st' ↔
      Runs H (call (.and e s1.scopes.length)) (s1.push s [.dict []]) a st' := by
  have hov : overflow ((s1.push s []).scp s1.scopes.length).depth = false := by
    rw [push_scp]; simp [overflow]; omega
  have hval : ∀ a st', Runs H (symValueP H node symbol false [] false s (.obj (.sexpr ⟨nm, [], [], e⟩))) s1 a st' ↔
      Runs H (call (.and e s1.scopes.length)) (s1.push s [.dict []]) a st' := by
    intro a st'
    simp only [symValueP, agP, argsP, applyDefaultsP, foldP, Bool.false_eq_true, if_false, negateP]
    rw [runs_pb, copy_push, runs_rb, runs_pb]
    simp only [Prim.step, hov, Bool.false_eq_true, if_false]
    rw [runs_rb, runs_rb, runs_pb, append_push]
    exact runs_bind_pure
  rw [runs_name hs hm]
  constructor
  · rintro ⟨e', b, s2, h1, h2⟩
    obtain ⟨h3, rfl⟩ := h1.det hr
    cases h3
    simp only [if_true, Option.getD_some] at h2
    exact (hval _ _).1 h2
  · intro h
    refine ⟨_, _, _, hr, ?_⟩
    simp only [if_true, Option.getD_some]
    exact (hval _ _).2 h

/-- **C33** Redefinitions are seen: if `x` is defined as `LET x = y`, then a reference to `x`
gives whatever plain value `y` has in the scope of the reference at that time. -/
theorem C33_redefinition {n1 n2 : Nat} {sx sy x y : Str} {s : Nat} {st st' : St F S} {a v : V F}
    {nm : Str} {base : List (V F)} {ds : List (OD (V F))}
    (hsx : splitIdent sx = [x]) (hmx : hasMinus [x] = false) (hpx : PlainKey x)
    (hsy : splitIdent sy = [y]) (hmy : hasMinus [y] = false) (hpy : PlainKey y)
    (hd : (st.scp s).depth < 999) (hv : (st.scp s).vars = base ++ ds.map .dict)
    (hlx : lookup ds x = some (.obj (.sexpr ⟨nm, [], [], .val (.sym (.mk n2 sy false []))⟩)))
    (hly : lookup ds y = some v) (hpv : Plain v)
    (h : Runs H (call (.value (.sym (.mk n1 sx false [])) s)) st a st') : a = v := by
  have hr : Runs H (call (.resolve s x)) (st.seen n1) (some (.obj (.sexpr ⟨nm, [], [],
      .val (.sym (.mk n2 sy false []))⟩)), true) (st.seen n1) :=
    (resolve_inner hpx (by simp; omega) (by simpa using hv) hlx).2 ⟨rfl, rfl⟩
  have h1 := (C33_by_name hsx hmx (by simpa using hd) hr).1 h
  rw [runs_and_val] at h1
  have hry : Runs H (call (.resolve (st.seen n1).scopes.length y))
      (((st.seen n1).push s [.dict []]).seen n2) (some v, true) (((st.seen n1).push s [.dict []]).seen n2) := by
    refine (resolve_inner hpy (base := base) (ds := ds ++ [[]]) ?_ ?_ ?_).2 ⟨rfl, rfl⟩
    · rw [seen_scp, push_scp]; simp; omega
    · rw [seen_scp, push_scp]; simp [hv]
    · rw [lookup_append, lookup_singleton, hly]; simp [OD.get]
  exact ((runs_name_plain hsy hmy hry hpv).1 h1).1

/-! ## C34 -/

/-- Evaluating one argument of a call in the caller's scope `s`. -/
def ArgRuns (H : Host F S) (s : Nat) (a : ArgV) (st : St F S) (v : V F) (st' : St F S) : Prop :=
  match a with
  | .expr e => Runs H (call (.and e s)) st v st'
  | .select q => v = .obj (.select q) ∧ st' = st
  | .array c => Runs H (call (.comma c s)) st v st'
  | .empty => v = .arr [] ∧ st' = st

/-- The arguments are evaluated in the scope of the caller, in order. -/
inductive ArgsRun (H : Host F S) (s : Nat) : OD (V F) → List Arg → St F S → OD (V F) → St F S → Prop where
  | nil (acc : OD (V F)) (st : St F S) : ArgsRun H s acc [] st acc st
  | cons {acc out : OD (V F)} {n : Str} {a : ArgV} {l : List Arg} {v : V F} {st s1 s2 : St F S} :
      ArgRuns H s a st v s1 → ArgsRun H s (OD.set acc (ident n) v) l s1 out s2 →
      ArgsRun H s acc (.mk n a :: l) st out s2

theorem runs_buildArgs {s : Nat} {params : List Arg} {st st' : St F S} {out : OD (V F)} :
    Runs H (buildArgsP s params) st out st' ↔ ArgsRun H s [] params st out st' := by
  unfold buildArgsP
  generalize ([] : OD (V F)) = acc
  induction params generalizing acc st with
  | nil =>
    simp only [foldP, runs_pure]
    constructor
    · rintro ⟨rfl, rfl⟩; exact .nil _ _
    · intro h; cases h; exact ⟨rfl, rfl⟩
  | cons p l ih =>
    obtain ⟨n, a⟩ := p
    simp only [foldP, runs_bind]
    constructor
    · rintro ⟨acc1, s1, h1, h2⟩
      have h3 := (ih _).1 h2
      cases a with
      | expr e =>
        obtain ⟨v, s2, h4, h5⟩ := runs_bind.1 h1
        obtain ⟨rfl, rfl⟩ := runs_pure.1 h5
        exact .cons (a := .expr e) h4 h3
      | select q =>
        obtain ⟨rfl, rfl⟩ := runs_pure.1 h1
        exact .cons (a := .select q) ⟨rfl, rfl⟩ h3
      | array c =>
        obtain ⟨v, s2, h4, h5⟩ := runs_bind.1 h1
        obtain ⟨rfl, rfl⟩ := runs_pure.1 h5
        exact .cons (a := .array c) h4 h3
      | empty =>
        obtain ⟨rfl, rfl⟩ := runs_pure.1 h1
        exact .cons (a := .empty) ⟨rfl, rfl⟩ h3
    · intro h
      cases h with
      | @cons _ _ _ _ _ v _ s1 _ h1 h2 =>
        refine ⟨_, s1, ?_, (ih _).2 h2⟩
        cases a with
        | expr e => exact runs_bind.2 ⟨v, s1, h1, runs_pure.2 ⟨rfl, rfl⟩⟩
        | select q => obtain ⟨rfl, rfl⟩ := h1; exact runs_pure.2 ⟨rfl, rfl⟩
        | array c => exact runs_bind.2 ⟨v, s1, h1, runs_pure.2 ⟨rfl, rfl⟩⟩
        | empty => obtain ⟨rfl, rfl⟩ := h1; exact runs_pure.2 ⟨rfl, rfl⟩

/-- Parameters with a default `{ SELECT }` are written without back quotes.  The condition is
needed: such a default is bound under the name as it is written in the definition, back quotes
included (`C34_quoted_default_refuted`). -/
def Spelled (ds : List (Str × Arg)) : Prop :=
  ∀ k n q, (k, Arg.mk n (.select q)) ∈ ds → n = k

/-- Defaults are evaluated, in the caller's scope, for parameters that have no argument. -/
inductive DefaultsRun (H : Host F S) (s : Nat) :
    OD (V F) → List (Str × Arg) → St F S → OD (V F) → St F S → Prop where
  | nil (acc : OD (V F)) (st : St F S) : DefaultsRun H s acc [] st acc st
  | given {acc out : OD (V F)} {d : Str × Arg} {l : List (Str × Arg)} {st s2 : St F S} {v : V F} :
      OD.get acc d.1 = some v → DefaultsRun H s acc l st out s2 → DefaultsRun H s acc (d :: l) st out s2
  | missing {acc out : OD (V F)} {k n : Str} {a : ArgV} {l : List (Str × Arg)} {v : V F}
      {st s1 s2 : St F S} : OD.get acc k = none → ArgRuns H s a st v s1 →
      DefaultsRun H s (OD.set acc k v) l s1 out s2 → DefaultsRun H s acc ((k, .mk n a) :: l) st out s2

theorem runs_applyDefaults {s : Nat} {ds : List (Str × Arg)} (hq : Spelled ds)
    {args : OD (V F)} {st st' : St F S} {out : OD (V F)} :
    Runs H (applyDefaultsP s ds args) st out st' ↔ DefaultsRun H s args ds st out st' := by
  unfold applyDefaultsP
  induction ds generalizing args st with
  | nil =>
    simp only [foldP, runs_pure]
    constructor
    · rintro ⟨rfl, rfl⟩; exact .nil _ _
    · intro h; cases h; exact ⟨rfl, rfl⟩
  | cons d l ih =>
    obtain ⟨k, n, a⟩ := d
    have hq' : Spelled l := fun k n q hd => hq k n q (by simp [hd])
    simp only [foldP, runs_bind]
    cases hg : OD.get args k with
    | some v =>
      simp only [runs_pure]
      constructor
      · rintro ⟨acc1, s1, ⟨rfl, rfl⟩, h2⟩
        exact .given hg ((ih hq').1 h2)
      · intro h
        cases h with
        | given _ h => exact ⟨_, _, ⟨rfl, rfl⟩, (ih hq').2 h⟩
        | missing hn => rw [hg] at hn; cases hn
    | none =>
      simp only
      constructor
      · rintro ⟨acc1, s1, h1, h2⟩
        have h3 := (ih hq').1 h2
        cases a with
        | expr e =>
          obtain ⟨v, s2, h4, h5⟩ := runs_bind.1 h1
          obtain ⟨rfl, rfl⟩ := runs_pure.1 h5
          exact .missing (a := .expr e) hg h4 h3
        | select q =>
          obtain rfl := hq k n q (by simp)
          obtain ⟨rfl, rfl⟩ := runs_pure.1 h1
          exact .missing (a := .select q) hg ⟨rfl, rfl⟩ h3
        | array c =>
          obtain ⟨v, s2, h4, h5⟩ := runs_bind.1 h1
          obtain ⟨rfl, rfl⟩ := runs_pure.1 h5
          exact .missing (a := .array c) hg h4 h3
        | empty =>
          obtain ⟨rfl, rfl⟩ := runs_pure.1 h1
          exact .missing (a := .empty) hg ⟨rfl, rfl⟩ h3
      · intro h
        cases h with
        | given hs h => simp only at hs; rw [hg] at hs; cases hs
        | @missing _ _ _ _ _ _ v _ s1 _ _ h1 h2 =>
          refine ⟨_, s1, ?_, (ih hq').2 h2⟩
          cases a with
          | expr e => exact runs_bind.2 ⟨v, s1, h1, runs_pure.2 ⟨rfl, rfl⟩⟩
          | select q =>
            obtain rfl := hq k n q (by simp)
            obtain ⟨rfl, rfl⟩ := h1
            exact runs_pure.2 ⟨rfl, rfl⟩
          | array c => exact runs_bind.2 ⟨v, s1, h1, runs_pure.2 ⟨rfl, rfl⟩⟩
          | empty => obtain ⟨rfl, rfl⟩ := h1; exact runs_pure.2 ⟨rfl, rfl⟩

/-- Definitions whose parameters are written without back quotes have such defaults. -/
theorem spelled_letParams {ps : List LetParam} (h : ∀ p ∈ ps, ident p.name = p.name) :
    Spelled (letParams ps).2 := by
  have key : ∀ (l : List LetParam) (acc : List (Str × Arg)), Spelled acc →
      (∀ p ∈ l, ident p.name = p.name) →
      Spelled (l.foldl (fun acc p => match p.dflt with
        | none => acc
        | some d => OD.update acc (ident p.name) (.mk p.name d)) acc) := by
    intro l
    induction l with
    | nil => exact fun _ h _ => h
    | cons p l ih =>
      intro acc ha hl
      refine ih _ ?_ (fun p' h' => hl p' (by simp [h']))
      show Spelled (match p.dflt with
        | none => acc
        | some d => OD.update acc (ident p.name) (.mk p.name d))
      cases hd : p.dflt with
      | none => exact ha
      | some d =>
        intro k n q hm
        rcases mem_update hm with hm | hm
        · exact ha _ _ _ hm
        · simp only [Prod.mk.injEq, Arg.mk.injEq] at hm
          rw [hm.1, hm.2.1]
          exact (hl p (by simp)).symm
  exact key ps [] (by intro _ _ _ h; cases h) h

/-- **C34** Defaults never replace an argument, every parameter with a default gets a value,
and nothing else is bound. -/
theorem C34_defaults {s : Nat} {ds : List (Str × Arg)} {args out : OD (V F)} {st st' : St F S}
    (h : DefaultsRun H s args ds st out st') :
    (∀ k v, OD.get args k = some v → OD.get out k = some v) ∧
    (∀ d ∈ ds, ∃ v, OD.get out d.1 = some v) ∧
    (∀ k, OD.get args k = none → (∀ d ∈ ds, d.1 ≠ k) → OD.get out k = none) := by
  induction h with
  | nil => exact ⟨fun _ _ h => h, by simp, fun k h _ => h⟩
  | @given acc out d l st s2 v hg h ih =>
    refine ⟨ih.1, ?_, fun k hk hd => ih.2.2 k hk (fun d' h' => hd d' (by simp [h']))⟩
    intro d' hd'
    rcases List.mem_cons.1 hd' with rfl | hd'
    · exact ⟨v, ih.1 _ _ hg⟩
    · exact ih.2.1 d' hd'
  | @missing acc out k n a l v st s1 s2 hn ha h ih =>
    refine ⟨?_, ?_, ?_⟩
    · intro k' v' hk'
      refine ih.1 k' v' ?_
      rw [OD.get_set_ne _ _ (by rintro rfl; rw [hn] at hk'; cases hk')]
      exact hk'
    · intro d' hd'
      rcases List.mem_cons.1 hd' with rfl | hd'
      · exact ⟨v, ih.1 _ _ (OD.get_set_self _ _ _)⟩
      · exact ih.2.1 d' hd'
    · intro k' hk' hd
      refine ih.2.2 k' ?_ (fun d' h' => hd d' (by simp [h']))
      rw [OD.get_set_ne _ _ (fun e => hd (k, .mk n a) (by simp) e.symm)]
      exact hk'

/-- The state in which the body of a called expression starts: a copy `sub` of the caller's
scope with a new aggregator context and the arguments as innermost variables. -/
theorem runs_call_sexpr {node : Nat} {symbol : Str} {params : List Arg} {s : Nat} {st st' : St F S}
    {a : V F} {e : SExpr} (hd : (st.scp s).depth < 999) :
    Runs H (symValueP H node symbol true params false s (.obj (.sexpr e))) st a st' ↔
      ∃ args s1 args' s2,
        Runs H (buildArgsP s params) ((Prim.newAg st.scopes.length : Prim F S).step (st.push s [])).2 args s1 ∧
        Runs H (applyDefaultsP s e.defaults args) s1 args' s2 ∧
        Runs H (call (.and e.body st.scopes.length)) (s2.appendVar st.scopes.length (.dict args')) a st' := by
  have hov : overflow ((((Prim.newAg st.scopes.length : Prim F S).step (st.push s [])).2).scp st.scopes.length).depth
      = false := by
    have : (((Prim.newAg st.scopes.length : Prim F S).step (st.push s [])).2).scp st.scopes.length =
        { (st.push s []).scp st.scopes.length with ag := some (st.push s []).ctxs.length } := by
      show ({ (st.push s []).setAg st.scopes.length (st.push s []).ctxs.length with
        ctxs := (st.push s []).ctxs ++ [[]] } : St F S).scp st.scopes.length = _
      unfold St.setAg
      exact scp_set_self (by simp)
    rw [this, push_scp]
    simp [overflow]; omega
  simp only [symValueP, agP, argsP, if_true, negateP, Bool.false_eq_true, if_false]
  rw [runs_pb, copy_push, runs_pb, runs_pb]
  simp only [Prim.step] at hov
  simp only [Prim.step, hov, Bool.false_eq_true, if_false]
  constructor
  · intro h
    obtain ⟨args, s1, h1, h2⟩ := runs_bind.1 h
    obtain ⟨args', s2, h3, h4⟩ := runs_bind.1 h2
    rw [runs_pb] at h4
    exact ⟨args, s1, args', s2, h1, h3, runs_bind_pure.1 h4⟩
  · rintro ⟨args, s1, args', s2, h1, h3, h4⟩
    refine runs_bind.2 ⟨args, s1, h1, runs_bind.2 ⟨args', s2, h3, ?_⟩⟩
    rw [runs_pb]
    exact runs_bind_pure.2 h4

/-- **C34** Calling `f(a=e1, ..)` for `LET f(a, b=d) = body`: the arguments are evaluated one
after the other in the caller's scope `s`, the defaults of missing parameters likewise, and
then the body is evaluated in a scope whose variables are those of the caller with the
arguments as innermost set. -/
theorem C34_call (hH : H.Polite) {node : Nat} {symbol : Str} {params : List Arg} {s : Nat}
    {st st' : St F S} {a : V F} {e : SExpr} (hs : s < st.scopes.length) (hd : (st.scp s).depth < 999)
    (hq : Spelled e.defaults)
    (h : Runs H (symValueP H node symbol true params false s (.obj (.sexpr e))) st a st') :
    ∃ s0 args s1 args' s2 s3 sub,
      (s0.scp s).vars = (st.scp s).vars ∧
      ArgsRun H s [] params s0 args s1 ∧ DefaultsRun H s args e.defaults s1 args' s2 ∧
      (s3.scp sub).vars = (st.scp s).vars ++ [.dict args'] ∧
      (s3.scp sub).depth = (st.scp s).depth + 1 ∧
      Runs H (call (.and e.body sub)) s3 a st' := by
  obtain ⟨args, s1, args', s2, h1, h2, h3⟩ := (runs_call_sexpr hd).1 h
  have hlen : st.scopes.length < (((Prim.newAg st.scopes.length : Prim F S).step (st.push s [])).2).scopes.length := by
    simp [Prim.step, St.setAg]
  have hsub : (((Prim.newAg st.scopes.length : Prim F S).step (st.push s [])).2).scp st.scopes.length =
      { (st.push s []).scp st.scopes.length with ag := some (st.push s []).ctxs.length } := by
    show ({ (st.push s []).setAg st.scopes.length (st.push s []).ctxs.length with
      ctxs := (st.push s []).ctxs ++ [[]] } : St F S).scp st.scopes.length = _
    unfold St.setAg
    exact scp_set_self (by simp)
  have hcal : (((Prim.newAg st.scopes.length : Prim F S).step (st.push s [])).2).scp s = st.scp s := by
    show ({ (st.push s []).setAg st.scopes.length (st.push s []).ctxs.length with
      ctxs := (st.push s []).ctxs ++ [[]] } : St F S).scp s = _
    unfold St.setAg
    exact (scp_set_ne (st := (st.push s [])) (Nat.ne_of_gt hs)).trans (push_scp_lt _ _ _ hs)
  have f1 := h1.frame hH (polite_buildArgsP (fl := false) _ _ _)
  have f2 := h2.frame hH (polite_applyDefaultsP (fl := false) _ _ _ _)
  have hl1 := Nat.lt_of_lt_of_le hlen h1.grows.scopes
  have hl2 := Nat.lt_of_lt_of_le hl1 h2.grows.scopes
  refine ⟨_, args, s1, args', s2, _, st.scopes.length, ?_, runs_buildArgs.1 h1,
    (runs_applyDefaults hq).1 h2, ?_, ?_, h3⟩
  · rw [hcal]
  · rw [appendVar_scp _ _ _ hl2]
    show (s2.scp _).vars ++ _ = _
    rw [f2.vars _ hl1, f1.vars _ hlen, hsub, push_scp]
    simp
  · rw [appendVar_scp _ _ _ hl2]
    show (s2.scp _).depth = _
    rw [f2.depth _ hl1, f1.depth _ hlen, hsub, push_scp]

/-- **C34** Parameters shadow everything else: in the body's scope a bound parameter is the
argument. -/
theorem C34_shadow {sub : Nat} {k : Str} (hk : PlainKey k) {st st' : St F S} {base : List (V F)}
    {args : OD (V F)} {v : V F} {r : Option (V F) × Bool} (hd : (st.scp sub).depth < 1000)
    (hv : (st.scp sub).vars = base ++ [.dict args]) (hg : OD.get args k = some v) :
    Runs H (call (.resolve sub k)) st r st' ↔ r = (some v, true) ∧ st' = st :=
  resolve_inner hk (ds := [args]) hd (by simpa using hv) (by simpa using hg)

/-- **C34** Names that are not parameters mean what they mean for the caller; this includes
parameters that got neither an argument nor a default. -/
theorem C34_free_name {sub : Nat} {k : Str} (hk : PlainKey k) {st st' : St F S} {base : List (V F)}
    {args : OD (V F)} {r : Option (V F) × Bool} (hd : (st.scp sub).depth < 1000)
    (hv : (st.scp sub).vars = base ++ [.dict args]) (hg : OD.get args k = none) :
    Runs H (call (.resolve sub k)) st r st' ↔ Runs H (resolveLoopP sub k none base.reverse) st r st' :=
  resolve_outer hk (ds := [args]) hd (by simpa using hv) (by simpa using hg)

/-- **C34** A call leaves the caller's bindings untouched, and those of all other scopes that
existed before. -/
theorem C34_caller (hH : H.Polite) {node : Nat} {symbol : Str} {called : Bool} {params : List Arg}
    {s : Nat} {st st' : St F S} {a : V F}
    (h : Runs H (call (.sym (.mk node symbol called params) s)) st a st') :
    ∀ i < st.scopes.length, (st'.scp i).vars = (st.scp i).vars :=
  fun i hi => (h.frame hH (polite_call (fl := false) _ _)).vars i hi

/-- How the arguments of a stored query are stored: queries as arrays of rows, everything else
as it is (`sub` is the scope of the query). -/
inductive Stores (H : Host F S) (sub : Nat) : OD (V F) → OD (V F) → St F S → OD (V F) → St F S → Prop where
  | nil (acc : OD (V F)) (st : St F S) : Stores H sub acc [] st acc st
  | cons {acc out l : OD (V F)} {k : Str} {v w : V F} {st s1 s2 : St F S} :
      Runs H (storeArgP sub v) st w s1 → Stores H sub (OD.set acc k w) l s1 out s2 →
      Stores H sub acc ((k, v) :: l) st out s2

theorem runs_stores {sub : Nat} {l acc out : OD (V F)} {st st' : St F S} :
    Runs H (foldP (fun acc (p : Str × V F) => do
      let v ← storeArgP sub p.2
      pure (OD.set acc p.1 v)) acc l) st out st' ↔ Stores H sub acc l st out st' := by
  induction l generalizing acc st with
  | nil =>
    simp only [foldP, runs_pure]
    constructor
    · rintro ⟨rfl, rfl⟩; exact .nil _ _
    · intro h; cases h; exact ⟨rfl, rfl⟩
  | cons p l ih =>
    obtain ⟨k, v⟩ := p
    simp only [foldP, runs_bind, runs_pure]
    constructor
    · rintro ⟨_, s1, ⟨w, s2, h1, rfl, rfl⟩, h2⟩
      exact .cons h1 (ih.1 h2)
    · intro h
      cases h with
      | cons h1 h2 => exact ⟨_, _, ⟨_, _, h1, rfl, rfl⟩, ih.2 h2⟩

/-- A value that is stored as it is. -/
def Simple : V F → Prop
  | .obj (.lazy _) => False
  | v => isQuery v = false

theorem runs_storeArg_simple {sub : Nat} {v w : V F} (hv : Simple v) {st st' : St F S} :
    Runs H (storeArgP sub v) st w st' ↔ w = v ∧ st' = st := by
  unfold storeArgP
  cases v with
  | obj o => cases o <;> simp_all [Simple, isQuery]
  | query l => simp [Simple, isQuery] at hv
  | _ => simp [isQuery]

/-- **C34** Arguments with plain values reach the stored query unchanged, and no other names
are bound. -/
theorem C34_stored {sub : Nat} {l acc out : OD (V F)} {st st' : St F S} (hw : OD.WF l)
    (hdis : ∀ k ∈ OD.keys l, OD.get acc k = none)
    (h : Stores H sub acc l st out st') :
    (∀ k v, OD.get l k = some v → Simple v → OD.get out k = some v) ∧
    (∀ k, OD.get l k = none → OD.get out k = OD.get acc k) ∧
    (∀ k v, OD.get l k = some v → ∃ w, OD.get out k = some w) := by
  induction h with
  | nil acc st => exact ⟨by simp [OD.get], by simp [OD.get], by simp [OD.get]⟩
  | @cons acc out l k v w st s1 s2 h1 h2 ih =>
    have hnd : k ∉ OD.keys l ∧ OD.WF l := by
      simpa [OD.WF, OD.keys] using hw
    have hkl : OD.get l k = none := by
      cases hg : OD.get l k with
      | none => rfl
      | some x => exact absurd ((OD.mem_keys_iff _ _).2 ⟨x, hg⟩) hnd.1
    obtain ⟨i1, i2, i3⟩ := ih hnd.2 (by
      intro k' hk'
      rw [OD.get_set_ne _ _ (by rintro rfl; exact hnd.1 hk')]
      exact hdis k' (by simp only [OD.keys, List.map_cons, List.mem_cons]; exact .inr hk'))
    refine ⟨?_, ?_, ?_⟩
    · intro k' v' hk' hs'
      by_cases he : k = k'
      · subst he
        simp only [OD.get, if_true, Option.some.injEq] at hk'
        subst hk'
        obtain ⟨rfl, rfl⟩ := (runs_storeArg_simple hs').1 h1
        rw [i2 k hkl]
        exact OD.get_set_self _ _ _
      · simp only [OD.get, if_neg he] at hk'
        exact i1 k' v' hk' hs'
    · intro k' hk'
      by_cases he : k = k'
      · subst he; simp [OD.get] at hk'
      · simp only [OD.get, if_neg he] at hk'
        rw [i2 k' hk', OD.get_set_ne _ _ (fun e => he e.symm)]
    · intro k' v' hk'
      by_cases he : k = k'
      · subst he
        exact ⟨w, by rw [i2 k hkl]; exact OD.get_set_self _ _ _⟩
      · simp only [OD.get, if_neg he] at hk'
        exact i3 k' v' hk'

theorem polite_storeArg (sub : Nat) (v : V F) : (storeArgP sub v : Prog F S _).Polite false [] := by
  unfold storeArgP
  split
  · exact polite_call _ _
  · trivial
  · split
    · exact (polite_materializeP _ _ _).bind (fun _ => trivial)
    · trivial

theorem polite_stores (sub : Nat) (acc l : OD (V F)) : (foldP (fun acc (p : Str × V F) => do
      let v ← (storeArgP sub p.2 : Prog F S _)
      pure (OD.set acc p.1 v)) acc l).Polite false [] := by
  refine polite_foldP (fun acc p => ?_) _ _
  exact (polite_storeArg _ _).bind (fun _ => trivial)

/-- **C34** `FROM f(a=e1, ..)` for `LET f(a, b=d) = SELECT ..`: the arguments and the
defaults of missing parameters are evaluated in the caller's scope, then the query runs in a
scope whose variables are those of the caller with the stored arguments as innermost set. -/
theorem C34_query (hH : H.Polite) {params : List Arg} {s : Nat} {st st' : St F S}
    {rows : List (V F)} {q : SQuery} (hs : s < st.scopes.length) (hd : (st.scp s).depth < 1000)
    (hq : Spelled q.defaults)
    (h : Runs H (call (.evalSymbolWithArgs params (.obj (.squery q)) s)) st rows st') :
    ∃ args s1 args' s2 sub s3 vars s4 s5 ns,
      ArgsRun H s [] params st args s1 ∧ DefaultsRun H s args q.defaults s1 args' s2 ∧
      Stores H sub [] args' s3 vars s4 ∧
      (s3.scp sub).vars = (st.scp s).vars ∧
      (s5.scp ns).vars = (st.scp s).vars ++ [.dict vars] ∧
      Runs H (call (.select q.query ns)) s5 rows st' := by
  rw [runs_call] at h
  simp only [body] at h
  have ho : overflow (st.scp s).depth = false := by simp [overflow]; omega
  rw [runs_pb] at h
  simp only [Prim.step, ho, Bool.false_eq_true, if_false] at h
  obtain ⟨args, s1, h1, h⟩ := runs_bind.1 h
  obtain ⟨args', s2, h2, h⟩ := runs_bind.1 h
  unfold storedQueryCallP at h
  rw [runs_pb, copy_push, runs_pb, runs_logs] at h
  obtain ⟨vars, s4, h3, h⟩ := runs_bind.1 h
  rw [runs_pb, runs_call] at h
  simp only [body] at h
  rw [runs_pb] at h
  have f1 := h1.frame hH (polite_buildArgsP (fl := false) _ _ _)
  have f2 := h2.frame hH (polite_applyDefaultsP (fl := false) _ _ _ _)
  have hl1 := Nat.lt_of_lt_of_le hs h1.grows.scopes
  have hl2 := Nat.lt_of_lt_of_le hl1 h2.grows.scopes
  have hv2 : (s2.scp s).vars = (st.scp s).vars := by rw [f2.vars _ hl1, f1.vars _ hs]
  have hlen : s2.scopes.length < ((((Prim.newAg s2.scopes.length : Prim F S).step (s2.push s [])).2).logs
      (callWarnings q (OD.keys args'))).scopes.length := by
    simp [Prim.step, St.setAg, St.logs]
  have hsub : (((((Prim.newAg s2.scopes.length : Prim F S).step (s2.push s [])).2).logs
      (callWarnings q (OD.keys args'))).scp s2.scopes.length).vars = (st.scp s).vars := by
    have : (((Prim.newAg s2.scopes.length : Prim F S).step (s2.push s [])).2).scp s2.scopes.length =
      { (s2.push s []).scp s2.scopes.length with ag := some (s2.push s []).ctxs.length } := by
      show ({ (s2.push s []).setAg s2.scopes.length (s2.push s []).ctxs.length with
        ctxs := (s2.push s []).ctxs ++ [[]] } : St F S).scp s2.scopes.length = _
      unfold St.setAg
      exact scp_set_self (by simp)
    show ((((Prim.newAg s2.scopes.length : Prim F S).step (s2.push s [])).2).scp s2.scopes.length).vars = _
    rw [this]
    simp [push_scp, hv2]
  have f3 := h3.frame hH (polite_stores _ _ _)
  have hl4 := Nat.lt_of_lt_of_le hlen h3.grows.scopes
  refine ⟨args, s1, args', s2, s2.scopes.length, _, vars, s4, _, _, runs_buildArgs.1 h1,
    (runs_applyDefaults hq).1 h2, runs_stores.1 h3, hsub, ?_, h⟩
  have hcp : ∀ (x : St F S) (i : Nat), (((Prim.copy i : Prim F S).step x).2) = x.push i [] := by
    intro x i
    have := copy_push (F := F) (S := S) x i
    first | exact this | exact congrArg Prod.snd this
  show ((((Prim.copy s2.scopes.length : Prim F S).step (s4.appendVar s2.scopes.length (.dict vars))).2).scp _).vars = _
  rw [hcp]
  show ((St.push (s4.appendVar s2.scopes.length (.dict vars)) s2.scopes.length []).scp (s4.appendVar s2.scopes.length (.dict vars)).scopes.length).vars = _
  rw [push_scp, appendVar_scp _ _ _ hl4, f3.vars _ hlen, hsub]
  simp

theorem polite_queryDefaults (s : Nat) (v : V F) (args : OD (V F)) :
    (queryDefaultsP s v args : Prog F S _).Polite false [] := by
  unfold queryDefaultsP
  split
  · exact polite_applyDefaultsP _ _ _ _
  · trivial

/-- **C34** `f(a=e1, ..)` inside an expression for `LET f(a, b=d) = SELECT ..`: the arguments and
the defaults of missing parameters are evaluated in the caller's scope; the value is a query
that remembers `f` and a scope whose variables are those of the caller with the arguments as
innermost set. -/
theorem C34_call_site (hH : H.Polite) {node : Nat} {symbol : Str} {p : Arg} {params : List Arg} {s : Nat}
    {st st' : St F S} {a : V F} {q : SQuery} (hs : s < st.scopes.length) (hd : (st.scp s).depth < 999)
    (hq : Spelled q.defaults)
    (h : Runs H (symValueP H node symbol true (p :: params) false s (.obj (.squery q))) st a st') :
    ∃ s0 args s1 args' s2 sub c,
      (s0.scp s).vars = (st.scp s).vars ∧
      ArgsRun H s [] (p :: params) s0 args s1 ∧ DefaultsRun H s args q.defaults s1 args' s2 ∧
      a = .obj (.site c) ∧ st'.sites[c]? = some (.obj (.squery q), sub) ∧ sub < st'.scopes.length ∧
      (st'.scp sub).vars = (st.scp s).vars ++ [.dict args'] ∧
      (∀ i < st.scopes.length, (st'.scp i).vars = (st.scp i).vars) := by
  have hlen : st.scopes.length < (((Prim.newAg st.scopes.length : Prim F S).step (st.push s [])).2).scopes.length := by
    simp [Prim.step, St.setAg]
  have hsub : (((Prim.newAg st.scopes.length : Prim F S).step (st.push s [])).2).scp st.scopes.length =
      { (st.push s []).scp st.scopes.length with ag := some (st.push s []).ctxs.length } := by
    show ({ (st.push s []).setAg st.scopes.length (st.push s []).ctxs.length with
      ctxs := (st.push s []).ctxs ++ [[]] } : St F S).scp st.scopes.length = _
    unfold St.setAg
    exact scp_set_self (by simp)
  have hcal : ∀ i < st.scopes.length,
      (((Prim.newAg st.scopes.length : Prim F S).step (st.push s [])).2).scp i = st.scp i := by
    intro i hi
    show ({ (st.push s []).setAg st.scopes.length (st.push s []).ctxs.length with
      ctxs := (st.push s []).ctxs ++ [[]] } : St F S).scp i = _
    unfold St.setAg
    exact (scp_set_ne (st := (st.push s [])) (Nat.ne_of_gt hi)).trans (push_scp_lt _ _ _ hi)
  have hov : overflow ((((Prim.newAg st.scopes.length : Prim F S).step (st.push s [])).2).scp st.scopes.length).depth
      = false := by
    rw [hsub, push_scp]
    simp [overflow]; omega
  simp only [symValueP, isQuery, List.isEmpty_cons, and_self, argsP, if_true, negateP, Bool.false_eq_true, if_false,
    queryDefaultsP] at h
  rw [runs_pb, copy_push, runs_pb, runs_pb] at h
  simp only [Prim.step] at hov
  simp only [Prim.step, hov, Bool.false_eq_true, if_false] at h
  obtain ⟨args, s1, h1, h⟩ := runs_bind.1 h
  obtain ⟨args', s2, h2, h⟩ := runs_bind.1 h
  rw [runs_pb, runs_pb] at h
  obtain ⟨rfl, rfl⟩ := runs_pure.1 h
  have f1 := h1.frame hH (polite_buildArgsP (fl := false) _ _ _)
  have f2 := h2.frame hH (polite_applyDefaultsP (fl := false) _ _ _ _)
  have hl1 := Nat.lt_of_lt_of_le hlen h1.grows.scopes
  have hl2 := Nat.lt_of_lt_of_le hl1 h2.grows.scopes
  refine ⟨_, args, s1, args', s2, st.scopes.length, _, ?_, runs_buildArgs.1 h1,
    (runs_applyDefaults hq).1 h2, rfl, ?_, ?_, ?_, ?_⟩
  · exact congrArg Scp.vars (hcal s hs)
  · simp [Prim.step]
  · simpa [Prim.step, St.appendVar] using hl2
  · show ((s2.appendVar st.scopes.length (.dict args')).scp _).vars = _
    rw [appendVar_scp _ _ _ hl2]
    show (s2.scp _).vars ++ _ = _
    rw [f2.vars _ hl1, f1.vars _ hlen]
    refine (congrArg (fun v : Scp F => v.vars ++ [Val.dict args']) hsub).trans ?_
    simp [push_scp]
  · intro i hi
    have hi1 := Nat.lt_trans hi hlen
    have hi2 := Nat.lt_of_lt_of_le hi1 h1.grows.scopes
    show ((s2.appendVar st.scopes.length (.dict args')).scp _).vars = _
    unfold St.appendVar
    rw [scp_set_ne (Nat.ne_of_gt hi), f2.vars _ hi2, f1.vars _ hi1]
    exact congrArg Scp.vars (hcal i hi)

/-- **C34** Reading that query later, in whatever scope and after whatever else was evaluated,
runs the stored query over the variables it remembers. -/
theorem C34_call_site_rows (hH : H.Polite) {α : Type} {p : Prog F S α} {x : α} {c sub s' : Nat} {q : SQuery}
    {st st1 st' : St F S} {rows : List (V F)} (hp : p.Polite false [])
    (hc : st.sites[c]? = some (.obj (.squery q), sub)) (hsub : sub < st.scopes.length)
    (hr : Runs H p st x st1)
    (h : Runs H (call (.evalQuery (.obj (.site c)) s')) st1 rows st') :
    ∃ s3 ns, (s3.scp ns).vars = (st.scp sub).vars ∧ Runs H (call (.select q.query ns)) s3 rows st' := by
  have hc1 : st1.sites[c]? = some (.obj (.squery q), sub) := by
    obtain ⟨l, hl⟩ := hr.grows.sites
    rw [← hl, List.getElem?_append_left]
    · exact hc
    · exact (List.getElem?_eq_some_iff.1 hc).1
  have hv : (st1.scp sub).vars = (st.scp sub).vars := (hr.frame hH hp).vars _ hsub
  rw [runs_call] at h
  simp only [body] at h
  rw [runs_pb] at h
  simp only [Prim.step, hc1] at h
  rw [runs_call] at h
  simp only [body] at h
  rw [runs_pb, copy_push] at h
  refine ⟨_, _, ?_, h⟩
  rw [push_scp]
  simp [hv]

end

/-! ## Examples -/

/-- `LET a <= 1  LET x = a + 1  LET y <= a + 1  LET a <= 5  SELECT x, y FROM scope()`:
`x` sees the later definition of `a`, `y` keeps its value. -/
example : givesAll demoSrc [] [.letE "a" true (.val (.int "1")),
    .letE "x" false (.plus (.name 0 "a") (.int "1")), .letE "y" true (.plus (.name 1 "a") (.int "1")),
    .letE "a" true (.val (.int "5")),
    .query (.mk false false [.ex (.val (.name 2 "x")) "x", .ex (.val (.name 3 "y")) "y"]
      (.src "scope") none none none none)]
    [[], [], [], [], [.dict [(bs "x", .int 6#64), (bs "y", .int 2#64)]]] = true := by decide +kernel

/-- `LET b <= 10  LET f(a, b=a + 1) = a + b`: in `f(a=1)` the default of `b` is evaluated in
the scope of the caller, where `a` is not the parameter but the caller's variable. -/
example : givesAll demoSrc [(bs "a", .int 100#64)] [
    .let_ (bs "f") true [⟨bs "a", none⟩, ⟨bs "b", some (.expr (.plus (.name 0 "a") (.int "1")))⟩] false
      (.expr (.plus (.name 1 "a") (.name 2 "b"))),
    .query (.mk false false [.ex (.val (.fcall 3 "f" [("a", .val (.int "1"))])) "d",
      .ex (.val (.fcall 4 "f" [("a", .val (.int "1")), ("b", .val (.int "2"))])) "g",
      .ex (.val (.name 5 "a")) "a"] (.src "scope") none none none none)]
    [[], [.dict [(bs "d", .int 102#64), (bs "g", .int 3#64), (bs "a", .int 100#64)]]] = true := by
  decide +kernel

/-- A missing parameter without default is not NULL, it is the caller's variable. -/
example : givesAll demoSrc [(bs "a", .int 100#64)] [
    .let_ (bs "f") true [⟨bs "a", none⟩] false (.expr (.val (.name 1 "a"))),
    .query (.one (.val (.fcall 3 "f" [])) "d" (.src "scope"))]
    [[], [.dict [(bs "d", .int 100#64)]]] = true := by
  decide +kernel

/-- `LET q(n) = SELECT a + n AS x FROM src  SELECT * FROM q(n=10)`. -/
example : givesAll demoSrc [] [
    .let_ (bs "q") true [⟨bs "n", none⟩] false (.select (.one (.plus (.name 0 "a") (.name 1 "n")) "x" (.src "src"))),
    .query (.mk false true [] (.mk (bs "q") true [.mk (bs "n") (.expr (.val (.int "10")))]) none none none none)]
    [[], [.dict [(bs "x", .int 11#64)], .dict [(bs "x", .int 12#64)], .dict [(bs "x", .int 13#64)]]] = true := by
  decide +kernel

/-- `LET q(b={ SELECT a FROM src }) = SELECT a FROM b  SELECT * FROM q()`, with the parameter
written as `name`. -/
def queryDefault (name : String) : List Stmt := [
    .let_ (bs "q") true [⟨bs name, some (.select (.one (.val (.name 0 "a")) "a" (.src "src")))⟩] false
      (.select (.one (.val (.name 1 "a")) "a" (.mk (bs "b") false []))),
    .query (.mk false true [] (.mk (bs "q") true []) none none none none)]

/-- A default `{ SELECT }` is used as any other default. -/
example : givesAll demoSrc [] (queryDefault "b")
    [[], [.dict [(bs "a", .int 1#64)], .dict [(bs "a", .int 2#64)], .dict [(bs "a", .int 3#64)]]] = true := by
  decide +kernel

/-- **C34 (refuted without `Spelled`)** With back quotes around the name of the parameter the
default is bound under the quoted name, so that the parameter has no value. -/
theorem C34_quoted_default_refuted : givesAll demoSrc [] (queryDefault "`b`") [[], []] = true := by
  decide +kernel

/-- `LET q(n) = SELECT a + n AS x FROM src  LET r = q(n=10)  LET n <= 99  SELECT * FROM r`: the
query in `r` remembers its argument. -/
example : givesAll demoSrc [] [
    .let_ (bs "q") true [⟨bs "n", none⟩] false (.select (.one (.plus (.name 0 "a") (.name 1 "n")) "x" (.src "src"))),
    .letE "r" false (.val (.fcall 2 "q" [("n", .val (.int "10"))])),
    .letE "n" true (.val (.int "99")),
    .query (.mk false true [] (.mk (bs "r") false []) none none none none)]
    [[], [], [], [.dict [(bs "x", .int 11#64)], .dict [(bs "x", .int 12#64)], .dict [(bs "x", .int 13#64)]]] = true := by
  decide +kernel

end Vfilter.Vql
