import Verif.Props.EvalLet
import Verif.EvalLazy
import Verif.EvalTermStd
import Verif.Props.EvalRepeat
/-!
# Recursion (C22)
-/
set_option linter.all false

namespace Vfilter.Vql

section
variable {F S : Type} [FloatOps F] {H : Host F S}

/-- `v.name` where `v` is a single value. -/
def AndE.dot (v : Value) (name : String) : AndE :=
  .mk (.mk (.cmp (.mk (.mk (.mk v [.field (bs name)]) []) []) none) []) []

theorem runs_and_dot {v : Value} {name : String} {s : Nat} {st st' : St F S} {a : V F} :
    Runs H (call (.and (.dot v name) s)) st a st' ↔
      ∃ x s1, Runs H (call (.value v s)) st x s1 ∧ Runs H (memberLoopP s x [.field (bs name)]) s1 a st' := by
  rw [runs_call]
  simp only [AndE.dot, body]
  rw [runs_bind_pure]
  conv => lhs; rw [runs_call]
  simp only [body]
  rw [runs_bind_pure]
  conv => lhs; rw [runs_call]
  simp only [body]
  conv => lhs; rw [runs_call]
  simp only [body, foldP]
  rw [runs_bind_pure]
  conv => lhs; rw [runs_call]
  simp only [body, foldP]
  rw [runs_bind_pure]
  conv => lhs; rw [runs_call]
  simp only [body]
  exact runs_bind

/-- `scope().Foo` -/
def loopExpr : AndE := .dot (.fcall 0 "scope" []) "Foo"

/-- What `LET Foo = scope().Foo` stores. -/
def loopVal : V F := .obj (.sexpr ⟨bs "Foo", [], [], loopExpr⟩)

/-- `Foo` is the looping definition in scope `s`. -/
structure LoopInv (st : St F S) (s : Nat) : Prop where
  lt : s < st.scopes.length
  depth : (st.scp s).depth < 1000
  vars : ∃ ds : List (OD (V F)), (st.scp s).vars = ds.map .dict ∧ lookup ds (bs "Foo") = some loopVal
  fns : ∀ p, st.fns.find? (fun p => p.1 == 0) = some p → p.2 = bs "scope"
end

theorem loop_eval {sources : OD (List (V F64))} {s : Nat} {st st' : St F64 Unit} {v : V F64}
    (hi : LoopInv st s) (h : Runs (demo sources) (call (.and loopExpr s)) st v st') :
    v = loopVal ∧ LoopInv st' s := by
  obtain ⟨x, s1, h1, h2⟩ := runs_and_dot.1 h
  have h1' : Runs (demo sources) (call (.value (.sym (.mk 0 (bs "scope") true [])) s)) st x s1 := h1
  rw [runs_fcall (c := bs "scope") (by decide +kernel) (by decide) (by simp [demo, stdHost])] at h1'
  unfold callFunctionP at h1'
  simp only [fnArgsP, foldP] at h1'
  rw [runs_rb, runs_pb] at h1'
  have hf : ((Prim.fnOf 0 (bs "scope") : Prim F64 Unit).step (st.seen 0)).1 = bs "scope" ∧
      LoopInv ((Prim.fnOf 0 (bs "scope") : Prim F64 Unit).step (st.seen 0)).2 s := by
    simp only [Prim.step]
    have hfns : (st.seen 0).fns = st.fns := rfl
    cases hc : (st.seen 0).fns.find? (fun p => p.1 == 0) with
    | none =>
      refine ⟨rfl, hi.lt, hi.depth, hi.vars, ?_⟩
      intro p hp
      simp only at hp
      rw [List.find?_append, hc] at hp
      simp at hp
      rw [← hp]
    | some p => exact ⟨hi.fns p (hfns ▸ hc), hi.lt, hi.depth, hi.vars, hi.fns⟩
  rw [hf.1] at h1'
  obtain ⟨rfl, rfl⟩ := runs_pure.1 h1'
  have hi1 := hf.2
  generalize ((Prim.fnOf 0 (bs "scope") : Prim F64 Unit).step (st.seen 0)).2 = s2 at h2 hi1
  obtain ⟨ds, hv, hl⟩ := hi1.vars
  unfold memberLoopP at h2
  obtain ⟨r, s3, h3, h4⟩ := runs_bind.1 h2
  have hid : ident (bs "Foo") = bs "Foo" := by decide +kernel
  rw [hid, runs_assoc_scope, resolve_dicts (by unfold PlainKey; decide +kernel) hi1.depth hv, hl] at h3
  obtain ⟨rfl, rfl⟩ := h3
  simp only [memberLoopP, Option.isSome_some, Option.getD_some] at h4
  obtain ⟨rfl, rfl⟩ := runs_pure.1 h4
  exact ⟨rfl, hi1⟩

/-- Evaluating the source `Foo` never finishes. -/
theorem loop_evalSymbol {sources : OD (List (V F64))} {s : Nat} : ∀ (n : Nat) (st : St F64 Unit),
    LoopInv st s → run (demo sources) n (.evalSymbol loopVal s) st = none
  | 0, st, _ => rfl
  | n + 1, st, hi => by
    have ho : overflow (st.scp s).depth = false := by have := hi.depth; simp [overflow]; omega
    rw [run]
    simp only [body, bind_eq, prim, Prog.bind, interp, Prim.step, ho, Bool.false_eq_true, if_false, loopVal,
      call]
    cases hr : run (demo sources) n (.and loopExpr s) st with
    | none => rfl
    | some r =>
      have h : Runs (demo sources) (call (.and loopExpr s)) st r.1 r.2 := by
        refine ⟨n, ?_⟩
        simp only [exec, call, interp, hr]
      obtain ⟨hv, hi'⟩ := loop_eval hi h
      have ih := loop_evalSymbol (sources := sources) n r.2 hi'
      obtain ⟨v, s1⟩ := r
      simp only at hv ih
      subst hv
      simp only [ih]

/-- **C22** refuted: `LET Foo = scope().Foo SELECT * FROM Foo` never finishes, for any
recursion depth of the evaluator, while the scope stays at depth 1. -/
theorem C22_refuted (sources : OD (List (V F64))) : ∀ n, runStmts (demo sources) n
    [.letE "Foo" false loopExpr, .query (.mk false true [] (.mk (bs "Foo") false []) none none none none)]
    0 (St.init []) = none := by
  intro n
  have h1 : exec (demo sources) n (stmtP (demo sources) (.letE "Foo" false loopExpr) 0) (St.init []) =
      some ([], (St.init []).appendVar 0 (.dict [(bs "Foo", loopVal)])) := rfl
  simp only [runStmts, h1]
  cases h2 : exec (demo sources) n (stmtP (demo sources)
    (.query (.mk false true [] (.mk (bs "Foo") false []) none none none none)) 0)
    ((St.init []).appendVar 0 (.dict [(bs "Foo", loopVal)])) with
  | none => rfl
  | some r =>
    exfalso
    have h : Runs (demo sources) (stmtP (demo sources)
      (.query (.mk false true [] (.mk (bs "Foo") false []) none none none none)) 0)
      ((St.init []).appendVar 0 (.dict [(bs "Foo", loopVal)])) r.1 r.2 := ⟨n, h2⟩
    simp only [stmtP] at h
    rw [runs_pb, runs_pb] at h
    obtain ⟨S0, hi, h⟩ : ∃ S0, LoopInv S0 1 ∧ Runs (demo sources)
        (call (.select (.mk false true [] (.mk (bs "Foo") false []) none none none none) 1)) S0 r.1 r.2 := by
      refine ⟨_, ⟨?_, ?_, ?_, ?_⟩, h⟩
      · exact Nat.lt_succ_self 1
      · exact (by decide : 1 < 1000)
      · exact ⟨[[], [(bs "Foo", loopVal)], [(bs "$Query", .str [])]], rfl, rfl⟩
      · intro p hp; cases hp
    rw [runs_select] at h
    obtain ⟨rows, s1, _, hp, _⟩ := h
    rw [runs_call] at hp
    simp only [body] at hp
    obtain ⟨found, s2, h3, h4⟩ := runs_bind.1 hp
    have hspl : splitIdent (bs "Foo") = [bs "Foo"] := by decide +kernel
    rw [hspl] at h3
    simp only [findP, Bool.false_eq_true, false_and, if_false] at h3
    obtain ⟨e, b, s3, h5, h6⟩ := runs_walk_one.1 h3
    obtain ⟨ds, hv1, hv2⟩ := hi.vars
    have h5' := (resolve_dicts (s := 1) (by unfold PlainKey; decide +kernel) hi.depth hv1).1 h5
    rw [hv2] at h5'
    obtain ⟨h7, rfl⟩ := h5'
    cases h7
    simp only [if_true, Option.getD_some] at h6
    obtain ⟨rfl, rfl⟩ := h6
    simp only [Bool.false_eq_true, if_false] at h4
    obtain ⟨m, h4⟩ := h4
    simp only [exec, call, interp, loop_evalSymbol (sources := sources) m _ hi] at h4
    cases h4

/-! ## Recursive defaults never finish either -/

section
variable {F S : Type} [FloatOps F] {H : Host F S}

theorem exec_bind {α β : Type} {n : Nat} {p : Prog F S α} {f : α → Prog F S β} {st : St F S} {r : β × St F S}
    (h : exec H n (p >>= f) st = some r) :
    ∃ a s1, exec H n p st = some (a, s1) ∧ exec H n (f a) s1 = some r := by
  change exec H n (p.bind f) st = some r at h
  rw [exec, interp_bind] at h
  cases hp : interp (run H n) p st with
  | none => simp [hp] at h
  | some x => rw [hp] at h; exact ⟨x.1, x.2, hp, h⟩

theorem exec_call {n : Nat} {c : Call F} {st : St F S} {r : c.Ret × St F S} (h : exec H n (call c) st = some r) :
    ∃ m, n = m + 1 ∧ exec H m (body H c) st = some r := by
  have h' : run H n c st = some r := by
    simp only [exec, call, interp] at h
    cases hr : run H n c st with
    | none => rw [hr] at h; cases h
    | some x => rw [hr] at h; simpa using h
  cases n with
  | zero => simp [run] at h'
  | succ m => exact ⟨m, rfl, h'⟩

theorem exec_bind_pure {α : Type} {n : Nat} {p : Prog F S α} {st : St F S} {r : α × St F S}
    (h : exec H n (p >>= fun x => pure x) st = some r) : exec H n p st = some r := by
  obtain ⟨a, s1, h1, h2⟩ := exec_bind h
  rw [h1]
  exact h2

/-- Evaluating a value wrapped in all the levels of the grammar evaluates the value, with
less depth. -/
theorem exec_and_val {n : Nat} {v : Value} {s : Nat} {st : St F S} {r : V F × St F S}
    (h : exec H n (call (.and (.val v) s)) st = some r) :
    ∃ m, m < n ∧ exec H m (call (.value v s)) st = some r := by
  obtain ⟨n1, e1, h1⟩ := exec_call h
  obtain ⟨n2, e2, h2⟩ := exec_call (exec_bind_pure h1)
  obtain ⟨n3, e3, h3⟩ := exec_call (exec_bind_pure h2)
  obtain ⟨n4, e4, h4⟩ := exec_call h3
  obtain ⟨n5, e5, h5⟩ := exec_call (exec_bind_pure h4)
  obtain ⟨n6, e6, h6⟩ := exec_call (exec_bind_pure h5)
  exact ⟨n6, by omega, exec_bind_pure h6⟩

/-- `f()` -/
def dfltCall (node : Nat) : Sym := .mk node (bs "f") true []

/-- What `LET f(x=f()) = e` stores. -/
def dfltVal (node : Nat) (e : AndE) : V F :=
  .obj (.sexpr ⟨bs "f", [bs "x"], [(bs "x", .mk (bs "x") (.expr (.val (.sym (dfltCall node)))))], e⟩)

/-- `f` is that definition in scope `s`. -/
structure DfltInv (node : Nat) (e : AndE) (st : St F S) (s : Nat) : Prop where
  lt : s < st.scopes.length
  depth : (st.scp s).depth < 999
  vars : ∃ ds : List (OD (V F)), (st.scp s).vars = ds.map .dict ∧ lookup ds (bs "f") = some (dfltVal node e)

theorem dflt_loop {node : Nat} {e : AndE} (hf : H.isFn (bs "f") = false) {s : Nat} : ∀ (n : Nat) (st : St F S)
    (r : V F × St F S), DfltInv node e st s → exec H n (call (.sym (dfltCall node) s)) st ≠ some r := by
  intro n
  induction n using Nat.strongRecOn with
  | _ n ih =>
  intro st r hi h0
  obtain ⟨n, rfl, h⟩ := exec_call h0
  clear h0
  have hspl : splitIdent (bs "f") = [bs "f"] := by decide +kernel
  have htrim : trimMinus [bs "f"] = [bs "f"] := by decide +kernel
  have hmin : hasMinus [bs "f"] = false := by decide +kernel
  simp only [dfltCall, body, symP, hspl, htrim, hmin, Bool.and_false, findP, hf, Bool.false_eq_true, and_false,
    if_false] at h
  obtain ⟨b, s1, h1, h⟩ := exec_bind h
  obtain ⟨rfl, rfl⟩ := runs_prim.1 ⟨n, h1⟩
  obtain ⟨found, s2, h2, h⟩ := exec_bind h
  obtain ⟨ev, b, s3, h5, h6⟩ := runs_walk_one.1 ⟨n, h2⟩
  obtain ⟨ds, hv1, hv2⟩ := hi.vars
  have h5' := (resolve_dicts (s := s) (st := ((Prim.split node : Prim F S).step st).2)
    (by unfold PlainKey; decide +kernel) (Nat.lt_trans hi.depth (by decide)) hv1).1 h5
  rw [hv2] at h5'
  obtain ⟨h7, rfl⟩ := h5'
  cases h7
  simp only [if_true, Option.getD_some] at h6
  obtain ⟨rfl, rfl⟩ := h6
  simp only [dfltVal, symValueP] at h
  obtain ⟨sub, s4, h4, h⟩ := exec_bind h
  obtain ⟨rfl, rfl⟩ := runs_prim.1 ⟨n, h4⟩
  obtain ⟨_, s5, h5, h⟩ := exec_bind h
  simp only [agP, if_true] at h5
  obtain ⟨_, rfl⟩ := runs_prim.1 ⟨n, h5⟩
  obtain ⟨d, s6, h6, h⟩ := exec_bind h
  obtain ⟨hd, rfl⟩ := runs_prim.1 ⟨n, h6⟩
  -- the state in which the default is evaluated
  generalize hS : ((Prim.depth _ : Prim F S).step _).2 = s6 at h
  have hin : Ext ⟨fun _ => True, fun _ => True, fun _ => True⟩ st s6 := by
    rw [← hS]
    have hx : Ext ⟨fun _ => True, fun _ => True, fun _ => True⟩ st ((Prim.split node : Prim F S).step st).2 :=
      ext_eq rfl rfl rfl rfl
    exact (hx.trans (sub_copy _ _).ext).trans (ext_newAg _ _)
  have hd' : d = (st.scp s).depth + 1 := by
    rw [hd]
    show (St.scp _ _).depth = _
    simp only [Prim.step]
    have hc := sub_copy (G := ⟨fun _ => True, fun _ => True, fun _ => True⟩) ((Prim.split node : Prim F S).step st).2 s
    exact (hc.step (ext_newAg _ _)).depth
  have ho : overflow d = false := by rw [hd']; have := hi.depth; simp [overflow]; omega
  simp only [ho, Bool.false_eq_true, if_false, argsP, buildArgsP, if_true, foldP] at h
  obtain ⟨args, s7, h7, g⟩ := exec_bind h
  clear h
  obtain ⟨rfl, rfl⟩ := runs_pure.1 ⟨n, h7⟩
  obtain ⟨args, s8, h8, h⟩ := exec_bind g
  simp only [applyDefaultsP, foldP, OD.get] at h8
  obtain ⟨_, s9, h9, _⟩ := exec_bind h8
  obtain ⟨v, s10, h10, _⟩ := exec_bind h9
  obtain ⟨m, hm, h11⟩ := exec_and_val h10
  obtain ⟨m', e', h12⟩ := exec_call h11
  exact ih m' (by omega) _ _ ⟨Nat.lt_of_lt_of_le hi.lt hin.len, by rw [hin.depth s hi.lt]; exact hi.depth,
    by rw [hin.vars s hi.lt]; exact hi.vars⟩ h12

/-- **C22** refuted a second time: with `LET f(x=f()) = e` in scope, whatever `e` is, `f()`
never finishes, although the scope never gets deeper. -/
theorem C22_default_refuted {node : Nat} {e : AndE} (hf : H.isFn (bs "f") = false) {s : Nat} {st : St F S}
    (hi : DfltInv node e st s) : ¬ Halts H (call (.sym (dfltCall node) s)) st := by
  rintro ⟨a, st', n, h⟩
  exact dflt_loop hf n st _ hi h

/-- `LET f(x=f()) = e` leads there. -/
theorem C22_default_let {node : Nat} {e : AndE} {vars : OD (V F64)} {st' : St F64 Unit} {out : List (V F64)}
    {H : Host F64 Unit} (h : Runs H (stmtP H (.let_ (bs "f") true [⟨bs "x", some (.expr (.val (.sym (dfltCall node))))⟩]
      false (.expr e)) 0) (St.init vars) out st') : DfltInv node e st' 0 := by
  simp only [stmtP, Bool.false_eq_true, if_false] at h
  rw [runs_pb] at h
  obtain ⟨_, rfl⟩ := runs_pure.1 h
  exact ⟨Nat.zero_lt_one, (by decide : 0 < 999), [vars, [(bs "f", dfltVal node e)]], rfl, by
    simp only [lookup]; rfl⟩

/-! ## The cut-off -/

/-- A name beyond the limit: NULL, unless it is a call of a registered function. -/
theorem C22_cutoff_name {node : Nat} {symbol c : Str} {cs : List Str} {called : Bool} {params : List Arg} {s : Nat}
    {st st' : St F S} {a : V F} (hd : 1000 ≤ (st.scp s).depth) (hs : trimMinus (splitIdent symbol) = c :: cs)
    (hf : called = true → cs = [] → H.isFn c = false)
    (h : Runs H (call (.sym (.mk node symbol called params) s)) st a st') : a = .null := by
  rw [runs_call] at h
  simp only [body, symP] at h
  rw [runs_pb] at h
  obtain ⟨found, s1, h1, h2⟩ := runs_bind.1 h
  rw [hs] at h1
  have hw : findP H.isFn Obj.fn called (c :: cs) s =
      (walkP s true (.obj (.scope s)) (c :: cs) : Prog F S (Option (V F))) := by
    unfold findP
    split
    · next c' heq =>
      cases heq
      rw [if_neg]
      rintro ⟨h1, h2⟩
      rw [hf h1 rfl] at h2
      cases h2
    · rfl
  rw [hw] at h1
  unfold walkP at h1
  obtain ⟨r, s2, h3, h4⟩ := runs_bind.1 h1
  rw [runs_assoc_scope] at h3
  obtain ⟨rfl, rfl⟩ := (runs_resolve_deep (st := ((Prim.split node : Prim F S).step st).2) hd).1 h3
  simp only [if_true] at h4
  rw [runs_pb] at h4
  obtain ⟨rfl, rfl⟩ := runs_pure.1 h4
  exact (runs_pure.1 h2).1

/-- Calling a LET definition (or naming one) when its scope would be beyond the limit: NULL,
and the definition's body is not evaluated. -/
theorem C22_cutoff_let {node : Nat} {symbol : Str} {called neg : Bool} {params : List Arg} {e : SExpr} {s : Nat}
    {st st' : St F S} {a : V F} (hd : 999 ≤ (st.scp s).depth)
    (h : Runs H (symValueP H node symbol called params neg s (.obj (.sexpr e))) st a st') : a = .null := by
  simp only [symValueP] at h
  rw [runs_pb] at h
  obtain ⟨_, s1, h1, h2⟩ := runs_bind.1 h
  rw [runs_pb] at h2
  have hc := sub_copy (G := ⟨fun _ => True, fun _ => True, fun _ => True⟩) st s
  have hx : Ext ⟨fun _ => True, fun _ => True, fun _ => True⟩ ((Prim.copy s : Prim F S).step st).2 s1 := by
    unfold agP at h1
    split at h1
    · obtain ⟨_, rfl⟩ := runs_prim.1 h1
      exact ext_newAg _ _
    · obtain ⟨_, rfl⟩ := runs_pure.1 h1
      exact Ext.refl _
  have hdep := (hc.step hx).depth
  have ho : overflow (s1.scp ((Prim.copy s : Prim F S).step st).1).depth = true := by
    rw [hdep]; simp [overflow]; omega
  simp only [Prim.step] at h2 ho
  simp only [ho, if_true] at h2
  exact (runs_pure.1 h2).1

/-- A source beyond the limit delivers no rows, whatever it refers to: nothing is called and
no query is evaluated. -/
theorem C22_cutoff_source {params : List Arg} {v : V F} {s : Nat} {st st' : St F S} {rows : List (V F)}
    (hd : 1000 ≤ (st.scp s).depth) :
    (Runs H (call (.evalSymbol v s)) st rows st' → rows = []) ∧
    (Runs H (call (.evalSymbolWithArgs params v s)) st rows st' → rows = []) := by
  have ho : overflow (st.scp s).depth = true := by simp [overflow]; omega
  constructor
  all_goals
    intro h
    rw [runs_call] at h
    simp only [body] at h
    rw [runs_pb] at h
    simp only [Prim.step, ho, if_true] at h
    exact (runs_pure.1 h).1

/-! ## Programs that finish -/

/-- A literal. -/
def Value.isLit : Value → Prop
  | .sym _ => False
  | .sub _ => False
  | _ => True

/-- A parameter of a LET definition without a default, or with a literal one. -/
def litParam (p : LetParam) : Prop :=
  p.dflt = none ∨ p.dflt = some .empty ∨ ∃ v : Value, v.isLit ∧ p.dflt = some (.expr (.val v))

/-- A statement of the fragment.  LET queries are stored under the names reserved for
queries. -/
def Frag.stmt (G : Frag) : Stmt → Prop
  | .let_ _ _ params _ (.expr e) => G.and e ∧ ∀ p ∈ params, litParam p
  | .let_ name _ params _ (.select q) => G.isQ (ident name) ∧ G.select q ∧ ∀ p ∈ params, litParam p
  | .query q => G.select q

/-- A scope with data and definitions of the fragment. -/
structure RootOK (G : Frag) (H : Host F S) (st : St F S) (s : Nat) : Prop where
  lt : s < st.scopes.length
  vars : ∀ v ∈ (st.scp s).vars, Data v ∨ ∃ d : OD (V F), v = .dict d ∧ ∀ p ∈ d, ValOK G H p.1 p.2
  fns : FnsOK G st

variable {G : Frag}

theorem RootOK.at {st : St F S} {s : Nat} (h : RootOK G H st s) : At G H 1001 st s :=
  ⟨⟨h.lt, fun v hv => (h.vars v hv).imp id Or.inl, h.fns⟩, by omega⟩

theorem RootOK.ext {st st1 : St F S} {s : Nat} (h : RootOK G H st s) (hx : Ext G st st1) : RootOK G H st1 s :=
  ⟨Nat.lt_of_lt_of_le h.lt hx.len, by rw [hx.vars s h.lt]; exact h.vars, hx.fns h.fns⟩

theorem RootOK.append {st : St F S} {s : Nat} (h : RootOK G H st s) {k : Str} {v : V F} (hv : ValOK G H k v) :
    RootOK G H (st.appendVar s (.dict [(k, v)])) s := by
  refine ⟨by simpa [St.appendVar] using h.lt, fun x hx => ?_, h.fns⟩
  rw [show (st.appendVar s (.dict [(k, v)])).scp s = { st.scp s with vars := (st.scp s).vars ++ [.dict [(k, v)]] }
    from scp_set_self h.lt] at hx
  rcases List.mem_append.1 hx with hx | hx
  · exact h.vars x hx
  · rw [List.mem_singleton.1 hx]
    refine Or.inr ⟨_, rfl, fun p hp => ?_⟩
    rw [List.mem_singleton.1 hp]
    exact hv

theorem ends_lit (hT : Total G H) {v : Value} (hv : v.isLit) {s : Nat} {st : St F S} :
    Ends G H (call (.and (.val v) s)) st Data := by
  have h : Ends G H (call (.value v s)) st Data := by
    refine ends_call ?_
    cases v with
    | sym x => cases hv
    | sub x => cases hv
    | num t =>
      simp only [body]
      cases hn : H.num t with
      | none => exact ends_prim (ext_eq rfl rfl rfl rfl) (ends_pure (by simp [Data]))
      | some x => exact ends_pure (by simpa using hT.num t x hn)
    | str t => exact ends_pure (by simp [Data])
    | bool t => exact ends_pure (by simp [Data])
    | null => exact ends_pure (by simp [Data])
  obtain ⟨a, st', h1, h2, h3⟩ := h
  exact ⟨a, st', runs_and_val.2 h1, h2, h3⟩

theorem closed_params (hT : Total G H) : ∀ {ps : List LetParam}, (∀ p ∈ ps, litParam p) →
    ∀ d ∈ (letParams ps).2, ArgClosed G H d.2 := by
  intro ps hps
  simp only [letParams]
  have key : ∀ (ps : List LetParam) (acc : List (Str × Arg)), (∀ p ∈ ps, litParam p) →
      (∀ d ∈ acc, ArgClosed G H d.2) →
      ∀ d ∈ ps.foldl (fun acc p => match p.dflt with
        | none => acc
        | some d => OD.update acc (ident p.name) (.mk p.name d)) acc, ArgClosed G H d.2 := by
    intro ps
    induction ps with
    | nil => intro acc _ ha; exact ha
    | cons p ps ih =>
      intro acc hp ha
      simp only [List.foldl_cons]
      refine ih _ (fun q hq => hp q (List.mem_cons_of_mem _ hq)) ?_
      rcases hp p (by simp) with h | h | ⟨v, hv, h⟩
      · rw [h]; exact ha
      · rw [h]
        intro d hd
        rcases mem_update hd with hd | rfl
        · exact ha d hd
        · trivial
      · rw [h]
        intro d hd
        rcases mem_update hd with hd | rfl
        · exact ha d hd
        · exact fun st s => ends_lit hT hv
  exact key ps [] hps (by simp)

/-- One statement finishes and leaves a scope of the fragment. -/
theorem ends_stmt (hT : Total G H) {q : Stmt} (hq : G.stmt q) {s : Nat} {st : St F S} (hs : RootOK G H st s) :
    ∃ rows st', Runs H (stmtP H q s) st rows st' ∧ RootOK G H st' s := by
  match q, hq with
  | .let_ name c params mat (.expr e), hq =>
    simp only [stmtP]
    cases mat with
    | true =>
      obtain ⟨v, s1, h1, x1, hv⟩ := exprOK hT 1001 st s e hs.at hq.1
      refine ⟨[], _, ?_, (hs.ext x1).append (k := ident name) (Or.inl hv)⟩
      simp only [if_true]
      refine runs_bind.2 ⟨_, _, h1, ?_⟩
      simp only [matExprP, hv.notQuery, Bool.false_eq_true, if_false]
      rw [runs_rb, runs_pb]
      exact runs_pure.2 ⟨rfl, rfl⟩
    | false =>
      refine ⟨[], _, ?_, hs.append (k := ident name)
        (Or.inr (Or.inl ⟨⟨ident name, (letParams params).1, (letParams params).2, e⟩, rfl, hq.1, closed_params hT hq.2⟩))⟩
      simp only [Bool.false_eq_true, if_false]
      rw [runs_pb]
      exact runs_pure.2 ⟨rfl, rfl⟩
  | .let_ name c params mat (.select q), hq =>
    simp only [stmtP]
    cases mat with
    | true =>
      have hc0 := sub_copy (G := G) st s
      obtain ⟨rows, s1, h1, x1, hv⟩ := queryOK hT 1001 _ _ q ⟨hc0.env hs.at.env, by omega⟩ hq.2.1
      refine ⟨[], _, ?_, (hs.ext (hc0.ext.trans x1)).append (k := ident name)
        (Or.inr (Or.inr ⟨hq.1, Or.inr ⟨rows, rfl, hv⟩⟩))⟩
      simp only [if_true]
      refine runs_bind.2 ⟨rows, s1, ?_, ?_⟩
      · unfold materializeP
        rw [runs_pb, runs_call]
        exact h1
      · rw [runs_pb]
        exact runs_pure.2 ⟨rfl, rfl⟩
    | false =>
      refine ⟨[], _, ?_, hs.append (k := ident name)
        (Or.inr (Or.inr ⟨hq.1, Or.inl ⟨⟨ident name, (letParams params).1, (letParams params).2, q⟩, rfl, hq.2.1,
          closed_params hT hq.2.2⟩⟩))⟩
      simp only [Bool.false_eq_true, if_false]
      rw [runs_pb]
      exact runs_pure.2 ⟨rfl, rfl⟩
  | .query q, hq =>
    have hc0 := sub_copy (G := G) st s
    obtain ⟨e5, x5, d5⟩ := hc0.append (v := .dict [(bs "$Query", .str (H.stmtText q))]) hs.at.env
      (Or.inl (by simp [Data, DataD]))
    obtain ⟨rows, s1, h1, x1, hv⟩ := queryOK hT 1001 _ _ q ⟨e5, by omega⟩ hq
    refine ⟨rows, s1, ?_, hs.ext (x5.trans x1)⟩
    simp only [stmtP]
    rw [runs_pb, runs_pb]
    exact h1

theorem runStmts_mono {n m : Nat} (hnm : n ≤ m) : ∀ (l : List Stmt) (s : Nat) (st : St F S)
    (r : List (List (V F)) × St F S), runStmts H n l s st = some r → runStmts H m l s st = some r
  | [], s, st, r, h => h
  | q :: l, s, st, r, h => by
    simp only [runStmts] at h ⊢
    cases h1 : exec H n (stmtP H q s) st with
    | none => rw [h1] at h; cases h
    | some x =>
      rw [h1] at h
      rw [exec_mono H hnm _ _ _ h1]
      simp only at h ⊢
      cases h2 : runStmts H n l s x.2 with
      | none => rw [h2] at h; cases h
      | some y =>
        rw [h2] at h
        rw [runStmts_mono hnm l s x.2 y h2]
        exact h

/-- **C22**, for programs of the fragment: every sequence of statements finishes (`n` bounds
the depth of Go's stack), however the LET definitions refer to themselves and to each
other.  Missing compared with the full property, which is refuted by `C22_refuted` and
`C22_default_refuted`: sub-queries passed as arguments, defaults that are not literals, and
functions and plugins that hand out the scope (`scope()`). -/
theorem C22_partial (hT : Total G H) : ∀ (l : List Stmt), (∀ q ∈ l, G.stmt q) → ∀ {s : Nat} {st : St F S},
    RootOK G H st s → ∃ n rs st', ∀ m, n ≤ m → runStmts H m l s st = some (rs, st')
  | [], _, s, st, _ => ⟨0, [], st, fun _ _ => rfl⟩
  | q :: l, hl, s, st, hs => by
    obtain ⟨rows, s1, ⟨n1, h1⟩, hs1⟩ := ends_stmt hT (hl q (by simp)) hs
    obtain ⟨n2, rs, s2, h2⟩ := C22_partial hT l (fun q hq => hl q (List.mem_cons_of_mem _ hq)) hs1
    refine ⟨max n1 n2, rows :: rs, s2, fun m hm => ?_⟩
    simp only [runStmts]
    rw [exec_mono H (Nat.le_trans (Nat.le_max_left _ _) hm) _ _ _ h1]
    simp only [h2 m (Nat.le_trans (Nat.le_max_right _ _) hm)]

end

/-- The built-in functions and operators, with sources that deliver data, from a scope with
data. -/
theorem C22_builtin_partial {isQ : Str → Prop} {sources : OD (List (V F64))} (hsrc : ∀ p ∈ sources, DataL p.2)
    {vars : OD (V F64)} (hv : DataD vars) {l : List Stmt} (hl : ∀ q ∈ l, (stdFrag isQ).stmt q) :
    ∃ n rs st', ∀ m, n ≤ m → runStmts (demo sources) m l 0 (St.init vars) = some (rs, st') := by
  have hok : StdOK demoNum sources := ⟨(fun t v h => by
    unfold demoNum at h
    split at h
    · cases h; simp [Data]
    · cases h), hsrc⟩
  refine C22_partial (stdHost_total hok isQ) l hl ⟨Nat.zero_lt_one, fun v hm => Or.inl ?_, fun p hp => by cases hp⟩
  have : v = .dict vars := List.mem_singleton.1 hm
  rw [this]
  simpa [Data] using hv

/-- `LET f = g + 1  LET g = f  LET q = SELECT f AS v FROM q  SELECT f AS v FROM src  SELECT * FROM q` -/
def mutual2 : List Stmt :=
  [.letE "f" false (.plus (.name 1 "g") (.int "1")), .letE "g" false (.val (.name 2 "f")),
   .let_ (bs "q") false [] false (.select (.mk false false [.ex (.val (.name 3 "f")) "v"] (.mk (bs "q") false [])
     none none none none)),
   .query (.one (.val (.name 4 "f")) "v" (.src "src")),
   .query (.mk false true [] (.mk (bs "q") false []) none none none none)]

example : ∃ n rs st', ∀ m, n ≤ m → runStmts (demo demoSrc) m mutual2 0 (St.init []) = some (rs, st') := by
  refine C22_builtin_partial (isQ := fun k => k = bs "q") ?_ (by simp [DataD]) ?_
  · intro p hp
    rw [show p = _ from List.mem_singleton.1 hp]
    simp [DataL, Data, DataD]
  · have hsf : splitIdent (bs "f") = [bs "f"] := by decide +kernel
    have hsg : splitIdent (bs "g") = [bs "g"] := by decide +kernel
    have hsq : splitIdent (bs "q") = [bs "q"] := by decide +kernel
    have hss : splitIdent (bs "src") = [bs "src"] := by decide +kernel
    have htf : trimMinus [bs "f"] = [bs "f"] := by decide +kernel
    have htg : trimMinus [bs "g"] = [bs "g"] := by decide +kernel
    have hpf : PlainKey (bs "f") := by unfold PlainKey; decide +kernel
    have hpg : PlainKey (bs "g") := by unfold PlainKey; decide +kernel
    have hpq : PlainKey (bs "q") := by unfold PlainKey; decide +kernel
    have hps : PlainKey (bs "src") := by unfold PlainKey; decide +kernel
    have hid : ident (bs "q") = bs "q" := by decide +kernel
    have h1 : bs "f" ≠ bs "q" := by decide +kernel
    have h2 : bs "g" ≠ bs "q" := by decide +kernel
    have h3 : bs "src" ≠ bs "scope" := by decide +kernel
    intro q hq
    simp only [mutual2, List.mem_cons, List.not_mem_nil, or_false] at hq
    rcases hq with rfl | rfl | rfl | rfl | rfl <;>
      simp [Frag.stmt, Stmt.letE, Select.one, AndE.plus, AndE.val, Value.name, Value.int, Col.ex, Plugin.src, Frag.and,
        Frag.or, Frag.cond, Frag.add, Frag.mul, Frag.member, Frag.mterms, Frag.value, Frag.sym, Frag.args, Frag.andTs,
        Frag.orTs, Frag.addTs, Frag.mulTs, Frag.path, Frag.select, Frag.cols, Frag.col, Frag.plugin, Frag.optComma,
        hsf, hsg, hsq, hss, htf, htg, hpf, hpg, hpq, hps, hid, h1, h2, h3, stdFrag]

/-- The recursive default is reached by a program. -/
example : ∃ st', Runs (demo []) (stmtP (demo []) (.let_ (bs "f") true
    [⟨bs "x", some (.expr (.val (.sym (dfltCall 0))))⟩] false (.expr (.val (.name 1 "x")))) 0) (St.init []) [] st' ∧
    ¬ Halts (demo []) (call (.sym (dfltCall 0) 0)) st' := by
  have h : ∃ st', Runs (demo []) (stmtP (demo []) (.let_ (bs "f") true
    [⟨bs "x", some (.expr (.val (.sym (dfltCall 0))))⟩] false (.expr (.val (.name 1 "x")))) 0) (St.init []) [] st' :=
    ⟨_, 0, rfl⟩
  obtain ⟨st', h⟩ := h
  exact ⟨st', h, C22_default_refuted (by simp [demo, stdHost]; decide +kernel) (C22_default_let h)⟩

end Vfilter.Vql
