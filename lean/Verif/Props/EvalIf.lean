import Verif.EvalLazy
import Verif.Props.EvalLet
/-!
# C35: `if` evaluates only the chosen branch
-/
set_option linter.all false

namespace Vfilter.Vql

section
variable {F S : Type} [FloatOps F] {H : Host F S}

/-- The state in which a function with these argument expressions is called: one unevaluated
lazy cell for each. -/
def St.lazyArgs (st : St F S) (s : Nat) (es : List AndE) : St F S :=
  { st with lazies := st.lazies ++ es.map (fun e => ⟨e, s, none⟩) }

/-- The state after the function of a node was looked up. -/
def St.fnSeen (st : St F S) (node : Nat) (name : Str) : St F S :=
  ((Prim.fnOf node name : Prim F S).step st).2

/-- The function a node stands for: the one it was first used for. -/
def St.fnName (st : St F S) (node : Nat) (name : Str) : Str :=
  ((Prim.fnOf node name : Prim F S).step st).1

omit [FloatOps F] in
theorem fnSeen_lazies (st : St F S) (node : Nat) (name : Str) : (st.fnSeen node name).lazies = st.lazies := by
  simp only [St.fnSeen, Prim.step]
  split <;> rfl

omit [FloatOps F] in
theorem lazyArgs_get {st : St F S} {s : Nat} {es : List AndE} {i : Nat} {e : AndE}
    (h : es[i]? = some e) : (st.lazyArgs s es).lazies[st.lazies.length + i]? = some ⟨e, s, none⟩ := by
  simp [St.lazyArgs, List.getElem?_append_right, h]

omit [FloatOps F] in
theorem lazyOK_args {st : St F S} (h : LazyOK st) (s : Nat) (es : List AndE) : LazyOK (st.lazyArgs s es) := by
  intro c l hl v hv
  simp only [St.lazyArgs] at hl
  by_cases hc : c < st.lazies.length
  · rw [List.getElem?_append_left hc] at hl
    exact h c l hl v hv
  · rw [List.getElem?_append_right (Nat.not_lt.1 hc), List.getElem?_map] at hl
    cases he : es[c - st.lazies.length]? with
    | none => simp [he] at hl
    | some e =>
      simp only [he, Option.map_some, Option.some.injEq] at hl
      subst hl
      cases hv

/-- The arguments of a function call with expressions as arguments. -/
def lazyDict : OD (V F) → Nat → List (String × AndE) → OD (V F)
  | acc, _, [] => acc
  | acc, n, (k, _) :: r => lazyDict (OD.set acc (ident (bs k)) (.obj (.lazy n))) (n + 1) r

theorem runs_fnArgs {s : Nat} {args : List (String × AndE)} {st st' : St F S} {out : OD (V F)} :
    Runs H (fnArgsP s (args.map (fun a => .mk (bs a.1) (.expr a.2)))) st out st' ↔
      out = lazyDict [] st.lazies.length args ∧ st' = st.lazyArgs s (args.map (·.2)) := by
  unfold fnArgsP
  generalize ([] : OD (V F)) = acc
  induction args generalizing acc st with
  | nil =>
    simp only [List.map_nil, foldP, runs_pure, lazyDict, St.lazyArgs, List.append_nil]
  | cons a r ih =>
    obtain ⟨k, e⟩ := a
    simp only [List.map_cons, foldP]
    refine Iff.trans ?_ ((ih (st := st.lazyArgs s [e]) (OD.set acc (ident (bs k)) (.obj (.lazy st.lazies.length)))).trans ?_)
    · exact Iff.rfl
    · simp [lazyDict, St.lazyArgs]

/-- The host gives this meaning to `if` (without the argument `**`). -/
structure HasIf (H : Host F S) : Prop where
  isFn : H.isFn (bs "if") = true
  fn : ∀ node s args, OD.get args (bs "**") = none → H.fn (bs "if") node s args = ifFnP H.truth s args
  isPlugin : H.isPlugin (bs "if") = true
  plugin : ∀ s args, OD.get args (bs "**") = none → H.plugin (bs "if") s args = ifPluginP H.truth s args

/-- The package's own host does. -/
theorem stdHost_if (W : World F Obj) (matchF : V F → V F → Bool) (fmtV : V F → Str)
    (colName : Col → Str) (num : Str → Option (V F)) (sources : OD (List (V F))) :
    HasIf (stdHost W matchF fmtV colName num sources : Host F S) where
  isFn := by simp [stdHost]
  fn _ _ _ _ := by simp [stdHost, stdFn]
  isPlugin := by simp [stdHost]
  plugin _ _ _ := by simp [stdHost]

theorem split_if : splitIdent (bs "if") = [bs "if"] := by decide +kernel

/-- Evaluation of the `then` argument. -/
theorem runs_ifThen (hH : H.Polite) {c s : Nat} {els : Option (V F)} {st st' : St F S} {a : V F}
    (hi : LazyOK st) : Runs H (ifThenP s (some (.obj (.lazy c))) els) st a st' ↔
      Runs H (call (.lazyWith c s)) st a st' := by
  simp only [ifThenP, anyFieldP]
  constructor
  · intro h
    obtain ⟨t, s1, h1, h2⟩ := runs_bind.1 h
    have hn := lazyWith_notLazy hH h1 hi
    cases t with
    | obj o =>
      cases o with
      | lazy c => exact hn.elim
      | _ => obtain ⟨rfl, rfl⟩ := runs_pure.1 h2; exact h1
    | _ => obtain ⟨rfl, rfl⟩ := runs_pure.1 h2; exact h1
  · intro h
    have hn := lazyWith_notLazy hH h hi
    refine runs_bind.2 ⟨a, st', h, ?_⟩
    cases a with
    | obj o =>
      cases o with
      | lazy c => exact hn.elim
      | _ => exact runs_pure.2 ⟨rfl, rfl⟩
    | _ => exact runs_pure.2 ⟨rfl, rfl⟩

theorem runs_ifElse (hH : H.Polite) {c s : Nat} {st st' : St F S} {a : V F}
    (hi : LazyOK st) : Runs H (ifElseP s (some (.obj (.lazy c)))) st a st' ↔
      Runs H (call (.lazyWith c s)) st a st' := by
  simp only [ifElseP, anyFieldP]
  constructor
  · intro h
    obtain ⟨t, s1, h1, h2⟩ := runs_bind.1 h
    have hn := lazyWith_notLazy hH h1 hi
    cases t with
    | obj o =>
      cases o with
      | lazy c => exact hn.elim
      | _ => obtain ⟨rfl, rfl⟩ := runs_pure.1 h2; exact h1
    | _ => obtain ⟨rfl, rfl⟩ := runs_pure.1 h2; exact h1
  · intro h
    have hn := lazyWith_notLazy hH h hi
    refine runs_bind.2 ⟨a, st', h, ?_⟩
    cases a with
    | obj o =>
      cases o with
      | lazy c => exact hn.elim
      | _ => exact runs_pure.2 ⟨rfl, rfl⟩
    | _ => exact runs_pure.2 ⟨rfl, rfl⟩

omit [FloatOps F] in
theorem grows_fnSeen (st : St F S) (node : Nat) (name : Str) : Grows st (st.fnSeen node name) :=
  (Prim.fnOf node name).grows st

/-- A call of a function with expressions as arguments: each is stored as an unevaluated cell. -/
theorem runs_fn_call {name : String} (h1 : splitIdent (bs name) = [bs name]) (h2 : hasMinus [bs name] = false)
    (h3 : H.isFn (bs name) = true) {node : Nat} {args : List (String × AndE)} {s : Nat}
    {st st' : St F S} {a : V F} :
    Runs H (call (.value (.fcall node name args) s)) st a st' ↔
      Runs H (H.fn (((st.seen node).lazyArgs s (args.map (·.2))).fnName node (bs name)) node s
          (lazyDict [] st.lazies.length args))
        (((st.seen node).lazyArgs s (args.map (·.2))).fnSeen node (bs name)) a st' := by
  unfold Value.fcall
  rw [runs_fcall h1 h2 h3]
  unfold callFunctionP
  rw [runs_bind]
  constructor
  · rintro ⟨x, s1, h1, h2⟩
    obtain ⟨rfl, rfl⟩ := runs_fnArgs.1 h1
    exact runs_pb.1 h2
  · intro h
    exact ⟨_, _, runs_fnArgs.2 ⟨rfl, rfl⟩, runs_pb.2 h⟩

/-- A call of `if` with expressions as arguments. -/
theorem runs_if_call (hif : HasIf H) {node : Nat} {args : List (String × AndE)} {s : Nat}
    {st st' : St F S} {a : V F}
    (hn : ((st.seen node).lazyArgs s (args.map (·.2))).fnName node (bs "if") = bs "if")
    (hk : OD.get (lazyDict [] st.lazies.length args : OD (V F)) (bs "**") = none) :
    Runs H (call (.value (.fcall node "if" args) s)) st a st' ↔
      Runs H (ifFnP H.truth s (lazyDict [] st.lazies.length args))
        (((st.seen node).lazyArgs s (args.map (·.2))).fnSeen node (bs "if")) a st' := by
  rw [runs_fn_call split_if (by decide +kernel) hif.isFn, hn, hif.fn _ _ _ hk]

/-- A branch of `if`: a missing one is NULL. -/
def Branch (H : Host F S) (s : Nat) (o : Option AndE) (st : St F S) (v : V F) (st' : St F S) : Prop :=
  match o with
  | none => v = .null ∧ st' = st
  | some e => Forces H e s st v st'

/-- A cell of the expression `e` to be evaluated in scope `s`. -/
def Holds (s : Nat) (st : St F S) (o : Option Nat) (e : Option AndE) : Prop :=
  match o, e with
  | none, none => True
  | some i, some e => ∃ l, st.lazies[i]? = some l ∧ l.expr = e ∧ l.scope = s
  | _, _ => False

omit [FloatOps F] in
theorem Holds.grows {s : Nat} {st st' : St F S} {o : Option Nat} {e : Option AndE} (h : Holds s st o e)
    (hg : Grows st st') : Holds s st' o e := by
  cases o <;> cases e <;> simp only [Holds] at h ⊢
  obtain ⟨l, h1, h2, h3⟩ := h
  obtain ⟨l', h4, h5, h6⟩ := hg.lazies _ _ h1
  exact ⟨l', h4, h5.trans h2, h6.trans h3⟩

/-- `if` on lazy arguments. -/
theorem if_lazy (hH : H.Polite) {c : AndE} {t e : Option AndE} {s n : Nat} {i j : Option Nat} {args : OD (V F)}
    {s0 st' : St F S} {a : V F} (h0 : LazyOK s0)
    (hu : unexpected [bs "condition", bs "then", bs "else"] args = false)
    (hc : OD.get args (bs "condition") = some (.obj (.lazy n)))
    (ht : OD.get args (bs "then") = i.map (fun n => .obj (.lazy n)))
    (he : OD.get args (bs "else") = j.map (fun n => .obj (.lazy n)))
    (lc : Holds s s0 (some n) (some c)) (lt : Holds s s0 i t) (le : Holds s s0 j e) :
    Runs H (ifFnP H.truth s args) s0 a st' ↔
      ∃ cv s1 b s2, Forces H c s s0 cv s1 ∧ Runs H (H.truth cv s) s1 b s2 ∧
        Branch H s (if b then t else e) s2 a st' := by
  have red : ∀ {st2 : St F S} {n : Nat} {e : AndE} {v : V F} {st' : St F S}, Holds s st2 (some n) (some e) →
      (Runs H (call (.lazyWith n s)) st2 v st' ↔ Forces H e s st2 v st') := by
    rintro st2 n e v st' ⟨l, h1, h2, h3⟩
    rw [runs_lazyWith h1, h2, h3]
  have key : ∀ cv s1 b s2, Runs H (call (.lazyWith n s)) s0 cv s1 → Runs H (H.truth cv s) s1 b s2 →
      (Runs H (if b then ifThenP s (OD.get args (bs "then")) (OD.get args (bs "else"))
        else ifElseP s (OD.get args (bs "else"))) s2 a st' ↔ Branch H s (if b then t else e) s2 a st') := by
    intro cv s1 b s2 h1 h2
    have i1 := h1.lazyOK hH (polite_call (fl := false) _ _) h0
    have i2 := h2.lazyOK hH (hH.truth _ _) i1
    have g2 := h1.grows.trans h2.grows
    rw [ht, he]
    cases b with
    | true =>
      simp only [if_true]
      cases i <;> cases t <;> first | exact False.elim lt | skip
      · exact runs_pure
      · exact (runs_ifThen hH i2).trans (red (lt.grows g2))
    | false =>
      simp only [Bool.false_eq_true, if_false]
      cases j <;> cases e <;> first | exact False.elim le | skip
      · exact runs_pure
      · exact (runs_ifElse hH i2).trans (red (le.grows g2))
  simp only [ifFnP, hc, hu, anyFieldP, Bool.false_eq_true, if_false]
  constructor
  · intro h
    obtain ⟨cv, s1, h1, h⟩ := runs_bind.1 h
    obtain ⟨b, s2, h2, h⟩ := runs_bind.1 h
    exact ⟨cv, s1, b, s2, (red lc).1 h1, h2, (key _ _ _ _ h1 h2).1 h⟩
  · rintro ⟨cv, s1, b, s2, h1, h2, h⟩
    have h1' := (red lc).2 h1
    exact runs_bind.2 ⟨cv, s1, h1', runs_bind.2 ⟨b, s2, h2, (key _ _ _ _ h1' h2).2 h⟩⟩

/-- The arguments of `if(condition=c, then=t, else=e)`, either branch may be left out. -/
def ifArgs (c : AndE) (t e : Option AndE) : List (String × AndE) :=
  ("condition", c) :: ((t.map (fun t => ("then", t))).toList ++ (e.map (fun e => ("else", e))).toList)

/-- The state in which the function `if` is entered. -/
def St.ifStart (st : St F S) (node s : Nat) (c : AndE) (t e : Option AndE) : St F S :=
  ((st.seen node).lazyArgs s ((ifArgs c t e).map (·.2))).fnSeen node (bs "if")

/-- **C35** The function `if(condition=c, then=t, else=e)`: the condition is evaluated once,
then the chosen branch and nothing else, both in the scope of the call; a missing branch is
NULL.  The branch that is not chosen does not occur in the right hand side, so it may fail,
diverge or have effects.  (The node `if` is one that has not been used for another function
before.) -/
theorem C35_function (hH : H.Polite) (hif : HasIf H) {node : Nat} {c : AndE} {t e : Option AndE} {s : Nat}
    {st st' : St F S} {a : V F} (hi : LazyOK st)
    (hn : ((st.seen node).lazyArgs s ((ifArgs c t e).map (·.2))).fnName node (bs "if") = bs "if") :
    Runs H (call (.value (.fcall node "if" (ifArgs c t e)) s)) st a st' ↔
      ∃ cv s1 b s2, Forces H c s (st.ifStart node s c t e) cv s1 ∧ Runs H (H.truth cv s) s1 b s2 ∧
        Branch H s (if b then t else e) s2 a st' := by
  have k1 : ident (bs "condition") = bs "condition" := by decide +kernel
  have k2 : ident (bs "then") = bs "then" := by decide +kernel
  have k3 : ident (bs "else") = bs "else" := by decide +kernel
  have e1 : bs "condition" ≠ bs "then" := by decide +kernel
  have e2 : bs "condition" ≠ bs "else" := by decide +kernel
  have e3 : bs "then" ≠ bs "else" := by decide +kernel
  rw [runs_if_call hif hn (by
    have s1 : bs "condition" ≠ bs "**" := by decide +kernel
    have s2 : bs "then" ≠ bs "**" := by decide +kernel
    have s3 : bs "else" ≠ bs "**" := by decide +kernel
    cases t <;> cases e <;>
      simp [ifArgs, lazyDict, k1, k2, k3, OD.set, OD.erase, OD.get, e1, e2, e3, e3.symm, s1, s2, s3])]
  have h0 : LazyOK (st.ifStart node s c t e) :=
    lazyOK_prim _ _ rfl (lazyOK_args (lazyOK_prim _ _ rfl hi) _ _)
  have hget : ∀ i x, ((ifArgs c t e).map (·.2))[i]? = some x →
      Holds s (st.ifStart node s c t e) (some (st.lazies.length + i)) (some x) := by
    intro i x hx
    refine Holds.grows (st := (st.seen node).lazyArgs s ((ifArgs c t e).map (·.2))) ?_ (grows_fnSeen _ _ _)
    exact ⟨_, lazyArgs_get (st := st.seen node) hx, rfl, rfl⟩
  have lc := hget 0 c (by simp [ifArgs])
  cases t with
  | none =>
    cases e with
    | none =>
      refine if_lazy hH (t := none) (e := none) (i := none) (j := none) h0 ?_ ?_ ?_ ?_ lc trivial trivial <;>
        simp [ifArgs, lazyDict, k1, OD.set, OD.erase, OD.get, e1, e2, unexpected, OD.keys]
    | some e =>
      refine if_lazy hH (t := none) (e := some e) (i := none) (j := some (st.lazies.length + 1)) h0 ?_ ?_ ?_ ?_ lc trivial
        (hget 1 e (by simp [ifArgs])) <;>
        simp [ifArgs, lazyDict, k1, k3, OD.set, OD.erase, OD.get, e1, e2, e3, e3.symm, unexpected, OD.keys]
  | some t =>
    cases e with
    | none =>
      refine if_lazy hH (t := some t) (e := none) (i := some (st.lazies.length + 1)) (j := none) h0 ?_ ?_ ?_ ?_ lc
        (hget 1 t (by simp [ifArgs])) trivial <;>
        simp [ifArgs, lazyDict, k1, k2, OD.set, OD.erase, OD.get, e1, e2, e3, unexpected, OD.keys]
    | some e =>
      refine if_lazy hH (t := some t) (e := some e) (i := some (st.lazies.length + 1))
        (j := some (st.lazies.length + 2)) h0 ?_ ?_ ?_ ?_ lc
        (hget 1 t (by simp [ifArgs])) (hget 2 e (by simp [ifArgs])) <;>
        simp [ifArgs, lazyDict, k1, k2, k3, OD.set, OD.erase, OD.get, e1, e2, e3, unexpected, OD.keys]

/-! ## The plugin -/

/-- A `{ SELECT }` argument is the only kind that is not evaluated before the call. -/
def queryArgs (c : AndE) (t : Select) (e : Option Select) : List Arg :=
  .mk (bs "condition") (.expr c) :: .mk (bs "then") (.select t) ::
    (e.map (fun e => Arg.mk (bs "else") (.select e))).toList

/-- **C35** (partial: `{ SELECT }` branches only) The plugin `if`: the condition is evaluated
once, then only the chosen query; a missing `else` yields no rows. -/
theorem C35_plugin_partial (hif : HasIf H) {c : AndE} {t : Select} {e : Option Select} {s : Nat}
    {st st' : St F S} {rows : List (V F)} (hd : (st.scp s).depth < 1000) :
    Runs H (call (.plugin (.mk (bs "if") true (queryArgs c t e)) s)) st rows st' ↔
      ∃ r s1 cv s2 b s3, Runs H (call (.and c s)) st r s1 ∧ Runs H (anyFieldP s r) s1 cv s2 ∧
        Runs H (H.truth cv s) s2 b s3 ∧
        match (if b then some t else e) with
        | none => rows = [] ∧ st' = s3
        | some q => Runs H (call (.select q s)) s3 rows st' := by
  have k1 : ident (bs "condition") = bs "condition" := by decide +kernel
  have k2 : ident (bs "then") = bs "then" := by decide +kernel
  have k3 : ident (bs "else") = bs "else" := by decide +kernel
  have e1 : bs "condition" ≠ bs "then" := by decide +kernel
  have e2 : bs "condition" ≠ bs "else" := by decide +kernel
  have e3 : bs "then" ≠ bs "else" := by decide +kernel
  have hargs : ∀ args s1, Runs H (buildArgsP s (queryArgs c t e)) st args s1 ↔
      ∃ r, Runs H (call (.and c s)) st r s1 ∧
        args = (bs "condition", r) :: (bs "then", .obj (.select t)) ::
          (e.map (fun e => (bs "else", (.obj (.select e) : V F)))).toList := by
    intro args s1
    rw [runs_buildArgs]
    constructor
    · intro h
      cases e with
      | none =>
        cases h with
        | cons h1 h =>
          cases h with
          | cons h2 h =>
            obtain ⟨rfl, rfl⟩ := h2
            cases h
            exact ⟨_, h1, by simp [k1, k2, OD.set, OD.erase, e1]⟩
      | some e =>
        cases h with
        | cons h1 h =>
          cases h with
          | cons h2 h =>
            obtain ⟨rfl, rfl⟩ := h2
            cases h with
            | cons h3 h =>
              obtain ⟨rfl, rfl⟩ := h3
              cases h
              exact ⟨_, h1, by simp [k1, k2, k3, OD.set, OD.erase, e1, e2, e3]⟩
    · rintro ⟨r, h1, rfl⟩
      cases e with
      | none =>
        have := ArgsRun.cons (acc := []) (n := bs "condition") (a := .expr c) h1
          (.cons (n := bs "then") (a := .select t) ⟨rfl, rfl⟩ (.nil _ _))
        simpa [queryArgs, k1, k2, OD.set, OD.erase, e1] using this
      | some e =>
        have := ArgsRun.cons (acc := []) (n := bs "condition") (a := .expr c) h1
          (.cons (n := bs "then") (a := .select t) ⟨rfl, rfl⟩
            (.cons (n := bs "else") (a := .select e) ⟨rfl, rfl⟩ (.nil _ _)))
        simpa [queryArgs, k1, k2, k3, OD.set, OD.erase, e1, e2, e3] using this
  have hev : ∀ (q : Select) s3, Runs H (evalBranchP s (.obj (.select q))) s3 rows st' ↔
      Runs H (call (.select q s)) s3 rows st' := by
    intro q s3
    simp only [evalBranchP, isQuery, if_true]
    conv => lhs; rw [runs_call]
    simp only [body]
  have hplug : ∀ r s1, Runs H (ifPluginP H.truth s ((bs "condition", r) :: (bs "then", .obj (.select t)) ::
          (e.map (fun e => (bs "else", (.obj (.select e) : V F)))).toList)) s1 rows st' ↔
      ∃ cv s2 b s3, Runs H (anyFieldP s r) s1 cv s2 ∧ Runs H (H.truth cv s) s2 b s3 ∧
        match (if b then some t else e) with
        | none => rows = [] ∧ st' = s3
        | some q => Runs H (call (.select q s)) s3 rows st' := by
    intro r s1
    have fin : ∀ b s3, Runs H (if b = true then evalBranchP s (.obj (.select t)) else
          match e.map (fun e => (.obj (.select e) : V F)) with
          | some e => evalBranchP s e
          | none => pure []) s3 rows st' ↔
        match (if b then some t else e) with
        | none => rows = [] ∧ st' = s3
        | some q => Runs H (call (.select q s)) s3 rows st' := by
      intro b s3
      cases b with
      | true => simp only [if_true]; exact hev _ _
      | false =>
        simp only [Bool.false_eq_true, if_false]
        cases e with
        | none => exact runs_pure
        | some e => exact hev _ _
    cases e with
    | none =>
      have hu : unexpected [bs "condition", bs "then", bs "else"]
        ([(bs "condition", r), (bs "then", .obj (.select t))] : OD (V F)) = false := by
        simp [unexpected, OD.keys]
      simp only [Option.map_none, Option.toList_none, ifPluginP, OD.get, if_true, e1, e2, e3, if_false, hu,
        Bool.false_eq_true, toQueryP, reduceP, optQueryP]
      simp only [Option.map_none] at fin
      rw [runs_bind]
      constructor
      · rintro ⟨cv, s2, h1, h⟩
        rw [runs_rb, runs_rb] at h
        obtain ⟨b, s3, h2, h⟩ := runs_bind.1 h
        exact ⟨cv, s2, b, s3, h1, h2, (fin _ _).1 h⟩
      · rintro ⟨cv, s2, b, s3, h1, h2, h⟩
        refine ⟨cv, s2, h1, ?_⟩
        rw [runs_rb, runs_rb]
        exact runs_bind.2 ⟨b, s3, h2, (fin _ _).2 h⟩
    | some e =>
      have hu : unexpected [bs "condition", bs "then", bs "else"]
        ([(bs "condition", r), (bs "then", .obj (.select t)), (bs "else", .obj (.select e))] : OD (V F)) = false := by
        simp [unexpected, OD.keys]
      simp only [Option.map_some, Option.toList_some, ifPluginP, OD.get, if_true, e1, e2, e3, if_false, hu,
        Bool.false_eq_true, toQueryP, reduceP, optQueryP]
      simp only [Option.map_some] at fin
      rw [runs_bind]
      constructor
      · rintro ⟨cv, s2, h1, h⟩
        rw [runs_rb] at h
        replace h := (runs_rb (a := some (.obj (.select e) : V F)) (f := fun e => H.truth cv s >>= fun b => if b = true then evalBranchP s (.obj (.select t)) else match e with | some e => evalBranchP s e | none => pure [])).1 h
        obtain ⟨b, s3, h2, h⟩ := runs_bind.1 h
        exact ⟨cv, s2, b, s3, h1, h2, (fin _ _).1 h⟩
      · rintro ⟨cv, s2, b, s3, h1, h2, h⟩
        refine ⟨cv, s2, h1, ?_⟩
        rw [runs_rb]
        exact (runs_rb (a := some (.obj (.select e) : V F)) (f := fun e => H.truth cv s >>= fun b => if b = true then evalBranchP s (.obj (.select t)) else match e with | some e => evalBranchP s e | none => pure [])).2 (runs_bind.2 ⟨b, s3, h2, (fin _ _).2 h⟩)
  have hstar : ∀ r : V F, OD.get ((bs "condition", r) :: (bs "then", .obj (.select t)) ::
          (e.map (fun e => (bs "else", (.obj (.select e) : V F)))).toList) (bs "**") = none := by
    intro r
    have s1 : bs "condition" ≠ bs "**" := by decide +kernel
    have s2 : bs "then" ≠ bs "**" := by decide +kernel
    have s3 : bs "else" ≠ bs "**" := by decide +kernel
    cases e <;> simp [OD.get, s1, s2, s3]
  rw [runs_plugin_reg split_if hif.isPlugin hd]
  constructor
  · rintro ⟨args, s1, h1, h2⟩
    obtain ⟨r, h1', rfl⟩ := (hargs _ _).1 h1
    rw [hif.plugin _ _ (hstar r)] at h2
    obtain ⟨cv, s2, b, s3, h3, h4, h5⟩ := (hplug _ _).1 h2
    exact ⟨r, s1, cv, s2, b, s3, h1', h3, h4, h5⟩
  · rintro ⟨r, s1, cv, s2, b, s3, h1, h3, h4, h5⟩
    refine ⟨_, s1, (hargs _ _).2 ⟨r, h1, rfl⟩, ?_⟩
    rw [hif.plugin _ _ (hstar r)]
    exact (hplug _ _).2 ⟨cv, s2, b, s3, h3, h4, h5⟩

end

/-! ## Examples -/

/-- `if(condition=1, then=2, else=nope)` in a fresh scope: the value is 2 and the unknown name
is not looked at (nothing is logged). -/
example : (match exec (demo demoSrc) 60 (call (.value (.fcall 0 "if" (ifArgs (.val (.int "1"))
      (some (.val (.int "2"))) (some (.val (.name 1 "nope"))))) 0)) (St.init []) with
    | some (v, st) => sameV v (.int 2#64) && st.log.isEmpty
    | none => false) = true := by decide +kernel

/-- The same with the branches exchanged looks at it. -/
example : (match exec (demo demoSrc) 60 (call (.value (.fcall 0 "if" (ifArgs (.val (.int "1"))
      (some (.val (.name 1 "nope"))) (some (.val (.int "2"))))) 0)) (St.init []) with
    | some (v, st) => sameV v .null && decide (st.log = [bs "ERROR: not found nope"])
    | none => false) = true := by decide +kernel

/-- A missing branch. -/
example : (match exec (demo demoSrc) 60 (call (.value (.fcall 0 "if" (ifArgs (.val (.int "0"))
      (some (.val (.name 1 "nope"))) none)) 0)) (St.init []) with
    | some (v, st) => sameV v .null && st.log.isEmpty
    | none => false) = true := by decide +kernel

/-- The log after a plugin source was evaluated in a fresh scope. -/
def pluginLog (p : Plugin) : Option (List Str) :=
  (exec (demo demoSrc) 60 (call (.plugin p 0)) (St.init [])).map (·.2.log)

/-- `if` plugin with expression branches. -/
def ifSource (c t e : AndE) : Plugin :=
  .mk (bs "if") true [.mk (bs "condition") (.expr c), .mk (bs "then") (.expr t), .mk (bs "else") (.expr e)]

/-- **C35 refuted** for the plugin: `FROM if(condition=1, then=2, else=nope)` evaluates the
`else` expression although the condition is true, because the arguments of a plugin are
evaluated before it is called (vfilter.go:1914-1961). -/
theorem C35_plugin_refuted :
    pluginLog (ifSource (.val (.int "1")) (.val (.int "2")) (.val (.name 0 "nope"))) =
      some [bs "ERROR: not found nope"] ∧
    pluginLog (ifSource (.val (.int "1")) (.val (.int "2")) (.val (.int "3"))) = some [] := by
  constructor <;> decide +kernel

/-- With `{ SELECT }` branches it does not. -/
example : pluginLog (.mk (bs "if") true (queryArgs (.val (.int "1"))
    (.mk false true [] (.src "src") none none none none)
    (some (.mk false true [] (.src "nope") none none none none)))) = some [] := by decide +kernel

end Vfilter.Vql
