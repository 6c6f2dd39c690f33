import Verif.Props.EvalFns
import Verif.Props.Precedence
/-!
# C79: arguments of functions are evaluated when the function asks for them
-/
set_option linter.all false

namespace Vfilter.Vql.Lazy
open Fmt

section
variable {F S : Type} [FloatOps F] {H : Host F S}

/-- Everything but unevaluated arguments and what syntax nodes remember is the same. -/
structure Untouched (st st' : St F S) : Prop where
  scopes : st'.scopes = st.scopes
  ctxs : st'.ctxs = st.ctxs
  rows : st'.rows = st.rows
  sites : st'.sites = st.sites
  log : st'.log = st.log
  evals : st'.evals = st.evals
  host : st'.host = st.host
  /-- arguments of other calls are as they were -/
  lazies : ∀ c < st.lazies.length, st'.lazies[c]? = st.lazies[c]?

omit [FloatOps F] in
theorem untouched_start (st : St F S) (node : Nat) (name : String) (s : Nat) (args : List (String × AndE)) :
    Untouched st (st.fnStart node name s args) := by
  have e : ∀ st' : St F S, (st'.fnSeen node (bs name)) = st' ∨
      ∃ x, (st'.fnSeen node (bs name)) = { st' with fns := x } := by
    intro st'
    simp only [St.fnSeen, Prim.step]
    split
    · exact .inl rfl
    · exact .inr ⟨_, rfl⟩
  have hl : ∀ c < st.lazies.length,
      ((st.seen node).lazyArgs s (args.map (·.2))).lazies[c]? = st.lazies[c]? := by
    intro c hc
    show (st.lazies ++ _)[c]? = _
    rw [List.getElem?_append_left hc]
  unfold St.fnStart
  rcases e ((st.seen node).lazyArgs s (args.map (·.2))) with e | ⟨x, e⟩ <;> rw [e] <;>
    exact ⟨rfl, rfl, rfl, rfl, rfl, rfl, rfl, hl⟩

/-- **C79**: when a function is entered none of its arguments `name=expression` was evaluated: it
starts in the state of the caller, with cells that hold the expressions and the caller's scope. -/
theorem C79_not_before {name : String} (h1 : splitIdent (bs name) = [bs name])
    (h2 : hasMinus [bs name] = false) (h3 : H.isFn (bs name) = true) {node s : Nat}
    {args : List (String × AndE)} {st : St F S} (hn : st.Names node name s args) :
    ∃ start, Untouched st start ∧
      (∀ (i : Nat) (a : String × AndE), args[i]? = some a →
        start.lazies[st.lazies.length + i]? = some ⟨a.2, s, none⟩) ∧
      ∀ a st', Runs H (call (.value (.fcall node name args) s)) st a st' ↔
        Runs H (H.fn (bs name) node s (lazyDict [] st.lazies.length args)) start a st' := by
  refine ⟨st.fnStart node name s args, untouched_start _ _ _ _ _, fun i a h => fnStart_get h, ?_⟩
  intro a st'
  rw [runs_fn_call h1 h2 h3]
  rw [show ((st.seen node).lazyArgs s (args.map (·.2))).fnName node (bs name) = bs name from hn]
  exact Iff.rfl

/-- **C79**: a function that does not ask for its arguments returns, and nothing happens, whatever
the arguments are; also if evaluating one would never end. -/
theorem C79_unused {name : String} (h1 : splitIdent (bs name) = [bs name])
    (h2 : hasMinus [bs name] = false) (h3 : H.isFn (bs name) = true) {node s : Nat}
    {args : List (String × AndE)} {st : St F S} (hn : st.Names node name s args) {v : V F}
    (hf : H.fn (bs name) node s (lazyDict [] st.lazies.length args) = pure v) :
    ∃ st', Runs H (call (.value (.fcall node name args) s)) st v st' ∧ Untouched st st' := by
  obtain ⟨start, hu, -, h⟩ := C79_not_before h1 h2 h3 hn
  refine ⟨start, (h _ _).2 ?_, hu⟩
  rw [hf]
  exact runs_pure.2 ⟨rfl, rfl⟩

/-- **C79**: the value asked for is that of the expression in the scope of the caller, not in the
scope that is passed when asking. -/
theorem C79_callers_scope {c s s' : Nat} {l : LazyCell F} {st st' : St F S} {v : V F}
    (hl : st.lazies[c]? = some l) :
    (Runs H (call (.lazyWith c s)) st v st' ↔ Forces H l.expr l.scope st v st') ∧
      (Runs H (call (.lazyWith c s)) st v st' ↔ Runs H (call (.lazyWith c s')) st v st') :=
  ⟨runs_lazyWith hl, (runs_lazyWith hl).trans (runs_lazyWith hl).symm⟩

/-- The cell has this value. -/
def Has (c : Nat) (v : V F) (st : St F S) : Prop := ∃ l, st.lazies[c]? = some l ∧ l.value = some v

omit [FloatOps F] in
theorem has_prim {c : Nat} {v : V F} (p : Prim F S) (st : St F S) (hp : p.plain = true) (h : Has c v st) :
    Has c v (p.step st).2 := by
  obtain ⟨l, hl, hv⟩ := h
  have same : ∀ st' : St F S, st'.lazies = st.lazies → Has c v st' := by
    intro st' e
    exact ⟨l, by rw [e]; exact hl, hv⟩
  cases p with
  | newLazy e s =>
    refine ⟨l, ?_, hv⟩
    simp only [Prim.step]
    rw [List.getElem?_append_left (List.getElem?_eq_some_iff.1 hl).1]
    exact hl
  | fnOf m name =>
    simp only [Prim.step]
    split <;> exact same _ rfl
  | ag s f =>
    refine same _ ?_
    show (st.getAg s).2.lazies = st.lazies
    unfold St.getAg
    simp only
    split <;> rfl
  | _ => first | exact same _ rfl | simp [Prim.plain] at hp

theorem has_writer {d : Nat} {w : V F} (n : Nat) (c : Call F) (hc : c.writer = true)
    (ih1 : ∀ (c : Call F) st r, run H n c st = some r → Has d w st → Has d w r.2) :
    ∀ st r, interp (run H n) (body H c) st = some r → Has d w st → Has d w r.2 := by
  intro st r h hi
  cases c with
  | getter g =>
    cases g with
    | const v =>
      simp only [body, pure_eq, interp, Option.some.injEq] at h
      subst h
      exact hi
    | col c nm ns =>
      have h' : interp (run H n) (call (.col c ns) >>= fun item => colValueP ns item)
          { st with evals := st.evals ++ [(nm, ns)] } = some r := h
      refine interp_inv ih1 (fun p st hp => has_prim p st hp) _ [] _ _ ?_ h' hi
      refine (polite_call_bind _ _ _).2 (fun item => ?_)
      unfold colValueP
      split
      · trivial
      · split
        · exact (polite_materializeP _ _ _).bind (fun _ => trivial)
        · trivial
  | rowGet c k =>
    simp only [body, bind_eq, prim, Prog.bind, interp, Prim.step] at h
    have h' := h
    clear h
    split at h'
    · simp only [pure_eq, interp, Option.some.injEq] at h'
      subst h'
      exact hi
    · rename_i r0 hr0
      split at h'
      · simp only [pure_eq, interp, Option.some.injEq] at h'
        subst h'
        exact hi
      · split at h'
        · simp only [pure_eq, interp, Option.some.injEq] at h'
          subst h'
          exact hi
        · rename_i g hg
          have h2 : interp (run H n) (Prog.call (.getter g) (fun v => Prog.prim (.rowSet c k v)
            (fun _ => Prog.ret (some v, true))) : Prog F S (Option (V F) × Bool)) st = some r := h'
          simp only [interp] at h2
          cases hrun : run H n (.getter g) st with
          | none => simp [hrun] at h2
          | some x =>
            simp only [hrun, Option.some.injEq] at h2
            subst h2
            exact ih1 _ _ _ hrun hi
  | lazyReduce c =>
    simp only [body, bind_eq, prim, Prog.bind, interp, Prim.step] at h
    split at h
    · simp only [pure_eq, interp, Option.some.injEq] at h
      subst h
      exact hi
    · rename_i l hl
      split at h
      · simp only [pure_eq, interp, Option.some.injEq] at h
        subst h
        exact hi
      · rename_i hnone
        simp only [call, Prog.bind, interp] at h
        cases hrun : run H n (.lazyWith c l.scope) st with
        | none => simp [hrun] at h
        | some x =>
          simp only [hrun, pure_eq, interp, Option.some.injEq] at h
          subst h
          have hne : c ≠ d := by
            rintro rfl
            obtain ⟨l', hl', hv'⟩ := hi
            rw [hl] at hl'
            cases hl'
            rw [hnone] at hv'
            cases hv'
          obtain ⟨l', hl', hv'⟩ := ih1 _ _ _ hrun hi
          refine ⟨l', ?_, hv'⟩
          simp only [Prim.step]
          split
          · rw [List.getElem?_set_ne hne]; exact hl'
          · exact hl'
  | _ => simp [Call.writer] at hc

theorem has_runs (hH : H.Polite) {c : Nat} {v : V F} {α : Type} {p : Prog F S α} {st st' : St F S} {a : α}
    (hp : p.Polite false []) (h : Runs H p st a st') (hi : Has c v st) : Has c v st' := by
  obtain ⟨n, h⟩ := h
  refine interp_inv (Inv := Has c v) (fun c' st r h hi => ?_) has_prim _ [] _ _ hp h hi
  exact (run_inv_post (Post := fun _ _ => True) hH has_prim
    (fun n c hc ih => has_writer n c hc (fun c st r h hi => (ih c st r h hi).1))
    (fun _ _ _ _ _ _ _ => trivial) n c' st r h hi).1

/-- After `Reduce` the cell has the value, if there is such a cell. -/
theorem has_reduced {c : Nat} {st st' : St F S} {v : V F} (hc : c < st.lazies.length)
    (h : Runs H (call (.lazyReduce c)) st v st') : Has c v st' := by
  have hc' : c < st'.lazies.length := Nat.lt_of_lt_of_le hc (Fmt.Prec.grows h)
  obtain ⟨l, hl⟩ : ∃ l, st.lazies[c]? = some l := ⟨_, List.getElem?_eq_getElem hc⟩
  cases hv : l.value with
  | none =>
    obtain ⟨s1, h1, rfl⟩ := (runs_lazyReduce hl hv).1 h
    have hc1 : c < s1.lazies.length := by
      have : ((Prim.lazySet c v : Prim F S).step s1).2.lazies.length = s1.lazies.length := by
        simp only [Prim.step]; split <;> simp
      unfold St.setLazy at hc'
      omega
    refine ⟨{ s1.lazies[c] with value := some v }, ?_, rfl⟩
    simp only [St.setLazy, Prim.step, List.getElem?_eq_getElem hc1]
    rw [List.getElem?_set_self hc1]
  | some w =>
    rw [runs_call] at h
    simp only [body] at h
    rw [runs_pb] at h
    simp only [Prim.step, hl, hv] at h
    obtain ⟨rfl, rfl⟩ := runs_pure.1 h
    exact ⟨l, hl, hv⟩

/-- **C79**: what `Reduce` gave once it gives again, without evaluating anything, whatever was
evaluated in between. -/
theorem C79_once (hH : H.Polite) {c : Nat} {st st1 st2 : St F S} {v : V F} (hc : c < st.lazies.length)
    (h : Runs H (call (.lazyReduce c)) st v st1) {α : Type} {p : Prog F S α} {a : α}
    (hp : p.Polite false []) (h' : Runs H p st1 a st2) (w : V F) (st3 : St F S) :
    Runs H (call (.lazyReduce c)) st2 w st3 ↔ w = v ∧ st3 = st2 := by
  obtain ⟨l, hl, hv⟩ := has_runs hH hp h' (has_reduced hc h)
  rw [runs_call]
  simp only [body]
  rw [runs_pb]
  simp only [Prim.step, hl, hv]
  exact runs_pure

end

/-! ## Examples and refutations -/

/-- A host with a function that counts its calls, one that ignores its arguments, one that asks
twice with `ReduceWithScope`, and one that asks twice with `Reduce`. -/
def clock : Host F64 Nat :=
  { (stdHost {} (fun _ _ => false) (fun _ => bs "?") demoName demoNum [] : Host F64 Nat) with
    isFn := fun _ => true
    fn := fun name _ s args =>
      if name = bs "tick" then prim (.host fun n => (.int (BitVec.ofNat 64 n), n + 1))
      else if name = bs "const" then pure (.int 7#64)
      else match OD.get args (bs "x") with
        | some (.obj (.lazy c)) =>
          if name = bs "with" then do
            let a ← call (.lazyWith c s)
            let b ← call (.lazyWith c s)
            pure (.arr [a, b])
          else do
            let a ← call (.lazyReduce c)
            let b ← call (.lazyReduce c)
            pure (.arr [a, b])
        | _ => pure .null }

/-- A root scope, and a clock at zero. -/
def zero : St F64 Nat := { scopes := [⟨[], 0, none, none⟩], host := 0 }

def tick : AndE := .val (.fcall 1 "tick" [])

/-- The call finishes with this value and the clock at this time. -/
def shows (v : Value) (a : V F64) (n : Nat) : Bool :=
  match exec clock 40 (call (.value v 0)) zero with
  | some r => sameV r.1 a && decide (r.2.host = n)
  | none => false

theorem runs_shows {v : Value} {a : V F64} {n : Nat} (h : shows v a n = true) :
    ∃ st', Runs clock (call (.value v 0)) zero a st' ∧ st'.host = n := by
  unfold shows at h
  cases he : exec clock 40 (call (.value v 0)) zero with
  | none => simp [he] at h
  | some r =>
    simp only [he, Bool.and_eq_true, decide_eq_true_eq] at h
    have := sameV_eq _ _ h.1
    exact ⟨r.2, ⟨40, by rw [he, ← this]⟩, h.2⟩

theorem clock_polite : clock.Polite := by
  have h := stdHost_polite (S := Nat) ({} : World F64 Obj) (fun _ _ => false) (fun _ => bs "?") demoName demoNum []
  refine ⟨?_, h.plugin, h.arith, h.rel, h.truth, h.toStr, h.sort, h.assocImpl, h.assocDefault, h.hostMembers⟩
  intro n node s args
  show (if n = bs "tick" then _ else if n = bs "const" then _ else _ : Prog F64 Nat (V F64)).Polite false []
  split
  · exact polite_prim rfl
  · split
    · trivial
    · split
      · split
        · exact fun _ _ => trivial
        · exact fun _ _ => trivial
      · trivial

/-- An argument that is not asked for: the clock does not move. -/
example : ∃ st', Runs clock (call (.value (.fcall 0 "const" [("x", tick)]) 0)) zero (.int 7#64) st' ∧
    st'.host = 0 := runs_shows (by decide +kernel)

/-- Asked for twice with `Reduce`: evaluated once. -/
example : ∃ st', Runs clock (call (.value (.fcall 0 "reduce" [("x", tick)]) 0)) zero
    (Val.arr [.int 0#64, .int 0#64]) st' ∧ st'.host = 1 := runs_shows (by decide +kernel)

/-- Refuted: "an argument is evaluated at most once". `ReduceWithScope`, which the argument parser
uses for arguments of any type (arg_parser/parser.go:161-170), keeps nothing. -/
theorem C79_again_refuted : clock.Polite ∧ ∃ st',
    Runs clock (call (.value (.fcall 0 "with" [("x", tick)]) 0)) zero
      (Val.arr [.int 0#64, .int 1#64]) st' ∧ st'.host = 2 :=
  ⟨clock_polite, runs_shows (by decide +kernel)⟩

/-- Refuted: "an argument that is not asked for is not evaluated". `x=[tick()]` is evaluated before
the call. -/
theorem C79_array_refuted : clock.Polite ∧ ∃ st',
    Runs clock (call (.value (.sym (.mk 0 (bs "const") true
      [.mk (bs "x") (.array (.mk tick []))])) 0)) zero (.int 7#64) st' ∧ st'.host = 1 :=
  ⟨clock_polite, runs_shows (by decide +kernel)⟩

end Vfilter.Vql.Lazy
