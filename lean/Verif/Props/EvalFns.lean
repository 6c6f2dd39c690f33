import Verif.EvalLib
import Verif.Props.EvalIf
import Verif.Props.EvalOps
import Verif.Props.Funcs
import Verif.Props.Split
/-!
# The package's functions in queries (C31, C61, C64)
-/
set_option linter.all false

namespace Vfilter.Vql
open Fmt

section
variable {F S : Type} [FloatOps F] {H : Host F S}

/-- The state in which a function is entered: its arguments are stored unevaluated. -/
def St.fnStart (st : St F S) (node : Nat) (name : String) (s : Nat) (args : List (String × AndE)) : St F S :=
  ((st.seen node).lazyArgs s (args.map (·.2))).fnSeen node (bs name)

/-- The call site has not been used for another function before. -/
def St.Names (st : St F S) (node : Nat) (name : String) (s : Nat) (args : List (String × AndE)) : Prop :=
  ((st.seen node).lazyArgs s (args.map (·.2))).fnName node (bs name) = bs name

omit [FloatOps F] in
theorem fnStart_get {st : St F S} {node : Nat} {name : String} {s : Nat} {args : List (String × AndE)} {i : Nat}
    {a : String × AndE} (h : args[i]? = some a) :
    (st.fnStart node name s args).lazies[st.lazies.length + i]? = some ⟨a.2, s, none⟩ := by
  unfold St.fnStart
  rw [fnSeen_lazies]
  exact lazyArgs_get (st := st.seen node) (by simp [h])

/-- The value of the lazy cell. -/
def St.setLazy (st : St F S) (c : Nat) (v : V F) : St F S := ((Prim.lazySet c v : Prim F S).step st).2

/-- Asking for the value of an argument that was not asked for before evaluates it and keeps the value. -/
theorem runs_lazyReduce {c : Nat} {l : LazyCell F} {st st' : St F S} {v : V F} (hl : st.lazies[c]? = some l)
    (hn : l.value = none) :
    Runs H (call (.lazyReduce c)) st v st' ↔ ∃ s1, Forces H l.expr l.scope st v s1 ∧ st' = s1.setLazy c v := by
  rw [runs_call]
  simp only [body]
  rw [runs_pb]
  simp only [Prim.step, hl, hn]
  rw [runs_bind]
  constructor
  · rintro ⟨w, s1, h1, h2⟩
    rw [runs_pb] at h2
    obtain ⟨rfl, rfl⟩ := runs_pure.1 h2
    exact ⟨s1, (runs_lazyWith hl).1 h1, rfl⟩
  · rintro ⟨s1, h1, rfl⟩
    refine ⟨v, s1, (runs_lazyWith hl).2 h1, ?_⟩
    rw [runs_pb]
    exact runs_pure.2 ⟨rfl, rfl⟩

section
variable {W : World F Obj} {fmtV : V F → Str} {s : Nat} {args : OD (V F)} {f : ArgField} {fs : List ArgField}
  {acc : OD (V F)} {st s1 s2 : St F S} {v x : V F} {r : Option (OD (V F))}

theorem parse_some (h1 : OD.get args f.name = some v) (h2 : Runs H (fieldP W fmtV s v f.kind) st (some x) s1)
    (h3 : Runs H (parseFieldsP W fmtV s args fs (OD.set acc f.name x)) s1 r s2) :
    Runs H (parseFieldsP W fmtV s args (f :: fs) acc) st r s2 := by
  rw [parseFieldsP, h1]
  exact runs_bind.2 ⟨_, _, h2, h3⟩

theorem parse_none (h1 : OD.get args f.name = none) (h2 : f.required = false)
    (h3 : Runs H (parseFieldsP W fmtV s args fs acc) st r s2) :
    Runs H (parseFieldsP W fmtV s args (f :: fs) acc) st r s2 := by
  rw [parseFieldsP, h1, h2]
  exact h3

theorem parse_missing (h1 : OD.get args f.name = none) (h2 : f.required = true) :
    Runs H (parseFieldsP W fmtV s args (f :: fs) acc) st none st := by
  rw [parseFieldsP, h1, h2]
  exact runs_pure.2 ⟨rfl, rfl⟩

theorem parse_bad (h1 : OD.get args f.name = some v) (h2 : Runs H (fieldP W fmtV s v f.kind) st none s1) :
    Runs H (parseFieldsP W fmtV s args (f :: fs) acc) st none s1 := by
  rw [parseFieldsP, h1]
  exact runs_bind.2 ⟨_, _, h2, runs_pure.2 ⟨rfl, rfl⟩⟩

theorem parse_end : Runs H (parseFieldsP W fmtV s args [] acc) st (some acc) st := runs_pure.2 ⟨rfl, rfl⟩

/-- Arguments that are right. -/
theorem args_ok {name : Str} {a : OD (V F)} (h1 : OD.get args (bs "**") = none)
    (h2 : Runs H (parseFieldsP W fmtV s args fs []) st (some a) s1)
    (h3 : unexpected (fs.map (·.name)) args = false) :
    Runs H (parseArgsP W fmtV name s fs args) st (some a) s1 := by
  unfold parseArgsP
  rw [normalizeArgs_none h1]
  refine runs_bind.2 ⟨_, _, h2, ?_⟩
  dsimp only
  rw [h3]
  exact runs_pure.2 ⟨rfl, rfl⟩

/-- A further entry in the log. -/
def St.logged (st : St F S) (m : Str) : St F S := ((Prim.log m : Prim F S).step st).2

/-- Arguments with an error: it is logged. -/
theorem args_bad {name : Str} (h1 : OD.get args (bs "**") = none)
    (h2 : Runs H (parseFieldsP W fmtV s args fs []) st none s1) :
    Runs H (parseArgsP W fmtV name s fs args) st none (s1.logged name) := by
  unfold parseArgsP
  rw [normalizeArgs_none h1]
  refine runs_bind.2 ⟨_, _, h2, ?_⟩
  exact runs_pb.2 (runs_pure.2 ⟨rfl, rfl⟩)

/-- An argument that is not a field: it is logged. -/
theorem args_more {name : Str} {a : OD (V F)} (h1 : OD.get args (bs "**") = none)
    (h2 : Runs H (parseFieldsP W fmtV s args fs []) st (some a) s1)
    (h3 : unexpected (fs.map (·.name)) args = true) :
    Runs H (parseArgsP W fmtV name s fs args) st none (s1.logged name) := by
  unfold parseArgsP
  rw [normalizeArgs_none h1]
  refine runs_bind.2 ⟨_, _, h2, ?_⟩
  dsimp only
  rw [h3]
  exact runs_pb.2 (runs_pure.2 ⟨rfl, rfl⟩)

theorem field_any {c : Nat} {l : LazyCell F} (hl : st.lazies[c]? = some l) (h : Forces H l.expr l.scope st v s1) :
    Runs H (fieldP W fmtV s (.obj (.lazy c)) .any) st (some v) s1 :=
  runs_bind.2 ⟨v, s1, (runs_lazyWith hl).2 h, runs_pure.2 ⟨rfl, rfl⟩⟩

theorem field_int {c : Nat} {l : LazyCell F} (hl : st.lazies[c]? = some l) (hn : l.value = none)
    (h : Forces H l.expr l.scope st v s1) :
    Runs H (fieldP W fmtV s (.obj (.lazy c)) .int) st (v.toInt64.map .int) (s1.setLazy c v) :=
  runs_bind.2 ⟨v, _, (runs_lazyReduce hl hn).2 ⟨s1, h, rfl⟩, runs_pure.2 ⟨rfl, rfl⟩⟩

theorem field_str {c : Nat} {l : LazyCell F} {t : Str} (hl : st.lazies[c]? = some l) (hn : l.value = none)
    (h : Forces H l.expr l.scope st (.str t) s1) :
    Runs H (fieldP W fmtV s (.obj (.lazy c)) .str) st (some (.str t)) (s1.setLazy c (.str t)) :=
  runs_bind.2 ⟨_, _, (runs_lazyReduce hl hn).2 ⟨s1, h, rfl⟩, runs_pure.2 ⟨rfl, rfl⟩⟩

theorem field_lazy : Runs H (fieldP W fmtV s v .lazy) st (some v) st := runs_pure.2 ⟨rfl, rfl⟩

end

section
variable (W : World F Obj) (matchF : V F → V F → Bool) (fmtV : V F → Str) (colName : Col → Str)
  (num : Str → Option (V F)) (text : Select → Str) (fuel : Nat) (X : Extra F S)

local notation "LH" => libHost W matchF fmtV colName num text fuel X

/-- A call of a function of the package. -/
theorem runs_lib_fn {name : String} (p : Nat → Nat → OD (V F) → Prog F S (V F)) (hx : OD.get X.fns (bs name) = none)
    (h1 : splitIdent (bs name) = [bs name]) (h2 : hasMinus [bs name] = false) (h3 : libFns.contains (bs name) = true)
    (e : ∀ node s a, libFn W fmtV X (bs name) node s a = some (p node s a))
    {node : Nat} {args : List (String × AndE)} {s : Nat} {st st' : St F S} {a : V F}
    (hn : st.Names node name s args) :
    Runs LH (call (.value (.fcall node name args) s)) st a st' ↔
      Runs LH (p node s (lazyDict [] st.lazies.length args)) (st.fnStart node name s args) a st' := by
  rw [runs_fn_call h1 h2 (lib_isFn _ _ _ _ _ _ _ _ h3), hn, lib_fn _ _ _ _ _ _ _ _ hx (e _ _ _)]
  rfl

/-- C61 in a query: `len(list=e)` evaluates the argument once and gives its length. -/
theorem C61_len_evaluates (hx : OD.get X.fns (bs "len") = none) {node : Nat} {e : AndE} {s : Nat}
    {st st' : St F S} {a : V F} (hn : st.Names node "len" s [("list", e)]) :
    Runs LH (call (.value (.fcall node "len" [("list", e)]) s)) st a st' ↔
      ∃ v, Forces LH e s (st.fnStart node "len" s [("list", e)]) v st' ∧
        a = .int (BitVec.ofNat 64 (lenF (fun _ => none) v)) := by
  rw [runs_lib_fn W matchF fmtV colName num text fuel X (fun _ s a => lenFnP W fmtV s a) hx (by decide +kernel)
    (by decide +kernel) (by decide +kernel) (fun _ _ _ => rfl) hn]
  have e1 : (lenFnP W fmtV s (lazyDict [] st.lazies.length [("list", e)]) : Prog F S _) = (do
      let v ← call (.lazyWith st.lazies.length s)
      pure (.int (BitVec.ofNat 64 (lenF (fun _ => none) v)))) := rfl
  rw [e1, runs_bind]
  have hg := fnStart_get (st := st) (node := node) (name := "len") (s := s) (args := [("list", e)]) (i := 0) rfl
  constructor
  · rintro ⟨v, s1, h1, h2⟩
    obtain ⟨rfl, rfl⟩ := runs_pure.1 h2
    exact ⟨v, (runs_lazyWith hg).1 h1, rfl⟩
  · rintro ⟨v, h1, rfl⟩
    exact ⟨v, _, (runs_lazyWith hg).2 h1, runs_pure.2 ⟨rfl, rfl⟩⟩

/-- C64 in a query: `split(string=e1, sep_string=e2)` evaluates its arguments in this order, once each,
and gives the parts of the text. -/
theorem C64_evaluates (hx : OD.get X.fns (bs "split") = none) {node : Nat} {e1 e2 : AndE} {s : Nat}
    {st s1 s2 st' : St F S} {a : V F} {t sep : Str} (hs : sep ≠ [])
    (hn : st.Names node "split" s [("string", e1), ("sep_string", e2)])
    (h1 : Forces LH e1 s (st.fnStart node "split" s [("string", e1), ("sep_string", e2)]) (.str t) s1)
    (hl : (s1.setLazy st.lazies.length (.str t)).lazies[st.lazies.length + 1]? = some ⟨e2, s, none⟩)
    (h2 : Forces LH e2 s (s1.setLazy st.lazies.length (.str t)) (.str sep) s2) :
    Runs LH (call (.value (.fcall node "split" [("string", e1), ("sep_string", e2)]) s)) st a st' ↔
      (∃ parts, Parts sep t parts ∧ a = .arr (parts.map .str)) ∧
        st' = s2.setLazy (st.lazies.length + 1) (.str sep) := by
  rw [runs_lib_fn W matchF fmtV colName num text fuel X (fun _ s a => splitFnP W fmtV X s a) hx (by decide +kernel)
    (by decide +kernel) (by decide +kernel) (fun _ _ _ => rfl) hn]
  have hg := fnStart_get (st := st) (node := node) (name := "split") (s := s)
    (args := [("string", e1), ("sep_string", e2)]) (i := 0) rfl
  have hp : Runs LH (splitFnP W fmtV X s (lazyDict [] st.lazies.length [("string", e1), ("sep_string", e2)]))
      (st.fnStart node "split" s [("string", e1), ("sep_string", e2)]) (.arr ((splitBy sep t).map .str))
      (s2.setLazy (st.lazies.length + 1) (.str sep)) := by
    refine runs_bind.2 ⟨some [(bs "string", .str t), (bs "sep_string", .str sep)],
      s2.setLazy (st.lazies.length + 1) (.str sep), args_ok rfl ?_ rfl, ?_⟩
    · exact parse_some rfl (field_str hg rfl h1) (parse_none rfl rfl (parse_some rfl (field_str hl rfl h2) parse_end))
    · show Runs LH (if textOf [(bs "string", (.str t : V F)), (bs "sep_string", .str sep)] (bs "sep_string") ≠ [] then _ else _) _ _ _
      rw [if_pos (show textOf [(bs "string", (.str t : V F)), (bs "sep_string", .str sep)] (bs "sep_string") ≠ [] from hs)]
      exact runs_pure.2 ⟨rfl, rfl⟩
  rw [runs_only hp]
  constructor
  · rintro ⟨rfl, rfl⟩
    exact ⟨⟨_, C64_split sep t hs, rfl⟩, rfl⟩
  · rintro ⟨⟨parts, h, rfl⟩, rfl⟩
    rw [C64_unique h (C64_split sep t hs)]
    exact ⟨rfl, rfl⟩

/-- C64: without a separator the function reports it and gives NULL. -/
theorem C64_no_separator (hx : OD.get X.fns (bs "split") = none) {node : Nat} {e1 : AndE} {s : Nat}
    {st s1 st' : St F S} {a : V F} {t : Str} (hn : st.Names node "split" s [("string", e1)])
    (h1 : Forces LH e1 s (st.fnStart node "split" s [("string", e1)]) (.str t) s1) :
    Runs LH (call (.value (.fcall node "split" [("string", e1)]) s)) st a st' ↔
      a = .null ∧ st' = (s1.setLazy st.lazies.length (.str t)).logged (bs "split") := by
  rw [runs_lib_fn W matchF fmtV colName num text fuel X (fun _ s a => splitFnP W fmtV X s a) hx (by decide +kernel)
    (by decide +kernel) (by decide +kernel) (fun _ _ _ => rfl) hn]
  have hg := fnStart_get (st := st) (node := node) (name := "split") (s := s) (args := [("string", e1)]) (i := 0) rfl
  refine runs_only (runs_bind.2 ⟨some [(bs "string", .str t)], s1.setLazy st.lazies.length (.str t),
    args_ok rfl ?_ rfl, ?_⟩)
  · exact parse_some rfl (field_str hg rfl h1) (parse_none rfl rfl (parse_none rfl rfl parse_end))
  · exact runs_pb.2 (runs_pure.2 ⟨rfl, rfl⟩)

/-- C61 in a query: `encode(string=e1, type='hex')`. -/
theorem C61_encode_evaluates (hx : OD.get X.fns (bs "encode") = none) {node : Nat} {e1 e2 : AndE} {s : Nat}
    {st s1 s2 st' : St F S} {a : V F} {t : Str}
    (hn : st.Names node "encode" s [("string", e1), ("type", e2)])
    (h1 : Forces LH e1 s (st.fnStart node "encode" s [("string", e1), ("type", e2)]) (.str t) s1)
    (hl : s1.lazies[st.lazies.length + 1]? = some ⟨e2, s, none⟩)
    (h2 : Forces LH e2 s s1 (.str (bs "hex")) s2) :
    Runs LH (call (.value (.fcall node "encode" [("string", e1), ("type", e2)]) s)) st a st' ↔
      a = .str (hexEncode t) ∧ st' = s2.setLazy (st.lazies.length + 1) (.str (bs "hex")) := by
  rw [runs_lib_fn W matchF fmtV colName num text fuel X (fun _ s a => encodeFnP W fmtV s a) hx (by decide +kernel)
    (by decide +kernel) (by decide +kernel) (fun _ _ _ => rfl) hn]
  have hg := fnStart_get (st := st) (node := node) (name := "encode") (s := s)
    (args := [("string", e1), ("type", e2)]) (i := 0) rfl
  refine runs_only (runs_bind.2 ⟨some [(bs "string", .str t), (bs "type", .str (bs "hex"))],
    s2.setLazy (st.lazies.length + 1) (.str (bs "hex")), args_ok rfl ?_ rfl, ?_⟩)
  · exact parse_some rfl (field_any hg h1) (parse_some rfl (field_str hl rfl h2) parse_end)
  · exact runs_pure.2 ⟨rfl, rfl⟩

/-- Following the components of a path, by index if one reads as an integer and else by name; NULL as soon as one
is missing. -/
inductive Path (H : Host F S) (s : Nat) : V F → List Str → St F S → V F → St F S → Prop
  | here {v : V F} {st : St F S} : Path H s v [] st v st
  | step {v w : V F} {x : Option (V F)} {m : Str} {ms : List Str} {st s1 s2 : St F S} :
      Runs H (call (.assoc v (match atoi m with
        | some i => .val (.int i)
        | none => .val (.str m)) s)) st (x, true) s1 →
      Path H s (x.getD .null) ms s1 w s2 → Path H s v (m :: ms) st w s2
  | missing {v : V F} {x : Option (V F)} {m : Str} {ms : List Str} {st s1 : St F S} :
      Runs H (call (.assoc v (match atoi m with
        | some i => .val (.int i)
        | none => .val (.str m)) s)) st (x, false) s1 →
      Path H s v (m :: ms) st .null s1

theorem runs_getLoop {s : Nat} {v w : V F} {ms : List Str} {st st' : St F S} :
    Runs H (getLoopP s v ms) st w st' ↔ Path H s v ms st w st' := by
  induction ms generalizing v st with
  | nil =>
    constructor
    · intro h
      obtain ⟨rfl, rfl⟩ := runs_pure.1 h
      exact .here
    · intro h
      cases h
      exact runs_pure.2 ⟨rfl, rfl⟩
  | cons m ms ih =>
    rw [getLoopP, runs_bind]
    constructor
    · rintro ⟨⟨x, b⟩, s1, h1, h2⟩
      cases b with
      | true => exact .step h1 (ih.1 h2)
      | false =>
        obtain ⟨rfl, rfl⟩ := runs_pure.1 h2
        exact .missing h1
    · intro h
      cases h with
      | step h1 h2 => exact ⟨_, _, h1, ih.2 h2⟩
      | missing h1 => exact ⟨_, _, h1, runs_pure.2 ⟨rfl, rfl⟩⟩

/-- C61 in a query: `get(item=e1, member=e2)` follows the components of the path from the item. -/
theorem C61_get_evaluates (hx : OD.get X.fns (bs "get") = none) {node : Nat} {e1 e2 : AndE} {s : Nat}
    {st s1 s2 st' : St F S} {a v : V F} {t : Str}
    (hn : st.Names node "get" s [("item", e1), ("member", e2)])
    (h1 : Forces LH e1 s (st.fnStart node "get" s [("item", e1), ("member", e2)]) v s1)
    (hl : s1.lazies[st.lazies.length + 1]? = some ⟨e2, s, none⟩)
    (h2 : Forces LH e2 s s1 (.str t) s2) :
    Runs LH (call (.value (.fcall node "get" [("item", e1), ("member", e2)]) s)) st a st' ↔
      Path LH s v (splitDot t) (s2.setLazy (st.lazies.length + 1) (.str t)) a st' := by
  rw [runs_lib_fn W matchF fmtV colName num text fuel X (fun _ s a => getFnP W fmtV s a) hx (by decide +kernel)
    (by decide +kernel) (by decide +kernel) (fun _ _ _ => rfl) hn]
  have hg := fnStart_get (st := st) (node := node) (name := "get") (s := s)
    (args := [("item", e1), ("member", e2)]) (i := 0) rfl
  have hp : Runs LH (parseArgsP W fmtV (bs "get") s [⟨bs "item", .any, false⟩, ⟨bs "member", .str, true⟩]
      (lazyDict [] st.lazies.length [("item", e1), ("member", e2)]))
      (st.fnStart node "get" s [("item", e1), ("member", e2)]) (some [(bs "item", v), (bs "member", .str t)])
      (s2.setLazy (st.lazies.length + 1) (.str t)) :=
    args_ok rfl (parse_some rfl (field_any hg h1) (parse_some rfl (field_str hl rfl h2) parse_end)) rfl
  rw [← runs_getLoop]
  constructor
  · intro h
    obtain ⟨r, s3, h3, h4⟩ := runs_bind.1 h
    obtain ⟨rfl, rfl⟩ := hp.det h3
    exact h4
  · intro h
    exact runs_bind.2 ⟨_, _, hp, h⟩

/-! ## Aggregates -/

/-- One call of the aggregate of a node on the context of a scope: the value it returns and the state after
it. -/
def St.agg (st : St F S) (W : World F Obj) (node s : Nat) (op : AggOp F Obj) : V F × St F S :=
  (Prim.ag s (fun ctx => ((aggCall W ctx (aggId node) op).2.toVal, (aggCall W ctx (aggId node) op).1)) :
    Prim F S).step st

/-- C31 in a query: `count()` is one call of the aggregate of this call site. -/
theorem C31_count_evaluates (hx : OD.get X.fns (bs "count") = none) {node : Nat} {s : Nat}
    {st st' : St F S} {a : V F} (hn : st.Names node "count" s []) :
    Runs LH (call (.value (.fcall node "count" []) s)) st a st' ↔
      (a, st') = (st.fnStart node "count" s []).agg W node s .count := by
  rw [runs_lib_fn W matchF fmtV colName num text fuel X (fun node s args => (do
    let args ← normalizeArgsP args
    itemsFnP W (fun _ => .count) node s args)) hx (by decide +kernel)
    (by decide +kernel) (by decide +kernel) (fun _ _ _ => rfl) hn]
  rw [Prod.mk.injEq]
  exact runs_prim

/-- C31 in a query: `sum(item=e)` evaluates the item once; a number is added, anything else is reported and
gives NULL. -/
theorem C31_sum_evaluates (hx : OD.get X.fns (bs "sum") = none) {node : Nat} {e : AndE} {s : Nat}
    {st st' : St F S} {a : V F} (hn : st.Names node "sum" s [("item", e)]) :
    Runs LH (call (.value (.fcall node "sum" [("item", e)]) s)) st a st' ↔
      ∃ v s1, Forces LH e s (st.fnStart node "sum" s [("item", e)]) v s1 ∧
        match v.toInt64 with
        | some i => (a, st') = (s1.setLazy st.lazies.length v).agg W node s (.sum (some i))
        | none => a = .null ∧ st' = (s1.setLazy st.lazies.length v).logged (bs "sum") := by
  rw [runs_lib_fn W matchF fmtV colName num text fuel X (fun node s args => sumFnP W fmtV node s args) hx
    (by decide +kernel) (by decide +kernel) (by decide +kernel) (fun _ _ _ => rfl) hn]
  have hg := fnStart_get (st := st) (node := node) (name := "sum") (s := s) (args := [("item", e)]) (i := 0) rfl
  constructor
  · intro h
    obtain ⟨r, s2, h1, h2⟩ := runs_bind.1 h
    unfold parseArgsP at h1
    rw [normalizeArgs_none (by rfl)] at h1
    obtain ⟨r2, s3, h3, h4⟩ := runs_bind.1 h1
    obtain ⟨r3, s4, h5, h6⟩ := runs_bind.1 (show Runs LH (fieldP W fmtV s (.obj (.lazy st.lazies.length)) .int >>= _) _ _ _ from h3)
    obtain ⟨v, s5, h7, h8⟩ := runs_bind.1 (show Runs LH (call (.lazyReduce st.lazies.length) >>= _) _ _ _ from h5)
    obtain ⟨rfl, rfl⟩ := runs_pure.1 h8
    obtain ⟨s1, h9, rfl⟩ := (runs_lazyReduce hg rfl).1 h7
    refine ⟨v, s1, h9, ?_⟩
    cases hv : v.toInt64 with
    | none =>
      rw [hv] at h6
      obtain ⟨rfl, rfl⟩ := runs_pure.1 h6
      dsimp only at h4
      rw [runs_pb] at h4
      obtain ⟨rfl, rfl⟩ := runs_pure.1 h4
      exact runs_pure.1 h2
    | some i =>
      rw [hv] at h6
      obtain ⟨rfl, rfl⟩ := runs_pure.1 h6
      obtain ⟨rfl, rfl⟩ := runs_pure.1 h4
      obtain ⟨h10, h11⟩ := runs_prim.1 h2
      exact Prod.ext h10 h11
  · rintro ⟨v, s1, h1, h2⟩
    have hf : Runs LH (fieldP W fmtV s (.obj (.lazy st.lazies.length)) .int) (st.fnStart node "sum" s [("item", e)])
        (v.toInt64.map .int) (s1.setLazy st.lazies.length v) := field_int hg rfl h1
    cases hv : v.toInt64 with
    | none =>
      rw [hv] at h2 hf
      obtain ⟨rfl, rfl⟩ := h2
      exact runs_bind.2 ⟨none, _, args_bad rfl (parse_bad rfl hf), runs_pure.2 ⟨rfl, rfl⟩⟩
    | some i =>
      rw [hv] at h2 hf
      refine runs_bind.2 ⟨some [(bs "item", .int i)], s1.setLazy st.lazies.length v, args_ok rfl (parse_some rfl hf parse_end) rfl, ?_⟩
      exact runs_prim.2 ⟨congrArg Prod.fst h2, congrArg Prod.snd h2⟩

/-- C31 in a query: `min(item=e)` and `max(item=e)` evaluate the item once and are one call of the aggregate. -/
theorem C31_min_evaluates (hx : OD.get X.fns (bs "min") = none) {node : Nat} {e : AndE} {s : Nat}
    {st st' : St F S} {a : V F} (hn : st.Names node "min" s [("item", e)]) :
    Runs LH (call (.value (.fcall node "min" [("item", e)]) s)) st a st' ↔
      ∃ v s1, Forces LH e s (st.fnStart node "min" s [("item", e)]) v s1 ∧
        (a, st') = (s1.setLazy st.lazies.length v).agg W node s (.min v) := by
  rw [runs_lib_fn W matchF fmtV colName num text fuel X (fun node s args => itemFnP W fmtV .min node s args) hx
    (by decide +kernel) (by decide +kernel) (by decide +kernel) (fun _ _ _ => rfl) hn]
  have hg := fnStart_get (st := st) (node := node) (name := "min") (s := s) (args := [("item", e)]) (i := 0) rfl
  have ep : (itemFnP W fmtV .min node s (lazyDict [] st.lazies.length [("item", e)]) : Prog F S _) = (do
      let v ← call (.lazyReduce st.lazies.length)
      aggP W node s (.min v)) := rfl
  rw [ep, runs_bind]
  constructor
  · rintro ⟨v, s2, h1, h2⟩
    obtain ⟨s1, h3, rfl⟩ := (runs_lazyReduce hg rfl).1 h1
    exact ⟨v, s1, h3, by rw [Prod.mk.injEq]; exact runs_prim.1 h2⟩
  · rintro ⟨v, s1, h1, h2⟩
    rw [Prod.mk.injEq] at h2
    exact ⟨v, _, (runs_lazyReduce hg rfl).2 ⟨s1, h1, rfl⟩, runs_prim.2 h2⟩

theorem C31_max_evaluates (hx : OD.get X.fns (bs "max") = none) {node : Nat} {e : AndE} {s : Nat}
    {st st' : St F S} {a : V F} (hn : st.Names node "max" s [("item", e)]) :
    Runs LH (call (.value (.fcall node "max" [("item", e)]) s)) st a st' ↔
      ∃ v s1, Forces LH e s (st.fnStart node "max" s [("item", e)]) v s1 ∧
        (a, st') = (s1.setLazy st.lazies.length v).agg W node s (.max v) := by
  rw [runs_lib_fn W matchF fmtV colName num text fuel X (fun node s args => itemFnP W fmtV .max node s args) hx
    (by decide +kernel) (by decide +kernel) (by decide +kernel) (fun _ _ _ => rfl) hn]
  have hg := fnStart_get (st := st) (node := node) (name := "max") (s := s) (args := [("item", e)]) (i := 0) rfl
  have ep : (itemFnP W fmtV .max node s (lazyDict [] st.lazies.length [("item", e)]) : Prog F S _) = (do
      let v ← call (.lazyReduce st.lazies.length)
      aggP W node s (.max v)) := rfl
  rw [ep, runs_bind]
  constructor
  · rintro ⟨v, s2, h1, h2⟩
    obtain ⟨s1, h3, rfl⟩ := (runs_lazyReduce hg rfl).1 h1
    exact ⟨v, s1, h3, by rw [Prod.mk.injEq]; exact runs_prim.1 h2⟩
  · rintro ⟨v, s1, h1, h2⟩
    rw [Prod.mk.injEq] at h2
    exact ⟨v, _, (runs_lazyReduce hg rfl).2 ⟨s1, h1, rfl⟩, runs_prim.2 h2⟩

/-- C31 in a query: `enumerate(items=e)` evaluates the item once and adds it to the list. -/
theorem C31_enumerate_evaluates (hx : OD.get X.fns (bs "enumerate") = none) {node : Nat} {e : AndE} {s : Nat}
    {st st' : St F S} {a : V F} (hn : st.Names node "enumerate" s [("items", e)]) :
    Runs LH (call (.value (.fcall node "enumerate" [("items", e)]) s)) st a st' ↔
      ∃ v s1, Forces LH e s (st.fnStart node "enumerate" s [("items", e)]) v s1 ∧
        (a, st') = s1.agg W node s (.enumerate v) := by
  rw [runs_lib_fn W matchF fmtV colName num text fuel X (fun node s args => (do
    let args ← normalizeArgsP args
    itemsFnP W .enumerate node s args)) hx (by decide +kernel)
    (by decide +kernel) (by decide +kernel) (fun _ _ _ => rfl) hn]
  have hg := fnStart_get (st := st) (node := node) (name := "enumerate") (s := s) (args := [("items", e)]) (i := 0) rfl
  rw [normalizeArgs_none (by rfl)]
  have ep : (itemsFnP W .enumerate node s (lazyDict [] st.lazies.length [("items", e)]) : Prog F S _) = (do
      let v ← call (.lazyWith st.lazies.length s)
      aggP W node s (.enumerate v)) := rfl
  rw [ep, runs_bind]
  constructor
  · rintro ⟨v, s2, h1, h2⟩
    exact ⟨v, s2, (runs_lazyWith hg).1 h1, by rw [Prod.mk.injEq]; exact runs_prim.1 h2⟩
  · rintro ⟨v, s1, h1, h2⟩
    rw [Prod.mk.injEq] at h2
    exact ⟨v, _, (runs_lazyWith hg).2 h1, runs_prim.2 h2⟩

/-! ## Arguments that are not right (C52) -/

/-- A name that no argument has is not in the dict of the arguments. -/
theorem lazyDict_absent {k : Str} {args : List (String × AndE)} (h : ∀ p ∈ args, ident (bs p.1) ≠ k) :
    ∀ {acc : OD (V F)} {n : Nat}, OD.get acc k = none → OD.get (lazyDict acc n args) k = none := by
  induction args with
  | nil => intro acc n h0; exact h0
  | cons p r ih =>
    obtain ⟨x, e⟩ := p
    intro acc n h0
    refine ih (fun q hq => h q (List.mem_cons_of_mem _ hq)) ?_
    rw [OD.get_set_ne _ _ (fun hk => h (x, e) List.mem_cons_self hk.symm)]
    exact h0

/-- The functions whose first argument is required: the name, the argument, the name in the message, the value. -/
def firstRequired : List (String × String × String × V F) :=
  [("len", "list", "len", .null), ("split", "string", "split", .null), ("encode", "string", "hex", .null),
   ("sum", "item", "sum", .null), ("min", "item", "min", .null), ("max", "item", "min", .null),
   ("format", "format", "format", .bool false)]

/-- C52 in a query: a call without the required argument evaluates none of its other arguments, whatever they are,
leaves one message and gives NULL (`format` gives FALSE). -/
theorem C52_missing_evaluates {name arg said : String} {gives : V F}
    (hm : (name, arg, said, gives) ∈ firstRequired) (hx : OD.get X.fns (bs name) = none) {node : Nat} {s : Nat}
    {args : List (String × AndE)} {st st' : St F S} {a : V F} (hn : st.Names node name s args)
    (ha : ∀ p ∈ args, ident (bs p.1) ≠ bs arg) (hd : ∀ p ∈ args, ident (bs p.1) ≠ bs "**") :
    Runs LH (call (.value (.fcall node name args) s)) st a st' ↔
      a = gives ∧ st' = (st.fnStart node name s args).logged (bs said) := by
  have g1 : OD.get (lazyDict [] st.lazies.length args : OD (V F)) (bs arg) = none := lazyDict_absent ha rfl
  have g2 : OD.get (lazyDict [] st.lazies.length args : OD (V F)) (bs "**") = none := lazyDict_absent hd rfl
  unfold firstRequired at hm
  simp only [List.mem_cons, Prod.mk.injEq, List.not_mem_nil, or_false] at hm
  obtain ⟨rfl, rfl, rfl, rfl⟩ | ⟨rfl, rfl, rfl, rfl⟩ | ⟨rfl, rfl, rfl, rfl⟩ | ⟨rfl, rfl, rfl, rfl⟩ |
    ⟨rfl, rfl, rfl, rfl⟩ | ⟨rfl, rfl, rfl, rfl⟩ | ⟨rfl, rfl, rfl, rfl⟩ := hm
  · rw [runs_lib_fn W matchF fmtV colName num text fuel X (fun _ s a => lenFnP W fmtV s a) hx (by decide +kernel)
      (by decide +kernel) (by decide +kernel) (fun _ _ _ => rfl) hn]
    exact runs_only (runs_bind.2 ⟨none, _, args_bad g2 (parse_missing g1 rfl), runs_pure.2 ⟨rfl, rfl⟩⟩)
  · rw [runs_lib_fn W matchF fmtV colName num text fuel X (fun _ s a => splitFnP W fmtV X s a) hx (by decide +kernel)
      (by decide +kernel) (by decide +kernel) (fun _ _ _ => rfl) hn]
    exact runs_only (runs_bind.2 ⟨none, _, args_bad g2 (parse_missing g1 rfl), runs_pure.2 ⟨rfl, rfl⟩⟩)
  · rw [runs_lib_fn W matchF fmtV colName num text fuel X (fun _ s a => encodeFnP W fmtV s a) hx (by decide +kernel)
      (by decide +kernel) (by decide +kernel) (fun _ _ _ => rfl) hn]
    exact runs_only (runs_bind.2 ⟨none, _, args_bad g2 (parse_missing g1 rfl), runs_pure.2 ⟨rfl, rfl⟩⟩)
  · rw [runs_lib_fn W matchF fmtV colName num text fuel X (fun n s a => sumFnP W fmtV n s a) hx (by decide +kernel)
      (by decide +kernel) (by decide +kernel) (fun _ _ _ => rfl) hn]
    exact runs_only (runs_bind.2 ⟨none, _, args_bad g2 (parse_missing g1 rfl), runs_pure.2 ⟨rfl, rfl⟩⟩)
  · rw [runs_lib_fn W matchF fmtV colName num text fuel X (fun n s a => itemFnP W fmtV .min n s a) hx
      (by decide +kernel) (by decide +kernel) (by decide +kernel) (fun _ _ _ => rfl) hn]
    exact runs_only (runs_bind.2 ⟨none, _, args_bad g2 (parse_missing g1 rfl), runs_pure.2 ⟨rfl, rfl⟩⟩)
  · rw [runs_lib_fn W matchF fmtV colName num text fuel X (fun n s a => itemFnP W fmtV .max n s a) hx
      (by decide +kernel) (by decide +kernel) (by decide +kernel) (fun _ _ _ => rfl) hn]
    exact runs_only (runs_bind.2 ⟨none, _, args_bad g2 (parse_missing g1 rfl), runs_pure.2 ⟨rfl, rfl⟩⟩)
  · rw [runs_lib_fn W matchF fmtV colName num text fuel X (fun _ s a => formatFnP W fmtV X s a) hx (by decide +kernel)
      (by decide +kernel) (by decide +kernel) (fun _ _ _ => rfl) hn]
    exact runs_only (runs_bind.2 ⟨none, _, args_bad g2 (parse_missing g1 rfl), runs_pure.2 ⟨rfl, rfl⟩⟩)

/-- C52 in a query: a call with an argument the function does not have evaluates the arguments it has, gives NULL
and leaves one message; the argument it does not have is not evaluated. -/
theorem C52_unexpected_evaluates (hx : OD.get X.fns (bs "len") = none) {node : Nat} {e1 e2 : AndE} {s : Nat}
    {st s1 st' : St F S} {a v : V F} (hn : st.Names node "len" s [("list", e1), ("other", e2)])
    (h1 : Forces LH e1 s (st.fnStart node "len" s [("list", e1), ("other", e2)]) v s1) :
    Runs LH (call (.value (.fcall node "len" [("list", e1), ("other", e2)]) s)) st a st' ↔
      a = .null ∧ st' = s1.logged (bs "len") := by
  rw [runs_lib_fn W matchF fmtV colName num text fuel X (fun _ s a => lenFnP W fmtV s a) hx (by decide +kernel)
    (by decide +kernel) (by decide +kernel) (fun _ _ _ => rfl) hn]
  have hg := fnStart_get (st := st) (node := node) (name := "len") (s := s)
    (args := [("list", e1), ("other", e2)]) (i := 0) rfl
  exact runs_only (runs_bind.2 ⟨none, _, args_more rfl (parse_some rfl (field_any hg h1) parse_end) rfl,
    runs_pure.2 ⟨rfl, rfl⟩⟩)

end
end

/-! ## Examples -/

/-- The package's functions and plugins for the examples. -/
def libDemo : Host F64 Unit :=
  libHost {} (fun _ _ => false) (fun _ => bs "?") demoName demoNum (fun _ => []) 50 {}

theorem libDemo_polite : libDemo.Polite :=
  libHost_polite _ _ _ _ _ _ _ _ ⟨nofun, nofun, nofun, fun _ _ => trivial⟩

/-- A string literal. -/
def litE (s : String) : AndE := .val (.str (bs "'" ++ bs s ++ bs "'"))

/-- What an expression evaluates to in a fresh scope, and the number of messages. -/
def fnDemo (v : Value) (p : V F64 → Bool) (msgs : Nat) : Bool :=
  match exec libDemo 60 (call (.value v 0)) (St.init []) with
  | some (r, st) => p r && decide (st.log.length = msgs)
  | none => false

example : fnDemo (.fcall 0 "len" [("list", litE "abc")]) (sameV · (.int 3#64)) 0 = true := by decide +kernel
example : fnDemo (.fcall 0 "len" []) (sameV · .null) 1 = true := by decide +kernel
example : fnDemo (.fcall 0 "format" [("args", litE "x")]) (sameV · (.bool false)) 1 = true := by decide +kernel
example : ("max", "item", "min", .null) ∈ (firstRequired : List (String × String × String × V F64)) := by
  simp [firstRequired]
example : ∀ p ∈ [("args", litE "x")], ident (bs p.1) ≠ bs "format" ∧ ident (bs p.1) ≠ bs "**" := by decide +kernel

/-- C52, the message of a failed call does not always name the function: the one of `encode` names `hex` and the one of
`max` names `min`; a failed `format` gives FALSE, not NULL. -/
theorem C52_report_refuted :
    ((∃ st, Runs libDemo (call (.value (.fcall 0 "encode" []) 0)) (St.init []) .null st ∧ st.log = [bs "hex"]) ∧
     (∃ st, Runs libDemo (call (.value (.fcall 0 "max" []) 0)) (St.init []) .null st ∧ st.log = [bs "min"])) ∧
     (∃ st, Runs libDemo (call (.value (.fcall 0 "format" []) 0)) (St.init []) (.bool false) st) := by
  refine ⟨⟨⟨_, (C52_missing_evaluates _ _ _ _ _ _ _ _ (name := "encode") (arg := "string") (said := "hex")
      (by simp [firstRequired]) rfl (by unfold St.Names; decide +kernel) (by simp) (by simp)).2 ⟨rfl, rfl⟩, rfl⟩,
    ⟨_, (C52_missing_evaluates _ _ _ _ _ _ _ _ (name := "max") (arg := "item") (said := "min")
      (by simp [firstRequired]) rfl (by unfold St.Names; decide +kernel) (by simp) (by simp)).2 ⟨rfl, rfl⟩, rfl⟩⟩,
    ⟨_, (C52_missing_evaluates _ _ _ _ _ _ _ _ (name := "format") (arg := "format") (said := "format")
      (by simp [firstRequired]) rfl (by unfold St.Names; decide +kernel) (by simp) (by simp)).2 ⟨rfl, rfl⟩⟩⟩
example : fnDemo (.fcall 0 "len" [("list", litE "abc"), ("other", .val (.name 1 "nope"))]) (sameV · .null) 1 = true := by
  decide +kernel
example : fnDemo (.fcall 0 "split" [("string", litE "a,b,,c"), ("sep_string", litE ",")])
    (sameV · (.arr [.str (bs "a"), .str (bs "b"), .str [], .str (bs "c")])) 0 = true := by decide +kernel
example : fnDemo (.fcall 0 "split" [("string", litE "a,b")]) (sameV · .null) 1 = true := by decide +kernel
example : fnDemo (.fcall 0 "encode" [("string", litE "az"), ("type", litE "hex")])
    (sameV · (.str (bs "617a"))) 0 = true := by decide +kernel
example : fnDemo (.fcall 0 "sum" [("item", .val (.int "5"))]) (sameV · (.int 5#64)) 0 = true := by decide +kernel
example : fnDemo (.fcall 0 "sum" [("item", litE "x")]) (sameV · .null) 1 = true := by decide +kernel
example : fnDemo (.fcall 0 "count" []) (sameV · (.int 1#64)) 0 = true := by decide +kernel
example : fnDemo (.fcall 0 "enumerate" [("items", litE "x")]) (sameV · (.arr [.str (bs "x")])) 0 = true := by decide +kernel
example : fnDemo (.fcall 0 "get" [("item", .val (.fcall 1 "dict" [("a", .val (.fcall 2 "dict" [("b", litE "x")]))])), ("member", litE "a.b")])
    (sameV · (.str (bs "x"))) 0 = true := by decide +kernel
example : fnDemo (.fcall 0 "get" [("item", .val (.fcall 1 "dict" [("a", litE "x")])), ("member", litE "c")])
    (sameV · .null) 0 = true := by decide +kernel
example : (St.init ([] : OD (V F64)) : St F64 Unit).Names 0 "len" 0 [("list", litE "abc")] := by
  unfold St.Names; decide +kernel

end Vfilter.Vql
