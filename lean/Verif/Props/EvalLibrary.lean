import Verif.EvalLib
import Verif.Props.EvalLet
import Verif.Props.EvalIf
import Verif.Props.EvalOps
import Verif.Props.Plugins
import Verif.Props.EvalFns
/-!
# The package's plugins in queries (C36-C38, C40)
-/
set_option linter.all false

namespace Vfilter.Vql
open Fmt

section
variable {F S : Type} [FloatOps F] {H : Host F S}

/-- Queries as arguments are passed as they are. -/
theorem argsRun_selects {s : Nat} {qs : List (Str × Select)} {acc out : OD (V F)} {st st' : St F S} :
    ArgsRun H s acc (qs.map fun q => .mk q.1 (.select q.2)) st out st' ↔
      out = qs.foldl (fun a q => OD.set a (ident q.1) (.obj (.select q.2))) acc ∧ st' = st := by
  induction qs generalizing acc st with
  | nil =>
    constructor
    · intro h; cases h; exact ⟨rfl, rfl⟩
    · rintro ⟨rfl, rfl⟩; exact .nil _ _
  | cons q qs ih =>
    simp only [List.map_cons, List.foldl_cons]
    constructor
    · intro h
      cases h with
      | cons h1 h2 =>
        obtain ⟨rfl, rfl⟩ := h1
        exact ih.1 h2
    · intro h
      exact .cons (s1 := st) ⟨rfl, rfl⟩ (ih.2 h)

omit [FloatOps F] in
theorem foldl_set {qs : List (Str × Select)} {acc : OD (V F)}
    (hn : (acc.map (·.1) ++ qs.map (fun q => ident q.1)).Nodup) :
    qs.foldl (fun a q => OD.set a (ident q.1) (.obj (.select q.2))) acc =
      acc ++ qs.map (fun q => (ident q.1, .obj (.select q.2))) := by
  induction qs generalizing acc with
  | nil => simp
  | cons q qs ih =>
    have hq : ident q.1 ∉ OD.keys acc := by
      intro hp
      rw [List.nodup_append] at hn
      exact hn.2.2 _ hp (ident q.1) (by simp) rfl
    rw [List.foldl_cons, OD.set_of_not_mem _ _ hq, ih]
    · simp
    · simpa using hn

/-- A stored query in a new scope. -/
theorem runs_branch {q : Select} {s : Nat} {st st' : St F S} {rows : List (V F)} :
    Runs H (evalBranchP s (.obj (.select q))) st rows st' ↔ Runs H (call (.select q s)) st rows st' := by
  simp only [evalBranchP, isQuery, if_true]
  rw [runs_call]
  simp only [body]

theorem runs_evalSelect {q : Select} {s : Nat} {st st' : St F S} {rows : List (V F)} :
    Runs H (call (.evalQuery (.obj (.select q)) s)) st rows st' ↔ Runs H (call (.select q s)) st rows st' := by
  rw [runs_call]
  simp only [body]

/-- Programs that do nothing but give a value. -/
theorem runs_mapP_pure {α β : Type} {f : α → Prog F S β} {g : α → β} {l : List α}
    (h : ∀ x ∈ l, f x = pure (g x)) {out : List β} {st st' : St F S} :
    Runs H (mapP f l) st out st' ↔ out = l.map g ∧ st' = st := by
  induction l generalizing out st st' with
  | nil => simp only [mapP, List.map_nil]; exact runs_pure
  | cons a l ih =>
    simp only [mapP, h a (by simp), List.map_cons]
    rw [runs_rb, runs_bind]
    constructor
    · rintro ⟨b, s1, h1, h2⟩
      obtain ⟨rfl, rfl⟩ := (ih fun x hx => h x (by simp [hx])).1 h1
      exact runs_pure.1 h2
    · rintro ⟨rfl, rfl⟩
      exact ⟨_, _, (ih fun x hx => h x (by simp [hx])).2 ⟨rfl, rfl⟩, runs_pure.2 ⟨rfl, rfl⟩⟩

omit [FloatOps F] in
theorem Each.congr {α β : Type} {R R' : α → St F S → β → St F S → Prop} {l : List α}
    (h : ∀ a ∈ l, ∀ st b st', R a st b st' ↔ R' a st b st') {st st' : St F S} {out : List β} :
    Each R l st out st' ↔ Each R' l st out st' := by
  induction l generalizing st out with
  | nil => constructor <;> (intro h; cases h; exact .nil _)
  | cons a l ih =>
    constructor
    · intro hh
      cases hh with
      | cons h1 h2 => exact .cons ((h a (by simp) _ _ _).1 h1) ((ih fun x hx => h x (by simp [hx])).1 h2)
    · intro hh
      cases hh with
      | cons h1 h2 => exact .cons ((h a (by simp) _ _ _).2 h1) ((ih fun x hx => h x (by simp [hx])).2 h2)

omit [FloatOps F] in
theorem Each.map {α β γ : Type} {R : β → St F S → γ → St F S → Prop} {g : α → β} {l : List α}
    {st st' : St F S} {out : List γ} :
    Each R (l.map g) st out st' ↔ Each (fun a => R (g a)) l st out st' := by
  induction l generalizing st out with
  | nil => constructor <;> (intro h; cases h; exact .nil _)
  | cons a l ih =>
    constructor
    · intro hh
      cases hh with
      | cons h1 h2 => exact .cons h1 (ih.1 h2)
    · intro hh
      cases hh with
      | cons h1 h2 => exact .cons h1 (ih.2 h2)

/-- A query run in a new scope below `s` that has a further variable or not. -/
theorem runs_child {q : Select} {s : Nat} {st st' : St F S} {rows : List (V F)} :
    Runs H (do
      let ns ← prim (.copy s)
      evalBranchP ns (.obj (.select q))) st rows st' ↔
      Runs H (call (.select q st.scopes.length)) (st.push s []) rows st' := by
  rw [runs_pb, copy_push]
  exact runs_branch

theorem runs_child_row {q : Select} {s : Nat} {row : V F} {st st' : St F S} {rows : List (V F)} :
    Runs H (do
      let ns ← prim (.copy s)
      prim (.append ns row)
      evalBranchP ns (.obj (.select q))) st rows st' ↔
      Runs H (call (.select q st.scopes.length)) (st.push s [row]) rows st' := by
  rw [runs_pb, copy_push]
  dsimp only
  rw [runs_pb, append_push]
  exact runs_branch

section
variable (W : World F Obj) (matchF : V F → V F → Bool) (fmtV : V F → Str) (colName : Col → Str)
  (num : Str → Option (V F)) (text : Select → Str) (fuel : Nat) (X : Extra F S)

local notation "LH" => libHost W matchF fmtV colName num text fuel X

/-- C36 in a query: `FROM chain(a={ .. }, b={ .. }, ..)` runs the queries one after the other, each in a
new scope below the one of the call and in the state its predecessor left, and gives their rows in this
order. -/
theorem C36_evaluates (hx : OD.get X.plugins (bs "chain") = none) {qs : List (Str × Select)}
    (hn : (qs.map (fun q => ident q.1)).Nodup) {s : Nat} {st st' : St F S} (hd : (st.scp s).depth < 1000)
    {rows : List (V F)} :
    Runs LH (call (.plugin (.mk (bs "chain") true (qs.map fun q => .mk q.1 (.select q.2))) s)) st rows st' ↔
      ∃ out, Each (fun q st rs st' => Runs LH (call (.select q st.scopes.length)) (st.push s []) rs st')
        (qs.map (·.2)) st out st' ∧ rows = out.flatten := by
  have hp : ∀ a : OD (V F), (LH).plugin (bs "chain") s a = chainP s a := by
    intro a
    refine lib_plugin _ _ _ _ _ _ _ _ hx ?_
    unfold libPlugin
    rw [if_neg (by decide +kernel), if_neg (by decide +kernel), if_pos rfl]
  rw [runs_plugin_reg (c := bs "chain") (by decide +kernel) (lib_isPlugin _ _ _ _ _ _ _ _ (by decide +kernel)) hd]
  have e : Runs LH (chainP s (qs.map (fun q => (ident q.1, (.obj (.select q.2) : V F))))) st rows st' ↔
      ∃ out, Each (fun q st rs st' => Runs LH (call (.select q st.scopes.length)) (st.push s []) rs st')
        (qs.map (·.2)) st out st' ∧ rows = out.flatten := by
    unfold chainP
    rw [runs_bind]
    have h0 : ∀ x ∈ (qs.map (fun q => (ident q.1, (.obj (.select q.2) : V F)))).map (·.2),
        (toQueryP x : Prog F S (V F)) = pure (id x) := by
      intro x hx
      simp only [List.map_map, List.mem_map, Function.comp] at hx
      obtain ⟨q, _, rfl⟩ := hx
      rfl
    have h1 : ∀ st1 out, Runs LH (mapP (fun q => do
        let ns ← prim (.copy s)
        evalBranchP ns q) ((qs.map (·.2)).map (fun q => (.obj (.select q) : V F)))) st out st1 ↔
        Each (fun q st rs st' => Runs LH (call (.select q st.scopes.length)) (st.push s []) rs st')
        (qs.map (·.2)) st out st1 := by
      intro st1 out
      rw [runs_mapP, Each.map]
      exact Each.congr fun q _ st b st' => runs_child
    have e2 : ((qs.map (fun q => (ident q.1, (.obj (.select q.2) : V F)))).map (·.2)).map id =
        (qs.map (·.2)).map (fun q => (.obj (.select q) : V F)) := by simp [Function.comp_def]
    constructor
    · rintro ⟨a, s1, h2, h3⟩
      obtain ⟨rfl, rfl⟩ := (runs_mapP_pure h0).1 h2
      rw [e2] at h3
      obtain ⟨out, s2, h4, h5⟩ := runs_bind.1 h3
      obtain ⟨rfl, rfl⟩ := runs_pure.1 h5
      exact ⟨out, (h1 _ _).1 h4, rfl⟩
    · rintro ⟨out, h2, rfl⟩
      refine ⟨_, st, (runs_mapP_pure h0).2 ⟨rfl, rfl⟩, ?_⟩
      rw [e2]
      exact runs_bind.2 ⟨out, _, (h1 _ _).2 h2, runs_pure.2 ⟨rfl, rfl⟩⟩
  rw [← e]
  constructor
  · rintro ⟨a, s1, h1, h2⟩
    rw [runs_buildArgs] at h1
    obtain ⟨rfl, rfl⟩ := argsRun_selects.1 h1
    rw [hp, foldl_set (by simpa using hn)] at h2
    simpa using h2
  · intro h
    refine ⟨qs.foldl (fun a q => OD.set a (ident q.1) (.obj (.select q.2))) [], st, ?_, ?_⟩
    · rw [runs_buildArgs]
      exact argsRun_selects.2 ⟨rfl, rfl⟩
    · rw [hp, foldl_set (by simpa using hn)]
      simpa using h

/-- A registered plugin of the package. -/
theorem runs_lib_plugin {name : Str} {p : Nat → OD (V F) → Prog F S (List (V F))} {args : List Arg} {s : Nat}
    {st st' : St F S} {rows : List (V F)} (hx : OD.get X.plugins name = none)
    (e : ∀ s a, libPlugin W fmtV fuel name s a = some (p s a)) (h1 : splitIdent name = [name])
    (h2 : libPlugins.contains name = true) (hd : (st.scp s).depth < 1000) :
    Runs LH (call (.plugin (.mk name true args) s)) st rows st' ↔
      ∃ a s1, ArgsRun LH s [] args st a s1 ∧ Runs LH (p s a) s1 rows st' := by
  rw [runs_plugin_reg h1 (lib_isPlugin _ _ _ _ _ _ _ _ h2) hd]
  constructor
  · rintro ⟨a, s1, ha, hb⟩
    rw [lib_plugin _ _ _ _ _ _ _ _ hx (e s a)] at hb
    exact ⟨a, s1, runs_buildArgs.1 ha, hb⟩
  · rintro ⟨a, s1, ha, hb⟩
    refine ⟨a, s1, runs_buildArgs.2 ha, ?_⟩
    rw [lib_plugin _ _ _ _ _ _ _ _ hx (e s a)]
    exact hb

/-- C38 in a query: `FROM foreach(row={ q1 }, query={ q2 })` runs `q1`, then for each of its rows `q2` in a
new scope that sees the row, and gives the rows of all these in order. -/
theorem C38_evaluates (hx : OD.get X.plugins (bs "foreach") = none) {q1 q2 : Select}
    {s : Nat} {st st' : St F S} (hd : (st.scp s).depth < 1000) {rows : List (V F)} :
    Runs LH (call (.plugin (.mk (bs "foreach") true
        [.mk (bs "row") (.select q1), .mk (bs "query") (.select q2)]) s)) st rows st' ↔
      ∃ rows1 s1 out, Runs LH (call (.select q1 s)) st rows1 s1 ∧
        Each (fun row st rs st' => Runs LH (call (.select q2 st.scopes.length)) (st.push s [row]) rs st')
          rows1 s1 out st' ∧ rows = out.flatten := by
  rw [runs_lib_plugin (p := foreachP W fmtV) _ _ _ _ _ _ _ _ hx (fun s a => rfl) (by decide +kernel)
    (by decide +kernel) hd]
  have e : ∀ a : OD (V F), a = [(bs "row", .obj (.select q1)), (bs "query", .obj (.select q2))] →
      (foreachP W fmtV s a : Prog F S _) = (do
        let rows ← call (.evalQuery (.obj (.select q1)) s)
        let out ← mapP (foreachRowP s [] (some (.obj (.select q2)))) rows
        pure out.flatten) := by
    rintro a rfl
    rfl
  have e2 : Runs LH (foreachP W fmtV s [(bs "row", .obj (.select q1)), (bs "query", .obj (.select q2))]) st rows st' ↔
      ∃ rows1 s1 out, Runs LH (call (.select q1 s)) st rows1 s1 ∧
        Each (fun row st rs st' => Runs LH (call (.select q2 st.scopes.length)) (st.push s [row]) rs st')
          rows1 s1 out st' ∧ rows = out.flatten := by
    have hm : ∀ rows1 s1 out s2, Runs LH (mapP (foreachRowP s [] (some (.obj (.select q2)))) rows1) s1 out s2 ↔
        Each (fun row st rs st' => Runs LH (call (.select q2 st.scopes.length)) (st.push s [row]) rs st')
          rows1 s1 out s2 := by
      intro rows1 s1 out s2
      rw [runs_mapP]
      exact Each.congr fun row _ st b st' => runs_child_row
    rw [e _ rfl, runs_bind]
    constructor
    · rintro ⟨rows1, s1, h1, h2⟩
      obtain ⟨out, s2, h3, h4⟩ := runs_bind.1 h2
      obtain ⟨rfl, rfl⟩ := runs_pure.1 h4
      exact ⟨rows1, s1, out, runs_evalSelect.1 h1, (hm _ _ _ _).1 h3, rfl⟩
    · rintro ⟨rows1, s1, out, h1, h2, rfl⟩
      exact ⟨rows1, s1, runs_evalSelect.2 h1, runs_bind.2 ⟨out, _, (hm _ _ _ _).2 h2, runs_pure.2 ⟨rfl, rfl⟩⟩⟩
  rw [← e2]
  constructor
  · rintro ⟨a, s1, h1, h2⟩
    obtain ⟨rfl, rfl⟩ := (argsRun_selects (qs := [(bs "row", q1), (bs "query", q2)])).1 h1
    exact h2
  · intro h
    exact ⟨_, _, (argsRun_selects (qs := [(bs "row", q1), (bs "query", q2)])).2 ⟨rfl, rfl⟩, h⟩

theorem runs_iterate {v : V F} {s : Nat} {st st' : St F S} {rows : List (V F)} (hv : Ready v) (hq : isQuery v = false) :
    Runs H (iterateP W s v) st rows st' ↔ rows = iterate W v ∧ st' = st := by
  have e : (iterateP W s v : Prog F S _) = pure (iterate W v) := by
    have : (reduceP v : Prog F S _) = pure v := by
      unfold reduceP
      split
      · rename_i c; exact absurd rfl (hv c)
      · rfl
    unfold iterateP
    rw [this]
    show (if isQuery v = true then _ else _) = _
    rw [hq]
    rfl
  rw [e]
  exact runs_pure

/-- C38 in a query over a value: `FROM foreach(row=e, query={ q })` for an expression that is not a query runs
`q` once for each row of the value (`C15_iterate`: the elements of an array that are not NULL). -/
theorem C38_values (hx : OD.get X.plugins (bs "foreach") = none) {e : AndE} {q : Select} {v : V F}
    {s : Nat} {st s1 st' : St F S} (hd : (st.scp s).depth < 1000) {rows : List (V F)}
    (he : Runs LH (call (.and e s)) st v s1) (hv : Ready v) (hq : isQuery v = false) :
    Runs LH (call (.plugin (.mk (bs "foreach") true
        [.mk (bs "row") (.expr e), .mk (bs "query") (.select q)]) s)) st rows st' ↔
      ∃ out, Each (fun row st rs st' => Runs LH (call (.select q st.scopes.length)) (st.push s [row]) rs st')
          (iterate W v) s1 out st' ∧ rows = out.flatten := by
  rw [runs_lib_plugin (p := foreachP W fmtV) _ _ _ _ _ _ _ _ hx (fun s a => rfl) (by decide +kernel)
    (by decide +kernel) hd]
  have e2 : Runs LH (foreachP W fmtV s [(bs "row", v), (bs "query", .obj (.select q))]) s1 rows st' ↔
      ∃ out, Each (fun row st rs st' => Runs LH (call (.select q st.scopes.length)) (st.push s [row]) rs st')
          (iterate W v) s1 out st' ∧ rows = out.flatten := by
    have e3 : (foreachP W fmtV s [(bs "row", v), (bs "query", .obj (.select q))] : Prog F S _) = (do
        let rows ← iterateP W s v
        let out ← mapP (foreachRowP s [] (some (.obj (.select q)))) rows
        pure out.flatten) := rfl
    have hm : ∀ rows1 s1 out s2, Runs LH (mapP (foreachRowP s [] (some (.obj (.select q)))) rows1) s1 out s2 ↔
        Each (fun row st rs st' => Runs LH (call (.select q st.scopes.length)) (st.push s [row]) rs st')
          rows1 s1 out s2 := by
      intro rows1 s1 out s2
      rw [runs_mapP]
      exact Each.congr fun row _ st b st' => runs_child_row
    rw [e3, runs_bind]
    constructor
    · rintro ⟨a, s2, h1, h2⟩
      obtain ⟨rfl, rfl⟩ := (runs_iterate W hv hq).1 h1
      obtain ⟨out, s2, h3, h4⟩ := runs_bind.1 h2
      obtain ⟨rfl, rfl⟩ := runs_pure.1 h4
      exact ⟨out, (hm _ _ _ _).1 h3, rfl⟩
    · rintro ⟨out, h2, rfl⟩
      exact ⟨_, s1, (runs_iterate W hv hq).2 ⟨rfl, rfl⟩, runs_bind.2 ⟨out, _, (hm _ _ _ _).2 h2, runs_pure.2 ⟨rfl, rfl⟩⟩⟩
  rw [← e2]
  constructor
  · rintro ⟨a, s2, h1, h2⟩
    cases h1 with
    | cons h1 h3 =>
      obtain ⟨rfl, rfl⟩ := he.det h1
      cases h3 with
      | cons h3 h4 =>
        obtain ⟨rfl, rfl⟩ := h3
        cases h4
        exact h2
  · intro h
    exact ⟨_, _, .cons he (.cons ⟨rfl, rfl⟩ (.nil _ _)), h⟩

omit [FloatOps F] in
theorem flatten_single {α : Type} {l : List α} : (l.map fun r => [r]).flatten = l := by
  induction l with
  | nil => rfl
  | cons a l ih => simp [ih]

/-- C38 without a query: `FROM foreach(row={ q })` gives the rows of `q`. -/
theorem C38_no_query (hx : OD.get X.plugins (bs "foreach") = none) {q : Select}
    {s : Nat} {st st' : St F S} (hd : (st.scp s).depth < 1000) {rows : List (V F)} :
    Runs LH (call (.plugin (.mk (bs "foreach") true [.mk (bs "row") (.select q)]) s)) st rows st' ↔
      Runs LH (call (.select q s)) st rows st' := by
  rw [runs_lib_plugin (p := foreachP W fmtV) _ _ _ _ _ _ _ _ hx (fun s a => rfl) (by decide +kernel)
    (by decide +kernel) hd]
  have e2 : Runs LH (foreachP W fmtV s [(bs "row", .obj (.select q))]) st rows st' ↔
      Runs LH (call (.select q s)) st rows st' := by
    have e3 : (foreachP W fmtV s [(bs "row", .obj (.select q))] : Prog F S _) = (do
        let rows ← call (.evalQuery (.obj (.select q)) s)
        let out ← mapP (fun r => pure [r]) rows
        pure out.flatten) := rfl
    rw [e3, runs_bind]
    constructor
    · rintro ⟨rows1, s1, h1, h2⟩
      obtain ⟨out, s2, h3, h4⟩ := runs_bind.1 h2
      obtain ⟨rfl, rfl⟩ := runs_pure.1 h4
      obtain ⟨rfl, rfl⟩ := (runs_mapP_pure (g := fun r => [r]) (fun _ _ => rfl)).1 h3
      rw [flatten_single]
      exact runs_evalSelect.1 h1
    · intro h
      refine ⟨rows, _, runs_evalSelect.2 h, runs_bind.2 ⟨_, _, (runs_mapP_pure (g := fun r => [r]) (fun _ _ => rfl)).2 ⟨rfl, rfl⟩, ?_⟩⟩
      exact runs_pure.2 ⟨flatten_single.symm, rfl⟩
  rw [← e2]
  constructor
  · rintro ⟨a, s1, h1, h2⟩
    obtain ⟨rfl, rfl⟩ := (argsRun_selects (qs := [(bs "row", q)])).1 h1
    exact h2
  · intro h
    exact ⟨_, _, (argsRun_selects (qs := [(bs "row", q)])).2 ⟨rfl, rfl⟩, h⟩

omit [FloatOps F] in
theorem rangeLoop_ends {step end_ : I64} (h1 : 1 ≤ step.toInt) (h2 : end_.toInt + step.toInt ≤ 2 ^ 63) :
    ∀ (fuel : Nat) (i : I64), end_.toInt - i.toInt < fuel → (rangeLoop step end_ fuel i).2 = true
    ∨ fuel = 0
  | 0, _, _ => .inr rfl
  | n + 1, i, h => by
    left
    simp only [rangeLoop]
    split
    · rename_i hlt
      have hadd : (i + step).toInt = i.toInt + step.toInt := by
        have := BitVec.le_toInt i
        have := BitVec.le_toInt step
        apply toInt_add_of <;> omega
      rcases rangeLoop_ends h1 h2 n (i + step) (by rw [hadd]; push_cast at h; omega) with h3 | h3
      · exact h3
      · subst h3; omega
    · rfl

/-- C40 in a query: `FROM range(start=a, end=b, step=c)` gives the rows `{_value: start + k * step}` while
less than `end`, in this order, provided that `end + step` is at most 2^63 and that the bound of the
model's loop is large enough. -/
theorem C40_evaluates_partial (hx : OD.get X.plugins (bs "range") = none) {e1 e2 e3 : AndE} {start end_ step : I64}
    {s : Nat} {st s1 s2 s3 st' : St F S} (hd : (st.scp s).depth < 1000) {rows : List (V F)}
    (h1 : Runs LH (call (.and e1 s)) st (.int start) s1) (h2 : Runs LH (call (.and e2 s)) s1 (.int end_) s2)
    (h3 : Runs LH (call (.and e3 s)) s2 (.int step) s3) (hs : 0 ≤ step.toInt)
    (ho : end_.toInt + max 1 step.toInt ≤ 2 ^ 63) (hf : end_.toInt - start.toInt < fuel) (hf0 : 0 < fuel) :
    Runs LH (call (.plugin (.mk (bs "range") true [.mk (bs "start") (.expr e1), .mk (bs "end") (.expr e2),
        .mk (bs "step") (.expr e3)]) s)) st rows st' ↔
      st' = s3 ∧ ∃ L : List I64, (∀ k : Nat, (L.map BitVec.toInt)[k]? =
        if start.toInt + k * max 1 step.toInt < end_.toInt then some (start.toInt + k * max 1 step.toInt) else none) ∧
      rows = L.map fun i => .dict [(bs "_value", .int i)] := by
  rw [runs_lib_plugin (p := rangeP W fmtV fuel) _ _ _ _ _ _ _ _ hx (fun s a => rfl) (by decide +kernel)
    (by decide +kernel) hd]
  obtain ⟨L, hL, _, hall⟩ := C40_range_partial start end_ step hs ho
  have hstep : (rangeStep step).toInt = max 1 step.toInt := by
    unfold rangeStep
    by_cases h : step = 0#64
    · subst h; decide
    · rw [if_neg h]
      have : step.toInt ≠ 0 := by
        intro h0
        exact h (BitVec.eq_of_toInt_eq (by rw [h0]; rfl))
      omega
  have hL2 : (rangeCall start end_ step fuel).1 = L := by
    refine (hall fuel).2 ?_
    rcases rangeLoop_ends (step := rangeStep step) (by omega) (by omega) fuel start hf with h | h
    · exact h
    · omega
  have hu : ∀ L' : List I64, (∀ k : Nat, (L'.map BitVec.toInt)[k]? =
        if start.toInt + k * max 1 step.toInt < end_.toInt then some (start.toInt + k * max 1 step.toInt) else none) →
      L' = L := by
    intro L' hL'
    have : L'.map BitVec.toInt = L.map BitVec.toInt := List.ext_getElem? fun k => by rw [hL', hL]
    exact List.map_injective_iff.2 (fun a b h => BitVec.eq_of_toInt_eq h) this
  have e : Runs LH (rangeP W fmtV fuel s [(bs "start", .int start), (bs "end", .int end_), (bs "step", .int step)])
      s3 rows st' ↔ rows = L.map (fun i => .dict [(bs "_value", .int i)]) ∧ st' = s3 := by
    have : (rangeP W fmtV fuel s [(bs "start", .int start), (bs "end", .int end_), (bs "step", .int step)] : Prog F S _)
        = pure ((rangeCall start end_ step fuel).1.map fun i => .dict [(bs "_value", .int i)]) := rfl
    rw [this, hL2]
    exact runs_pure
  constructor
  · rintro ⟨a, s4, h4, h5⟩
    cases h4 with
    | cons g1 h4 =>
      obtain ⟨rfl, rfl⟩ := h1.det g1
      cases h4 with
      | cons g2 h4 =>
        obtain ⟨rfl, rfl⟩ := h2.det g2
        cases h4 with
        | cons g3 h4 =>
          obtain ⟨rfl, rfl⟩ := h3.det g3
          cases h4
          obtain ⟨h6, h7⟩ := e.1 h5
          exact ⟨h7, L, hL, h6⟩
  · rintro ⟨rfl, L', h4, rfl⟩
    refine ⟨_, _, .cons h1 (.cons h2 (.cons h3 (.nil _ _))), ?_⟩
    exact e.2 ⟨by rw [hu L' h4], rfl⟩

/-- The value of a column of a row, NULL if the row does not have it. -/
def ColumnOf (H : Host F S) (s : Nat) (c : Str) (row : V F) (st : St F S) (v : V F) (st' : St F S) : Prop :=
  (∃ x, Runs H (call (.assoc row (.val (.str c)) s)) st (x, true) st' ∧ v = x.getD .null) ∨
    ∃ x, Runs H (call (.assoc row (.val (.str c)) s)) st (x, false) st' ∧ v = .null

/-- C38 with a column: `FROM foreach(row={ q }, column=e)` gives the values of this column of the rows
of `q`. -/
theorem C38_column (hx : OD.get X.plugins (bs "foreach") = none) {q : Select} {e : AndE} {c : Str} (hc : c ≠ [])
    {s : Nat} {st s0 st' : St F S} (hd : (st.scp s).depth < 1000) {rows : List (V F)}
    (he : Runs LH (call (.and e s)) st (.str c) s0) :
    Runs LH (call (.plugin (.mk (bs "foreach") true
        [.mk (bs "row") (.select q), .mk (bs "column") (.expr e)]) s)) st rows st' ↔
      ∃ rows1 s1, Runs LH (call (.select q s)) s0 rows1 s1 ∧ Each (ColumnOf LH s c) rows1 s1 rows st' := by
  rw [runs_lib_plugin (p := foreachP W fmtV) _ _ _ _ _ _ _ _ hx (fun s a => rfl) (by decide +kernel)
    (by decide +kernel) hd]
  have e2 : Runs LH (foreachP W fmtV s [(bs "row", .obj (.select q)), (bs "column", .str c)]) s0 rows st' ↔
      ∃ rows1 s1, Runs LH (call (.select q s)) s0 rows1 s1 ∧ Each (ColumnOf LH s c) rows1 s1 rows st' := by
    have e3 : (foreachP W fmtV s [(bs "row", .obj (.select q)), (bs "column", .str c)] : Prog F S _) = (do
        let rows ← call (.evalQuery (.obj (.select q)) s)
        let out ← mapP (foreachRowP s c none) rows
        pure out.flatten) := rfl
    have hr : ∀ row st b st', Runs LH (foreachRowP s c none row) st b st' ↔
        ∃ v, ColumnOf LH s c row st v st' ∧ b = [v] := by
      intro row st b st'
      unfold foreachRowP
      rw [if_neg hc, runs_bind]
      constructor
      · rintro ⟨⟨x, b⟩, s1, h3, h2⟩
        cases b with
        | true =>
          obtain ⟨rfl, rfl⟩ := runs_pure.1 (runs_rb.1 h2)
          exact ⟨_, .inl ⟨x, h3, rfl⟩, rfl⟩
        | false =>
          obtain ⟨rfl, rfl⟩ := runs_pure.1 (runs_rb.1 h2)
          exact ⟨_, .inr ⟨x, h3, rfl⟩, rfl⟩
      · rintro ⟨v, h | h, rfl⟩
        · obtain ⟨x, h1, rfl⟩ := h
          exact ⟨_, _, h1, runs_rb.2 (runs_pure.2 ⟨rfl, rfl⟩)⟩
        · obtain ⟨x, h1, rfl⟩ := h
          exact ⟨_, _, h1, runs_rb.2 (runs_pure.2 ⟨rfl, rfl⟩)⟩
    have hm : ∀ (rows1 : List (V F)) s1 out s2, Each (fun row st b st' => Runs LH (foreachRowP s c none row) st b st') rows1 s1 out s2 ↔
        ∃ vs, Each (ColumnOf LH s c) rows1 s1 vs s2 ∧ out = vs.map fun v => [v] := by
      intro rows1
      induction rows1 with
      | nil =>
        intro s1 out s2
        constructor
        · intro h; cases h; exact ⟨[], .nil _, rfl⟩
        · rintro ⟨vs, h, rfl⟩; cases h; exact .nil _
      | cons r rs ih =>
        intro s1 out s2
        constructor
        · intro h
          cases h with
          | cons h1 h2 =>
            obtain ⟨v, h3, rfl⟩ := (hr _ _ _ _).1 h1
            obtain ⟨vs, h4, rfl⟩ := (ih _ _ _).1 h2
            exact ⟨v :: vs, .cons h3 h4, rfl⟩
        · rintro ⟨vs, h, rfl⟩
          cases h with
          | cons h1 h2 => exact .cons ((hr _ _ _ _).2 ⟨_, h1, rfl⟩) ((ih _ _ _).2 ⟨_, h2, rfl⟩)
    rw [e3, runs_bind]
    constructor
    · rintro ⟨rows1, s1, h1, h2⟩
      obtain ⟨out, s2, h3, h4⟩ := runs_bind.1 h2
      obtain ⟨rfl, rfl⟩ := runs_pure.1 h4
      rw [runs_mapP] at h3
      obtain ⟨vs, h5, rfl⟩ := (hm _ _ _ _).1 h3
      rw [flatten_single]
      exact ⟨rows1, s1, runs_evalSelect.1 h1, h5⟩
    · rintro ⟨rows1, s1, h1, h2⟩
      refine ⟨rows1, s1, runs_evalSelect.2 h1, runs_bind.2 ⟨rows.map fun v => [v], _, ?_, runs_pure.2 ⟨flatten_single.symm, rfl⟩⟩⟩
      rw [runs_mapP]
      exact (hm _ _ _ _).2 ⟨_, h2, rfl⟩
  rw [← e2]
  constructor
  · rintro ⟨a, s2, h1, h2⟩
    cases h1 with
    | cons h1 h3 =>
      obtain ⟨rfl, rfl⟩ := h1
      cases h3 with
      | cons h3 h4 =>
        obtain ⟨rfl, rfl⟩ := he.det h3
        cases h4
        exact h2
  · intro h
    exact ⟨_, _, .cons ⟨rfl, rfl⟩ (.cons he (.nil _ _)), h⟩

/-! ## C37 -/

/-- The rows of a cell that is neither a query nor lazy. -/
theorem iterateP_eq {v : V F} {s : Nat} (hv : Ready v) (hq : isQuery v = false) :
    (iterateP W s v : Prog F S _) = pure (iterate W v) := by
  have : (reduceP v : Prog F S _) = pure v := by
    unfold reduceP
    split
    · rename_i c; exact absurd rfl (hv c)
    · rfl
  unfold iterateP
  rw [this]
  show (if isQuery v = true then _ else _) = _
  rw [hq]
  rfl

omit [FloatOps F] in
theorem mapP_pure {α β : Type} {f : α → Prog F S β} {g : α → β} {l : List α} (h : ∀ x ∈ l, f x = pure (g x)) :
    mapP f l = pure (l.map g) := by
  induction l with
  | nil => rfl
  | cons a l ih =>
    simp only [mapP, h a (by simp), ih fun x hx => h x (by simp [hx])]
    rfl

theorem flattenRowP_eq {s : Nat} : ∀ (n : Nat) (pre post : OD (V F)), pre.length = n → OD.WF (pre ++ post) →
    (∀ p ∈ pre, Ready p.2 ∧ isQuery p.2 = false) →
    (flattenRowP W s n (pre ++ post) : Prog F S _) =
      pure (((combos (pre.map fun p => (p.1, rawChoices W p.2))).map (· ++ post)).map .dict) := by
  intro n
  induction n with
  | zero =>
    intro pre post hn h _
    have : pre = [] := List.length_eq_zero_iff.1 hn
    subst this
    simp [flattenRowP, combos]
  | succ n ih =>
    intro pre post hn h hp
    obtain ⟨pre', p, rfl⟩ : ∃ pre' p, pre = pre' ++ [p] := by
      have : pre ≠ [] := by rintro rfl; simp at hn
      exact ⟨pre.dropLast, pre.getLast this, (List.dropLast_concat_getLast this).symm⟩
    obtain ⟨k, v⟩ := p
    have hlen : pre'.length = n := by simpa using hn
    have e0 : pre' ++ [(k, v)] ++ post = pre' ++ (k, v) :: post := by simp
    obtain ⟨hr, hq⟩ := hp (k, v) (by simp)
    have hp' : ∀ p ∈ pre', Ready p.2 ∧ isQuery p.2 = false := fun p h => hp p (by simp [h])
    rw [e0] at h ⊢
    have hkey : (OD.keys (pre' ++ (k, v) :: post))[n]? = some k := by
      rw [← hlen]; simp [OD.keys]
    have hget : OD.get (pre' ++ (k, v) :: post) k = some v := OD.get_of_mem h (by simp)
    have hup : ∀ m, OD.update (OD.mergeFrom [] (pre' ++ (k, v) :: post)) k m = pre' ++ (k, m) :: post := by
      intro m
      rw [OD.mergeFrom_nil _ h]
      exact OD.update_mid pre' post k v m h
    have hwf : ∀ m, OD.WF (pre' ++ (k, m) :: post) := by
      intro m
      have : OD.keys (pre' ++ (k, m) :: post) = OD.keys (pre' ++ (k, v) :: post) := by simp [OD.keys]
      unfold OD.WF; rw [this]; exact h
    have hrec : ∀ m, (flattenRowP W s n (pre' ++ (k, m) :: post) : Prog F S _) =
        pure (((combos (pre'.map fun p => (p.1, rawChoices W p.2))).map (· ++ (k, m) :: post)).map .dict) :=
      fun m => ih pre' _ hlen (hwf m) hp'
    have e1 : (flattenRowP W s (n + 1) (pre' ++ (k, v) :: post) : Prog F S _) =
        (let members := (iterate W v).map unwrapMember
         if members.isEmpty then flattenRowP W s n (pre' ++ (k, v) :: post)
         else do
          let out ← mapP (fun m => flattenRowP W s n (pre' ++ (k, m) :: post)) members
          pure out.flatten) := by
      simp only [flattenRowP, hkey, hget, Option.getD_some, iterateP_eq W hr hq, hup]
      rfl
    rw [e1, List.map_append, List.map_cons, List.map_nil, combos_snoc]
    dsimp only
    by_cases hm : (iterate W v).map unwrapMember = []
    · rw [hm, if_pos (show (List.isEmpty ([] : List (V F))) = true from rfl), hrec]
      have : rawChoices W v = [v] := by unfold rawChoices; simp [hm]
      rw [this]
      simp [Function.comp_def]
    · have hm' : ((iterate W v).map unwrapMember).isEmpty = false := by
        cases h : ((iterate W v).map unwrapMember) with
        | nil => exact absurd h hm
        | cons _ _ => rfl
      rw [hm', if_neg (by simp)]
      have : rawChoices W v = (iterate W v).map unwrapMember := by unfold rawChoices; simp only [hm, if_false]
      rw [this]
      generalize (iterate W v).map unwrapMember = ms
      rw [mapP_pure fun m _ => hrec m]
      have hb : ∀ x : List (List (V F)), ((pure x : Prog F S _) >>= fun out => pure out.flatten) = pure x.flatten :=
        fun _ => rfl
      rw [hb]
      congr 1
      simp [List.map_flatMap, List.flatMap_def, Function.comp_def, List.map_flatten]

/-- C37 in a query: `FROM flatten(query={ q })` for rows that are dictionaries of plain cells gives for every
row of `q`, in order, one row for each combination of one element from every non-empty array, the
other columns unchanged and all columns in their order. -/
theorem C37_evaluates_partial (hx : OD.get X.plugins (bs "flatten") = none) {q : Select}
    {s : Nat} {st s1 st' : St F S} (hd : (st.scp s).depth < 1000) {rows : List (V F)} {ds : List (OD (V F))}
    (hq : Runs LH (call (.select q s)) st (ds.map .dict) s1) (hwf : ∀ d ∈ ds, OD.WF d)
    (hp : ∀ d ∈ ds, ∀ p ∈ d, PlainCell W p.2 ∧ Ready p.2 ∧ isQuery p.2 = false) :
    Runs LH (call (.plugin (.mk (bs "flatten") true [.mk (bs "query") (.select q)]) s)) st rows st' ↔
      rows = (ds.flatMap fun d => combos (d.map fun p => (p.1, cellChoices p.2))).map .dict ∧ st' = s1 := by
  rw [runs_lib_plugin (p := flattenP W fmtV) _ _ _ _ _ _ _ _ hx (fun s a => rfl) (by decide +kernel)
    (by decide +kernel) hd]
  have hrow : ∀ d ∈ ds, (flattenRowP W s (OD.keys d).length d : Prog F S _) =
      pure ((combos (d.map fun p => (p.1, cellChoices p.2))).map .dict) := by
    intro d hd
    have h1 := flattenRowP_eq (S := S) W (s := s) d.length d [] rfl (by simpa using hwf d hd) (fun p h => (hp d hd p h).2)
    have hk : (OD.keys d).length = d.length := by simp [OD.keys]
    rw [List.append_nil] at h1
    rw [hk, h1]
    simp only [List.append_nil, List.map_id']
    congr 3
    exact List.map_congr_left (fun p h => by rw [rawChoices_plain W p.2 (hp d hd p h).1])
  have e2 : Runs LH (flattenP W fmtV s [(bs "query", .obj (.select q))]) st rows st' ↔
      rows = (ds.flatMap fun d => combos (d.map fun p => (p.1, cellChoices p.2))).map .dict ∧ st' = s1 := by
    have e3 : (flattenP W fmtV s [(bs "query", .obj (.select q))] : Prog F S _) = (do
        let rows ← evalBranchP s (.obj (.select q))
        let out ← mapP (fun r => do
          let d ← makeDictP s r
          flattenRowP W s (OD.keys d).length d) rows
        pure out.flatten) := rfl
    have hm : Runs LH (do
        let out ← mapP (fun r => do
          let d ← makeDictP s r
          flattenRowP W s (OD.keys d).length d) (ds.map .dict)
        pure out.flatten) s1 rows st' ↔
        rows = (ds.flatMap fun d => combos (d.map fun p => (p.1, cellChoices p.2))).map .dict ∧ st' = s1 := by
      have e4 : (mapP (fun r => do
          let d ← makeDictP s r
          flattenRowP W s (OD.keys d).length d) (ds.map .dict) : Prog F S _) =
          pure (ds.map fun d => (combos (d.map fun p => (p.1, cellChoices p.2))).map .dict) := by
        clear hq
        induction ds with
        | nil => rfl
        | cons d ds ih =>
          simp only [List.map_cons, mapP, ih (fun d h => hwf d (by simp [h])) (fun d h => hp d (by simp [h]))
            (fun d h => hrow d (by simp [h]))]
          show (flattenRowP W s (OD.keys d).length d >>= _) = _
          rw [hrow d (by simp)]
          rfl
      rw [e4, runs_rb, runs_pure]
      simp [List.flatMap_def, List.map_flatten, Function.comp_def]
    rw [e3, runs_bind]
    constructor
    · rintro ⟨rows1, s2, h1, h2⟩
      obtain ⟨rfl, rfl⟩ := hq.det (runs_branch.1 h1)
      exact hm.1 h2
    · intro h
      exact ⟨_, _, runs_branch.2 hq, hm.2 h⟩
  rw [← e2]
  constructor
  · rintro ⟨a, s2, h1, h2⟩
    obtain ⟨rfl, rfl⟩ := (argsRun_selects (qs := [(bs "query", q)])).1 h1
    exact h2
  · intro h
    exact ⟨_, _, (argsRun_selects (qs := [(bs "query", q)])).2 ⟨rfl, rfl⟩, h⟩

end
end

/-! ## Examples -/

/-- The rows of a source in a fresh scope. -/
def pluginDemo (p : Plugin) (rows : List (V F64)) : Bool :=
  match exec libDemo 80 (call (.plugin p 0)) (St.init []) with
  | some (r, st) => decide (st.log = []) && sameV (.arr r) (.arr rows)
  | none => false

/-- `SELECT * FROM range(start=a, end=b)`. -/
def rangeSel (a b : String) : Select :=
  .mk false true [] (.mk (bs "range") true [.mk (bs "start") (.expr (.val (.int a))), .mk (bs "end") (.expr (.val (.int b)))])
    none none none none

/-- A row of `range`. -/
def rangeRow (i : I64) : V F64 := .dict [(bs "_value", .int i)]

example : pluginDemo (.mk (bs "range") true [.mk (bs "start") (.expr (.val (.int "3"))),
    .mk (bs "end") (.expr (.val (.int "10"))), .mk (bs "step") (.expr (.val (.int "3")))])
    [rangeRow 3, rangeRow 6, rangeRow 9] = true := by decide +kernel
example : pluginDemo (.mk (bs "chain") true [.mk (bs "a") (.select (rangeSel "5" "7")), .mk (bs "b") (.select (rangeSel "0" "1"))])
    [rangeRow 5, rangeRow 6, rangeRow 0] = true := by decide +kernel
example : pluginDemo (.mk (bs "foreach") true [.mk (bs "row") (.select (rangeSel "1" "3")),
    .mk (bs "query") (.select (.mk false false [.ex (.val (.name 1 "_value")) "a"]
      (.mk (bs "range") true [.mk (bs "end") (.expr (.val (.int "2")))]) none none none none))])
    [.dict [(bs "a", .int 0)], .dict [(bs "a", .int 1)], .dict [(bs "a", .int 0)], .dict [(bs "a", .int 1)]] = true := by
  decide +kernel
example : pluginDemo (.mk (bs "foreach") true [.mk (bs "row") (.select (rangeSel "1" "3")),
    .mk (bs "column") (.expr (litE "_value"))]) [.int 1, .int 2] = true := by decide +kernel
example : pluginDemo (.mk (bs "foreach") true [.mk (bs "row") (.select (rangeSel "1" "3"))])
    [rangeRow 1, rangeRow 2] = true := by decide +kernel
example : pluginDemo (.mk (bs "flatten") true [.mk (bs "query") (.select (.mk false false
      [.ex (.val (.fcall 1 "split" [("string", litE "a,b"), ("sep_string", litE ",")])) "x",
       .ex (.val (.int "1")) "y"] (.mk (bs "range") true [.mk (bs "end") (.expr (.val (.int "1")))]) none none none none))])
    [.dict [(bs "x", .str (bs "a")), (bs "y", .int 1)], .dict [(bs "x", .str (bs "b")), (bs "y", .int 1)]] = true := by
  decide +kernel

end Vfilter.Vql
