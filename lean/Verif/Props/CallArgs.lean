import Verif.Props.EvalLet
import Mathlib.Data.List.Nodup
/-!
# C84: wrong arguments of LET queries are reported
-/
set_option linter.all false

namespace Vfilter.Vql

/-- The message for an argument that is not a parameter (stored.go:136-137). -/
def extraArg (f k : Str) : Str := bs "ERROR:Extra unrecognized arg " ++ k ++ bs " when calling " ++ f

/-- The message for a parameter without argument (stored.go:147-148). -/
def missingArg (f k : Str) : Str := bs "ERROR:Missing arg " ++ k ++ bs " when calling " ++ f

theorem extraArg_inj {f k k' : Str} (h : extraArg f k = extraArg f k') : k = k' := by
  unfold extraArg at h
  simp only [List.append_assoc] at h
  have := List.append_cancel_left h
  simp only [← List.append_assoc] at this
  exact List.append_cancel_right (List.append_cancel_right this)

theorem missingArg_inj {f k k' : Str} (h : missingArg f k = missingArg f k') : k = k' := by
  unfold missingArg at h
  simp only [List.append_assoc] at h
  have := List.append_cancel_left h
  simp only [← List.append_assoc] at this
  exact List.append_cancel_right (List.append_cancel_right this)

theorem extra_ne_missing {f k f' k' : Str} : extraArg f k ≠ missingArg f' k' := by
  intro h
  have := congrArg (fun l => l.take 7) h
  simp only [extraArg, missingArg, List.append_assoc] at this
  rw [List.take_append_of_le_length (by decide), List.take_append_of_le_length (by decide)] at this
  exact absurd this (by decide)

section
variable {q : SQuery} {keys : List Str} {k : Str}

theorem mem_extra : extraArg q.name k ∈ callWarnings q keys ↔ q.params ≠ [] ∧ k ∈ keys ∧ k ∉ q.params := by
  unfold callWarnings
  split
  · next h => simp [h]
  next h =>
  rw [List.mem_append]
  constructor
  · rintro (hm | hm)
    · obtain ⟨k', h1, h2⟩ := List.mem_map.1 hm
      obtain rfl := extraArg_inj h2
      simpa [h] using h1
    · split at hm
      · obtain ⟨k', _, h2⟩ := List.mem_map.1 hm
        exact absurd h2.symm extra_ne_missing
      · cases hm
  · rintro ⟨_, h1, h2⟩
    exact .inl (List.mem_map.2 ⟨k, by simpa using ⟨h1, h2⟩, rfl⟩)

theorem mem_missing : missingArg q.name k ∈ callWarnings q keys ↔
    k ∈ q.params ∧ k ∉ keys ∧ keys.length < q.params.length := by
  unfold callWarnings
  split
  · next h => simp [h]
  next h =>
  rw [List.mem_append]
  constructor
  · rintro (hm | hm)
    · obtain ⟨k', _, h2⟩ := List.mem_map.1 hm
      exact absurd h2 extra_ne_missing
    · split at hm
      · next hl =>
        obtain ⟨k', h1, h2⟩ := List.mem_map.1 hm
        obtain rfl := missingArg_inj h2
        simp only [List.mem_filter, List.contains_eq_mem, Bool.not_eq_true', decide_eq_false_iff_not] at h1
        exact ⟨h1.1, h1.2, hl⟩
      · cases hm
  · rintro ⟨h1, h2, hl⟩
    rw [if_pos hl]
    exact .inr (List.mem_map.2 ⟨k, by simpa using ⟨h1, h2⟩, rfl⟩)

/-- Every message is one of the two. -/
theorem warning_cases {m : Str} (h : m ∈ callWarnings q keys) :
    ∃ k, (k ∈ keys ∧ k ∉ q.params ∧ m = extraArg q.name k) ∨ (k ∈ q.params ∧ k ∉ keys ∧ m = missingArg q.name k) := by
  unfold callWarnings at h
  split at h
  · cases h
  rcases List.mem_append.1 h with h | h
  · obtain ⟨k, h1, rfl⟩ := List.mem_map.1 h
    simp only [List.mem_filter, List.contains_eq_mem, Bool.not_eq_true', decide_eq_false_iff_not] at h1
    exact ⟨k, .inl ⟨h1.1, h1.2, rfl⟩⟩
  · split at h
    · obtain ⟨k, h1, rfl⟩ := List.mem_map.1 h
      simp only [List.mem_filter, List.contains_eq_mem, Bool.not_eq_true', decide_eq_false_iff_not] at h1
      exact ⟨k, .inr ⟨h1.1, h1.2, rfl⟩⟩
    · cases h

/-- If all arguments are parameters and one is missing then there are fewer of them. -/
theorem fewer {ps : List Str} (hn : keys.Nodup) (hs : ∀ k ∈ keys, k ∈ ps) (hk : k ∈ ps) (hm : k ∉ keys) :
    keys.length < ps.length := by
  have : (k :: keys).Nodup := List.nodup_cons.2 ⟨hm, hn⟩
  have h := (this.subperm (l₂ := ps) (by
    intro x hx
    rcases List.mem_cons.1 hx with rfl | hx
    · exact hk
    · exact hs x hx)).length_le
  simp only [List.length_cons] at h; omega

end

section
variable {F S : Type} [FloatOps F] {H : Host F S}

theorem keys_set {α : Type} {d : OD α} {k n : Str} {v : α} : n ∈ OD.keys (OD.set d k v) ↔ n ∈ OD.keys d ∨ n = k := by
  unfold OD.set OD.erase OD.keys
  simp only [List.map_append, List.map_cons, List.map_nil, List.mem_append, List.mem_map, List.mem_filter,
    decide_eq_true_eq, List.mem_singleton]
  constructor
  · rintro (⟨p, ⟨h1, _⟩, h2⟩ | h)
    · exact .inl ⟨p, h1, h2⟩
    · exact .inr h
  · rintro (⟨p, h1, h2⟩ | h)
    · by_cases hk : p.1 = k
      · exact .inr (h2 ▸ hk)
      · exact .inl ⟨p, ⟨h1, hk⟩, h2⟩
    · exact .inr h

theorem wf_set {α : Type} {d : OD α} {k : Str} {v : α} (h : OD.WF d) : OD.WF (OD.set d k v) := by
  unfold OD.WF OD.set OD.erase OD.keys at *
  rw [List.map_append, List.nodup_append]
  refine ⟨?_, by simp, ?_⟩
  · exact h.sublist (List.Sublist.map _ List.filter_sublist)
  · intro a ha b hb
    simp only [List.map_cons, List.map_nil, List.mem_singleton] at hb
    obtain ⟨p, hp, rfl⟩ := List.mem_map.1 ha
    simp only [List.mem_filter, decide_eq_true_eq] at hp
    rw [hb]; exact hp.2

/-- The name an argument is given under. -/
def Arg.called : Arg → Str
  | .mk n _ => ident n

theorem args_keys {s : Nat} {acc out : OD (V F)} {ps : List Arg} {st st' : St F S} (h : ArgsRun H s acc ps st out st') :
    (∀ k, k ∈ OD.keys out ↔ k ∈ OD.keys acc ∨ ∃ p ∈ ps, p.called = k) ∧ (OD.WF acc → OD.WF out) := by
  induction h with
  | nil => simp
  | @cons acc out n a l v st s1 s2 _ _ ih =>
    refine ⟨fun k => ?_, fun hw => ih.2 (wf_set hw)⟩
    rw [ih.1, keys_set]
    simp only [List.mem_cons, exists_eq_or_imp, Arg.called]
    constructor
    · rintro ((h | rfl) | h)
      · exact .inl h
      · exact .inr (.inl rfl)
      · exact .inr (.inr h)
    · rintro (h | rfl | h)
      · exact .inl (.inl h)
      · exact .inl (.inr rfl)
      · exact .inr h

theorem mem_keys_get {α : Type} {d : OD α} {k : Str} {v : α} (h : OD.get d k = some v) : k ∈ OD.keys d := by
  induction d with
  | nil => cases h
  | cons p d ih =>
    unfold OD.get at h
    split at h
    · next e => exact List.mem_cons.2 (.inl e.symm)
    · exact List.mem_cons.2 (.inr (ih h))

theorem defaults_keys {s : Nat} {acc out : OD (V F)} {ds : List (Str × Arg)} {st st' : St F S}
    (h : DefaultsRun H s acc ds st out st') :
    (∀ k, k ∈ OD.keys out ↔ k ∈ OD.keys acc ∨ ∃ d ∈ ds, d.1 = k) ∧ (OD.WF acc → OD.WF out) := by
  induction h with
  | nil => simp
  | @given acc out d l st s2 v hg _ ih =>
    refine ⟨fun k => ?_, ih.2⟩
    rw [ih.1]
    simp only [List.mem_cons, exists_eq_or_imp]
    constructor
    · rintro (h | h)
      · exact .inl h
      · exact .inr (.inr h)
    · rintro (h | rfl | h)
      · exact .inl h
      · exact .inl (mem_keys_get hg)
      · exact .inr h
  | @missing acc out k n a l v st s1 s2 _ _ _ ih =>
    refine ⟨fun k' => ?_, fun hw => ih.2 (wf_set hw)⟩
    rw [ih.1, keys_set]
    simp only [List.mem_cons, exists_eq_or_imp]
    constructor
    · rintro ((h | rfl) | h)
      · exact .inl h
      · exact .inr (.inl rfl)
      · exact .inr (.inr h)
    · rintro (h | rfl | h)
      · exact .inl (.inl h)
      · exact .inl (.inr rfl)
      · exact .inr h

/-- The names that have a value in a call: those of the arguments and of the defaults. -/
def Given (ps : List Arg) (ds : List (Str × Arg)) (k : Str) : Prop := (∃ p ∈ ps, p.called = k) ∨ ∃ d ∈ ds, d.1 = k

/-- **C84** The whole call `FROM f(..)` of a LET query: the arguments and defaults are evaluated, then
the messages are added to the log, then the query runs; nothing else is logged.  What the messages are
is said with the names that have a value: they differ, and are those of the arguments and the defaults. -/
theorem C84_call {params : List Arg} {s : Nat} {st st' : St F S} {rows : List (V F)} {q : SQuery}
    (hd : (st.scp s).depth < 1000) (hq : Spelled q.defaults)
    (h : Runs H (call (.evalSymbolWithArgs params (.obj (.squery q)) s)) st rows st') :
    ∃ args s1 args' s2 sub s3 vars s4 s5 ns w keys,
      ArgsRun H s [] params st args s1 ∧ DefaultsRun H s args q.defaults s1 args' s2 ∧
      s3.log = s2.log ++ w ∧ Stores H sub [] args' s3 vars s4 ∧ s5.log = s4.log ∧
      Runs H (call (.select q.query ns)) s5 rows st' ∧
      w = callWarnings q keys ∧ keys.Nodup ∧ (∀ k, k ∈ keys ↔ Given params q.defaults k) := by
  rw [runs_call] at h
  simp only [body] at h
  have ho : overflow (st.scp s).depth = false := by simp [overflow]; omega
  rw [runs_pb] at h
  simp only [Prim.step, ho, Bool.false_eq_true, if_false] at h
  obtain ⟨args, s1, h1, h⟩ := runs_bind.1 h
  obtain ⟨args', s2, h2, h⟩ := runs_bind.1 h
  unfold storedQueryCallP at h
  rw [runs_pb, copy_push, runs_pb, runs_logs] at h
  obtain ⟨vars, s4, h3, h⟩ := runs_bind.1 h
  rw [runs_pb, runs_call] at h
  simp only [body] at h
  rw [runs_pb] at h
  have a1 := runs_buildArgs.1 h1
  have a2 := (runs_applyDefaults hq).1 h2
  refine ⟨args, s1, args', s2, s2.scopes.length, _, vars, s4, _, _, callWarnings q (OD.keys args'), OD.keys args',
    a1, a2, ?_, runs_stores.1 h3, ?_, h, rfl, (defaults_keys a2).2 ((args_keys a1).2 List.nodup_nil), fun k => ?_⟩
  · rfl
  · rfl
  · rw [(defaults_keys a2).1, (args_keys a1).1]
    simp [Given, OD.keys]

/-- **C84** A call of a LET query with parameters: every argument that is not a parameter is in the log
afterwards, and if there are none then every parameter without argument and default is. -/
theorem C84_reported {params : List Arg} {s : Nat} {st st' : St F S} {rows : List (V F)} {q : SQuery}
    (hd : (st.scp s).depth < 1000) (hq : Spelled q.defaults) (hp : q.params ≠ [])
    (h : Runs H (call (.evalSymbolWithArgs params (.obj (.squery q)) s)) st rows st') :
    (∀ k, Given params q.defaults k → k ∉ q.params → extraArg q.name k ∈ st'.log) ∧
    ((∀ k, Given params q.defaults k → k ∈ q.params) →
      ∀ k ∈ q.params, ¬ Given params q.defaults k → missingArg q.name k ∈ st'.log) := by
  obtain ⟨args, s1, args', s2, sub, s3, vars, s4, s5, ns, w, keys, h1, h2, h3, h4, h5, h6, rfl, hn, hk⟩ := C84_call hd hq h
  have hin : ∀ m ∈ callWarnings q keys, m ∈ st'.log := by
    intro m hm
    have g4 := (runs_stores.2 h4).grows.log
    have g6 := h6.grows.log
    rw [h5] at g6
    refine (g4.trans g6).subset ?_
    rw [h3]
    exact List.mem_append_right _ hm
  refine ⟨fun k hg hnp => hin _ (mem_extra.2 ⟨hp, (hk k).2 hg, hnp⟩), fun hs k hkp hng => hin _ (mem_missing.2 ⟨hkp, ?_, ?_⟩)⟩
  · exact fun hc => hng ((hk k).1 hc)
  · exact fewer hn (fun k h => hs k ((hk k).1 h)) hkp (fun hc => hng ((hk k).1 hc))

/-- **C84** A call that gives every parameter a value and nothing else is not reported, and neither is a
call of a query without parameters; any other call is.  `w` is what is logged between the evaluation of
the arguments and the query. -/
theorem C84_only {params : List Arg} {s : Nat} {st st' : St F S} {rows : List (V F)} {q : SQuery}
    (hd : (st.scp s).depth < 1000) (hq : Spelled q.defaults)
    (h : Runs H (call (.evalSymbolWithArgs params (.obj (.squery q)) s)) st rows st') :
    ∃ args s1 args' s2 sub s3 vars s4 s5 ns w,
      ArgsRun H s [] params st args s1 ∧ DefaultsRun H s args q.defaults s1 args' s2 ∧
      s3.log = s2.log ++ w ∧ Stores H sub [] args' s3 vars s4 ∧ s5.log = s4.log ∧
      Runs H (call (.select q.query ns)) s5 rows st' ∧
      (w = [] ↔ q.params = [] ∨ ∀ k, Given params q.defaults k ↔ k ∈ q.params) ∧
      ∀ m ∈ w, ∃ k, (Given params q.defaults k ∧ k ∉ q.params ∧ m = extraArg q.name k) ∨
        (k ∈ q.params ∧ ¬ Given params q.defaults k ∧ m = missingArg q.name k) := by
  obtain ⟨args, s1, args', s2, sub, s3, vars, s4, s5, ns, w, keys, h1, h2, h3, h4, h5, h6, rfl, hn, hk⟩ := C84_call hd hq h
  refine ⟨args, s1, args', s2, sub, s3, vars, s4, s5, ns, _, h1, h2, h3, h4, h5, h6, ?_, ?_⟩
  · constructor
    · intro hw
      by_cases hp : q.params = []
      · exact .inl hp
      refine .inr fun k => ?_
      have hs : ∀ k ∈ keys, k ∈ q.params := by
        intro k h
        by_contra hc
        have := mem_extra.2 ⟨hp, h, hc⟩
        rw [hw] at this; cases this
      rw [← hk]
      refine ⟨hs k, fun hkp => ?_⟩
      by_contra hc
      have := mem_missing.2 ⟨hkp, hc, fewer hn hs hkp hc⟩
      rw [hw] at this; cases this
    · rintro (hp | hp)
      · unfold callWarnings; rw [if_pos hp]
      · refine List.eq_nil_iff_forall_not_mem.2 fun m hm => ?_
        obtain ⟨k, ⟨h1, h2, _⟩ | ⟨h1, h2, _⟩⟩ := warning_cases hm
        · exact h2 ((hp k).1 ((hk k).1 h1))
        · exact h2 ((hk k).2 ((hp k).2 h1))
  · intro m hm
    obtain ⟨k, hc⟩ := warning_cases hm
    exact ⟨k, by rw [← hk]; exact hc⟩

end

/-! ## Examples and limits -/

/-- The log after some statements. -/
def logOf (l : List Stmt) : Option (List Str) :=
  (runStmts (demo demoSrc) 60 l 0 (St.init [])).map fun r => r.2.log

/-- `LET q(a, b) = SELECT 1 AS x FROM src  SELECT * FROM q(names..)`, every argument 1. -/
def callQuery (names : List String) : List Stmt := [
  .let_ (bs "q") true [⟨bs "a", none⟩, ⟨bs "b", none⟩] false (.select (.one (.val (.int "1")) "x" (.src "src"))),
  .query (.mk false true [] (.mk (bs "q") true (names.map fun n => .mk (bs n) (.expr (.val (.int "1"))))) none none none none)]

example : logOf (callQuery ["a", "b"]) = some [] := by decide +kernel
example : logOf (callQuery ["b"]) = some [missingArg (bs "q") (bs "a")] := by decide +kernel
example : logOf (callQuery ["c", "a"]) = some [extraArg (bs "q") (bs "c")] := by decide +kernel

/-- `LET f(a, b) = 1  SELECT f(names..) AS x FROM src`, or the same with a query. -/
def callFunction (query : Bool) (names : List String) : List Stmt := [
  .let_ (bs "f") true [⟨bs "a", none⟩, ⟨bs "b", none⟩] false
    (if query then .select (.one (.val (.int "1")) "x" (.src "src")) else .expr (.val (.int "1"))),
  .query (.one (.val (.fcall 0 "f" (names.map fun n => (n, .val (.int "1"))))) "x" (.src "src"))]

/-- **C84 (refuted in general)** Missing arguments are not reported if as many others are given. -/
theorem C84_masked_refuted : ∃ names, logOf (callQuery names) = some [extraArg (bs "q") (bs "c")] ∧ "b" ∉ names :=
  ⟨["a", "c"], by decide +kernel⟩

/-- **C84 (refuted for calls in expressions)** Wrong arguments of a LET function, or of a LET query that
is called inside an expression, are not reported. -/
theorem C84_expression_refuted : logOf (callFunction false ["c"]) = some [] ∧ logOf (callFunction true ["c"]) = some [] := by
  decide +kernel

/-- **C84 (refuted without parameters)** `LET q = SELECT ..  SELECT * FROM q(a=1)` is not reported. -/
theorem C84_none_refuted : logOf [
    .let_ (bs "q") false [] false (.select (.one (.val (.int "1")) "x" (.src "src"))),
    .query (.mk false true [] (.mk (bs "q") true [.mk (bs "a") (.expr (.val (.int "1")))]) none none none none)] = some [] := by
  decide +kernel

end Vfilter.Vql
