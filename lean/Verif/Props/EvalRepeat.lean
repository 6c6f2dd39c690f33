import Verif.Props.EvalLet
import Verif.EvalLazy
/-!
# Repeated evaluation of the same syntax (C55, C56)
-/
set_option linter.all false

namespace Vfilter.Vql

variable {F S : Type} [FloatOps F] {H : Host F S}

/-- A bare name of one component with a minus sign: the sign counts only if the node is
evaluated for the first time. -/
theorem runs_minus {node : Nat} {symbol c : Str} {s : Nat} {st st' : St F S} {a : V F}
    (hs : splitIdent symbol = [45 :: c]) :
    Runs H (call (.value (.sym (.mk node symbol false [])) s)) st a st' ↔
      ∃ (e : Option (V F)) (b : Bool) (s1 : St F S),
        Runs H (call (.resolve s c)) (st.seen node) (e, b) s1 ∧
        if b then Runs H (symValueP H node symbol false [] (!st.split.contains node) s (e.getD .null)) s1 a st'
        else a = .null ∧ st' = { s1 with log := s1.log ++ [bs "ERROR: not found " ++ c] } := by
  have hm : hasMinus [45 :: c] = true := rfl
  have ht : trimMinus [45 :: c] = [c] := rfl
  rw [runs_call]
  simp only [body]
  rw [runs_call]
  simp only [body, symP, hs, hm, ht]
  rw [runs_pb]
  show Runs H _ (st.seen node) a st' ↔ _
  have hn : ((Prim.split node : Prim F S).step st).1 = !st.split.contains node := rfl
  rw [hn, Bool.and_true]
  constructor
  · intro h
    obtain ⟨found, s1, h1, h2⟩ := runs_bind.1 h
    simp only [findP, Bool.false_eq_true, false_and, if_false] at h1
    obtain ⟨e, b, s2, h3, h4⟩ := runs_walk_one.1 h1
    refine ⟨e, b, s2, h3, ?_⟩
    cases b
    · simp only [Bool.false_eq_true, if_false] at h4 ⊢
      obtain ⟨rfl, rfl⟩ := h4
      exact runs_pure.1 h2
    · simp only [if_true] at h4 ⊢
      obtain ⟨rfl, rfl⟩ := h4
      simpa using h2
  · rintro ⟨e, b, s1, h1, h2⟩
    cases b
    · simp only [Bool.false_eq_true, if_false] at h2
      refine runs_bind.2 ⟨none, { s1 with log := s1.log ++ [bs "ERROR: not found " ++ c] }, ?_, runs_pure.2 h2⟩
      simp only [findP, Bool.false_eq_true, false_and, if_false]
      exact runs_walk_one.2 ⟨e, false, s1, h1, by simp⟩
    · simp only [if_true] at h2
      refine runs_bind.2 ⟨some (e.getD .null), s1, ?_, by simpa using h2⟩
      simp only [findP, Bool.false_eq_true, false_and, if_false]
      exact runs_walk_one.2 ⟨e, true, s1, h1, by simp⟩

/-- The arithmetic negation of a value that is no object (vfilter.go:1800-1817). -/
def negated : V F → V F
  | .bool b => .bool (!b)
  | .float f => .float (FloatOps.neg f)
  | .int i => .int (-i)
  | _ => .null

/-- **C55** (partial: the first evaluation only).  `-x` at a syntax node that was never
evaluated before is the negation of the value of `x`. -/
theorem C55_first_partial {node : Nat} {symbol c : Str} {s : Nat} {st s1 st' : St F S} {a v : V F}
    (hs : splitIdent symbol = [45 :: c]) (hn : node ∉ st.split)
    (hr : Runs H (call (.resolve s c)) (st.seen node) (some v, true) s1)
    (hv : Plain v) (hl : NotLazy v) :
    Runs H (call (.value (.sym (.mk node symbol false [])) s)) st a st' ↔ a = negated v ∧ st' = s1 := by
  have hneg : Runs H (call (.negate v s)) s1 a st' ↔ a = negated v ∧ st' = s1 := by
    rw [runs_call]
    match v, hl with
    | .obj o, hl => cases o <;> first | exact False.elim hv | simp_all [body, negated, NotLazy]
    | .null, _ | .bool _, _ | .int _, _ | .float _, _ | .str _, _ | .arr _, _ | .dict _, _ | .query _, _ | .time _, _ =>
      simp [body, negated]
  rw [runs_minus hs]
  have hc : st.split.contains node = false := by simpa using hn
  simp only [hc, Bool.not_false]
  constructor
  · rintro ⟨e, b, s2, h1, h2⟩
    obtain ⟨h3, rfl⟩ := h1.det hr
    cases h3
    simp only [if_true, Option.getD_some, symValue_plain hv, negateP] at h2
    exact hneg.1 h2
  · rintro ⟨rfl, rfl⟩
    refine ⟨_, _, _, hr, ?_⟩
    simp only [if_true, Option.getD_some, symValue_plain hv, negateP]
    exact hneg.2 ⟨rfl, rfl⟩

/-- **C55** does not hold from the second evaluation of a syntax node on: `-x` is then the
value of `x`, whatever it is. -/
theorem C55_later {node : Nat} {symbol c : Str} {s : Nat} {st s1 st' : St F S} {a v : V F}
    (hs : splitIdent symbol = [45 :: c]) (hn : node ∈ st.split)
    (hr : Runs H (call (.resolve s c)) (st.seen node) (some v, true) s1) (hv : Plain v) :
    Runs H (call (.value (.sym (.mk node symbol false [])) s)) st a st' ↔ a = v ∧ st' = s1 := by
  rw [runs_minus hs]
  have hc : st.split.contains node = true := by simpa using hn
  simp only [hc, Bool.not_true]
  constructor
  · rintro ⟨e, b, s2, h1, h2⟩
    obtain ⟨h3, rfl⟩ := h1.det hr
    cases h3
    simp only [if_true, Option.getD_some, symValue_plain hv, negateP, Bool.false_eq_true, if_false] at h2
    exact runs_pure.1 h2
  · rintro ⟨rfl, rfl⟩
    refine ⟨_, _, _, hr, ?_⟩
    simp only [if_true, Option.getD_some, symValue_plain hv, negateP, Bool.false_eq_true, if_false]
    exact runs_pure.2 ⟨rfl, rfl⟩

/-- Once evaluated, a syntax node stays so for ever: `C55_first_partial` applies at most
once, `C55_later` to every later evaluation. -/
theorem C55_remembered {node : Nat} {symbol : Str} {called : Bool} {params : List Arg} {s : Nat}
    {st st' : St F S} {a : V F}
    (h : Runs H (call (.value (.sym (.mk node symbol called params)) s)) st a st') : node ∈ st'.split := by
  rw [runs_call] at h
  simp only [body] at h
  rw [runs_call] at h
  simp only [body, symP] at h
  rw [runs_pb] at h
  refine h.grows.split node ?_
  simp only [Prim.step]
  split
  · rename_i h; simpa using h
  · simp

/-- The query `SELECT -a AS m FROM src`. -/
def minusQuery : Select := .one (.val (.name 0 "-a")) "m" (.src "src")

/-- **C55** refuted: over the rows `a = 1, 2, 3` the query `SELECT -a AS m FROM src` gives
`-1, 2, 3`. -/
theorem C55_refuted : ∃ st', Runs (demo demoSrc) (call (.select minusQuery 0)) (St.init [])
    [.dict [(bs "m", .int (-1))], .dict [(bs "m", .int 2)], .dict [(bs "m", .int 3)]] st' :=
  runs_of_gives (by decide +kernel)

/-- Results of `givesAll` are results of the statements. -/
theorem runStmts_of_givesAll {sources : OD (List (V F64))} {vars : OD (V F64)} {l : List Stmt}
    {rows : List (List (V F64))} (h : givesAll sources vars l rows = true) :
    ∃ st', runStmts (demo sources) 60 l 0 (St.init vars) = some (rows, st') := by
  unfold givesAll at h
  split at h
  · rename_i rs st' he
    have := sameV_eq _ _ h
    simp only [Val.arr.injEq] at this
    have hinj : rs = rows := by
      refine List.map_injective_iff.2 ?_ this
      intro a b hab
      injection hab
    subst hinj
    exact ⟨st', he⟩
  · cases h

/-- The query `SELECT count() AS n FROM scope()`. -/
def countQuery : Select := .one (.val (.fcall 0 "count" [])) "n" (.src "scope")

/-- **C56** refuted: the query `SELECT count() AS n FROM scope()` evaluated twice on the
same scope gives `1`, then `2`. -/
theorem C56_refuted : ∃ st', runStmts (demo demoSrc) 60 [.query countQuery, .query countQuery] 0 (St.init []) =
    some ([[.dict [(bs "n", .int 1)]], [.dict [(bs "n", .int 2)]]], st') :=
  runStmts_of_givesAll (by decide +kernel)

/-- **C56** refuted by `-x` too, without any aggregate. -/
theorem C56_minus_refuted : ∃ st', runStmts (demo demoSrc) 60
    [.query (.one (.val (.name 0 "-x")) "m" (.src "scope")), .query (.one (.val (.name 0 "-x")) "m" (.src "scope"))]
    0 (St.init [(bs "x", .int 5)]) =
    some ([[.dict [(bs "m", .int (-5))]], [.dict [(bs "m", .int 5)]]], st') :=
  runStmts_of_givesAll (by decide +kernel)

end Vfilter.Vql
