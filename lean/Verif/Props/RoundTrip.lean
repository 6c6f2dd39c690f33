import Verif.RoundDec
/-!
# Formatting and parsing again (C49)
-/

set_option linter.all false

namespace Vfilter.Fmt

/-- **C49** Formatting a statement with `FormatToString` and parsing the text gives the same
statement, at every depth of nesting.  Partial: the statement has to satisfy `wStmt` (no comments,
tokens the lexer produces, numbers in the form they are printed in, and none of the shapes
refuted below). -/
theorem C49_format_parse_partial (num : Str → Str) (lim : Str → Option Int) (t : CStmt)
    (hw : wStmt num lim t) : parse lim (formatStmt num t) = some t := parse_format num lim t hw

/-- The hypothesis of C49 is satisfied by a statement with a nested query, calls, strings and all
clauses. -/
example : formatStmt numberText
    (.let_ [] (bs "X") false [] (bs "=") (.expr (.mk [] (.mk [] (.cmp [] (.mk [] (.mk [] (.mk []
      (.mk [] (.num (bs "5"))) []) []) []) none) []) []))) = bs "LET X = 5" := by decide +kernel

/-- **C49** For every text that parses: formatting the statement and parsing the result gives the
same statement with every number replaced by the form it is printed in, and formatting that again
gives the same text.  Partial: `kStmt` leaves out `x[]`, `* AS x`, `LET f() = ...`, parameters of a
LET that are written in backticks or twice, and numbers too large for a double; the theorems below
show that these are really lost. -/
theorem C49_parse_format_parse_partial (s : Str) (t : CStmt) (h : parse limitVal s = some t)
    (hk : kStmt numberText t) :
    parse limitVal (formatStmt numberText t) = some (mStmt numberText t) ∧
      formatStmt numberText (mStmt numberText t) = formatStmt numberText t := by
  refine ⟨parse_format_parse numberText limitVal limOK_limitVal h hk, ?_⟩
  unfold formatStmt
  simp only [z_stmt numberText _ t hk]

/-- **C49** Numbers: the printed form of a number is read as one token, it is printed as itself,
and it has the same value, for integers in every base and all decimals. -/
theorem C49_number (t : Str) (h : IsNum t) :
    IsTok .number (numberText t) ∧ numberText (numberText t) = numberText t ∧
      numberV (X := Unit) (numberText t) = numberV t :=
  ⟨(numberText_tok h).1, (numberText_tok h).2.1, (numberText_tok h).2.2 Unit⟩

/-- **C49** LIMIT: the printed value is read as the same value. -/
theorem C49_limit (t : Str) (n : Int) (h : limitVal t = some n) :
    IsTok .number (intText n) ∧ limitVal (intText n) = some n := limOK_limitVal t n h

/-- A double is printed so that it is read back as the same double: the shortest decimal that
rounds to it is found within seventeen digits, for every double a number literal can denote. -/
theorem C49_double (t : Str) (f : F64) (h : parseF64 t = some f) :
    parseF64 (if (fmtF64 f).contains 46 then fmtF64 f else fmtF64 f ++ bs ".0") = some f := by
  obtain ⟨neg, m, e, rfl, hnf⟩ := parseF64_nf h
  exact (floatText_back hnf).2.2

example : IsNum (bs "0x10") ∧ IsNum (bs "-017") ∧ IsNum (bs "1.5e3") ∧ IsNum (bs "-.1") ∧
    numberText (bs "-.1") = bs "-0.1" ∧ limitVal (bs "0x10") = some 16 ∧
    parseF64 (bs "0.1") ≠ none := by decide +kernel

/-- The hypotheses are satisfied by statements with all clauses, nested queries and parameters. -/
example : (parse limitVal (bs "LET `a b`(x=0x10, y='q', z) = SELECT *, a - b.c[1].d AS `x y`, f(x=1.50) FROM foo(a={ SELECT * FROM x }, b=[1,2,(3, 4)]) WHERE a AND NOT b =~ 'x' OR c GROUP BY c ORDER BY d DESC LIMIT 0x10")).elim
    false (fun t => decide (kStmt numberText t)) = true ∧
    (parse limitVal (bs "EXPLAIN SELECT '''multi''' FROM x.y.z LIMIT 1")).elim false
      (fun t => decide (kStmt numberText t)) = true := by
  decide +kernel

/-! ## What is lost -/

/-- The text of a statement that cannot be parsed once it has been formatted. -/
def Unreadable (s : Str) : Prop :=
  (parse limitVal s).elim False fun t => parse limitVal (formatStmt numberText t) = none

instance (s : Str) : Decidable (Unreadable s) :=
  match h : parse limitVal s with
  | none => isFalse (by unfold Unreadable; rw [h]; exact fun h => h)
  | some t => match h2 : parse limitVal (formatStmt numberText t) with
    | none => isTrue (by unfold Unreadable; rw [h]; exact h2)
    | some u => isFalse (by unfold Unreadable; rw [h]; simp [h2])

/-- **C49** Not for every statement: `x[]` is printed as `x.`, which does not parse. -/
theorem C49_empty_index_refuted : ∃ s t, parse limitVal s = some t ∧ parse limitVal (formatStmt numberText t) = none := by
  have h : Unreadable (bs "SELECT x[] FROM p") := by decide +kernel
  unfold Unreadable at h
  cases hp : parse limitVal (bs "SELECT x[] FROM p") with
  | none => rw [hp] at h; exact h.elim
  | some t => rw [hp] at h; exact ⟨_, t, hp, h⟩

/-- **C49** The parameters of a LET are printed without backticks, so a parameter with a blank
makes the printed definition unreadable. -/
theorem C49_let_parameter_refuted : ∃ s t, parse limitVal s = some t ∧
    (∃ c n ps op b, t = .let_ c n true ps op b) ∧ parse limitVal (formatStmt numberText t) = none := by
  have h : Unreadable (bs "LET X(`a b`) = 5") := by decide +kernel
  unfold Unreadable at h
  cases hp : parse limitVal (bs "LET X(`a b`) = 5") with
  | none => rw [hp] at h; exact h.elim
  | some t =>
    rw [hp] at h
    refine ⟨_, t, hp, ?_, h⟩
    have hl : (parse limitVal (bs "LET X(`a b`) = 5")).elim false (fun t => match t with
      | .let_ _ _ c _ _ _ => c
      | .query _ _ => false) = true := by decide +kernel
    rw [hp] at hl
    cases t with
    | query c q => simp at hl
    | let_ c n called ps op b =>
      simp only [Option.elim_some] at hl
      subst hl
      exact ⟨_, _, _, _, _, rfl⟩

/-- Something observable about a statement before and after. -/
def Changed {α : Type} (P : CStmt → α) (s : Str) (a b : α) : Prop :=
  (parse limitVal s).map P = some a ∧
    ((parse limitVal s).bind fun t => parse limitVal (formatStmt numberText t)).map P = some b

/-- The names after AS in the columns of a query. -/
def aliases : CStmt → List Str
  | .query _ (.mk _ _ _ cols _ _ _ _ _) => cols.map fun
    | .mk _ _ a => a
  | _ => []

/-- **C49** `* AS x` loses its name. -/
theorem C49_star_alias_refuted : ∃ s, Changed aliases s [[], bs "x"] [[], []] :=
  ⟨bs "SELECT A, * AS x FROM p", by decide +kernel, by decide +kernel⟩

/-- Does a LET have a parameter list, and do the parameters have defaults. -/
def signature : CStmt → Bool × List (Str × Bool)
  | .let_ _ _ called ps _ _ => (called, ps.map fun
    | .name n => (n, false)
    | .dflt (.mk _ n _) => (n, true))
  | _ => (false, [])

/-- **C49** `LET f() = ...` becomes a variable. -/
theorem C49_let_call_refuted : ∃ s, Changed signature s (true, []) (false, []) :=
  ⟨bs "LET f() = 5", by decide +kernel, by decide +kernel⟩

/-- **C49** A parameter without a default takes the default of a later one of the same name. -/
theorem C49_let_default_refuted : ∃ s, Changed signature s (true, [(bs "a", false), (bs "a", true)])
    (true, [(bs "a", true), (bs "a", true)]) :=
  ⟨bs "LET f(a, a=5) = a", by decide +kernel, by decide +kernel⟩

/-- The literal a LET defines. -/
def literal : CStmt → Str
  | .let_ _ _ _ _ _ (.expr (.mk _ (.mk _ (.cmp _ (.mk _ (.mk _ (.mk _ (.mk _ b) _) _) _) _) _) _)) =>
    match b with
    | .num t => bs "number " ++ t
    | .bool t => bs "bool " ++ t
    | _ => []
  | _ => []

/-- **C49** A number that is too large for a double becomes the boolean FALSE. -/
theorem C49_number_refuted : ∃ s, Changed literal s (bs "number 1e999") (bs "bool FALSE") :=
  ⟨bs "LET X = 1e999", by decide +kernel, by decide +kernel⟩

end Vfilter.Fmt
