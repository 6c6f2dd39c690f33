import Verif.LayoutAll
import Verif.Props.EvalReprint
import Verif.Props.Statements
/-!
# C49 for every layout and for whole programs

`Props/RoundTrip` is about `FormatToString`, which never breaks a line.  Here the options, the line
breaking, and even the choice between the trial layouts are arbitrary, and the text may be that of
`ReFormatVQL`, which trims its lines.
-/

set_option linter.all false

namespace Vfilter.Fmt

/-- `ReFormatVQL` (reformat/visitor.go:11-27). -/
def reFormatVQL (lim : Str → Option Int) (num : Str → Str) (o : Opts) (brk : Bool) (s : Str) : Option Str :=
  (multiParseWithComments lim s).map (reformat num o brk)

/-- In no string or name of the text a line ends with a blank. -/
def NoBlankEnds (s : Str) : Prop := ∀ a b : Str, s ≠ a ++ 32 :: 10 :: b

/-- There are no comments in the text. -/
def Uncommented (s : Str) : Prop := ∀ t ∈ tokens s, t.kind ∉ comKs

instance (s : Str) : Decidable (Uncommented s) := inferInstanceAs (Decidable (∀ t ∈ tokens s, t.kind ∉ comKs))

/-! ## Proofs -/

namespace Lay
section
variable (num : Str → Str) (lim : Str → Option Int)

theorem render_last : ∀ (is : List Item) (u : Tok), (toks is).getLast? = some u → Ends (render is) →
    ∃ x, render is = x ++ u.text := by
  intro is u h he
  rcases List.eq_nil_or_concat is with rfl | ⟨js, i, rfl⟩
  · simp [toks] at h
  · rw [List.concat_eq_append] at h he ⊢
    rw [render_append] at he ⊢
    cases i with
    | none =>
      obtain ⟨c, h1, h2⟩ := he
      have : render [none] = [32] := rfl
      rw [this, List.getLast?_append] at h1
      simp at h1
      subst h1
      exact absurd h2 (by decide)
    | some t =>
      rw [toks_append, toks_some, toks_nil, List.getLast?_append] at h
      simp at h
      subst h
      exact ⟨render js, by simp [render]⟩

theorem whole_stmt {t : CStmt} (hw : wStmt num lim t) (hl : (formatStmt num t).getLast? ≠ some 44) :
    Whole lim (toks (itStmt t)) t := by
  refine ⟨fun u hu => ⟨lex_kin (lex_stmt num lim t hw) u hu, c_stmt num lim t hw u hu⟩,
    p_stmt num lim t _ hw (by unfold fuelFor; omega), ?_⟩
  intro u hu e
  obtain ⟨x, hx⟩ := render_last _ u hu (ends_stmt num lim t hw)
  rw [format_render num lim t hw, hx, e] at hl
  exact hl (by simp [show bs "," = [44] from rfl])

theorem cc_true (t : CStmt) : CC (fun _ => True) (itStmt t) := fun _ _ => trivial

theorem render_mem : ∀ (is : List Item) (u : Tok), u ∈ toks is → ∃ a b, render is = a ++ u.text ++ b
  | [], u, h => by simp [toks] at h
  | none :: is, u, h => by
    rw [toks_none] at h
    obtain ⟨a, b, e⟩ := render_mem is u h
    exact ⟨32 :: a, b, by simp [render, e]⟩
  | some t :: is, u, h => by
    rw [toks_some] at h
    rcases List.mem_cons.1 h with rfl | h
    · exact ⟨[], render is, by simp [render]⟩
    · obtain ⟨a, b, e⟩ := render_mem is u h
      exact ⟨t.text ++ a, b, by simp [render, e]⟩

theorem cc_clean {t : CStmt} (hw : wStmt num lim t) (h : NoBlankEnds (formatStmt num t)) : CC Clean (itStmt t) := by
  intro u hu a b e
  obtain ⟨x, y, hx⟩ := render_mem _ u hu
  refine h (x ++ a) (b ++ y) ?_
  rw [format_render num lim t hw, hx, e]
  simp

theorem multi_toks {ss : List CStmt} (hne : ss ≠ []) (hw : ∀ t ∈ ss, wStmt num lim t)
    (hl : ∀ t ∈ ss, (formatStmt num t).getLast? ≠ some 44) :
    complete (pMulti lim (fuelFor (ss.flatMap fun t => toks (itStmt t)))) (ss.flatMap fun t => toks (itStmt t)) = some ss := by
  have e : (ss.flatMap fun t => toks (itStmt t)) =
      strm (ss.map fun t => (([] : List Tok), toks (itStmt t), t)) [] := by
    simp [strm, List.flatMap_map]
  have hp : Pieces lim [] (ss.map fun t => (([] : List Tok), toks (itStmt t), t)) := by
    clear hne e
    induction ss with
    | nil => trivial
    | cons t ss ih =>
      refine ⟨by simp, whole_stmt num lim (hw t (by simp)) (hl t (by simp)), fun _ => ?_,
        ih (fun q hq => hw q (by simp [hq])) (fun q hq => hl q (by simp [hq]))⟩
      cases ss <;> simp [ahead]
  rw [e, multi_complete (by simp) (by simpa using hne) hp]
  simp only [List.map_map, Option.some.injEq]
  rw [List.map_congr_left (g := id)]
  · simp
  · intro t ht
    simpa using (whole_stmt num lim (hw t ht) (hl t ht)).bare

theorem nc_stmts {ss : List CStmt} (hw : ∀ t ∈ ss, wStmt num lim t) : NC (ss.flatMap fun t => toks (itStmt t)) := by
  intro u hu
  obtain ⟨t, ht, hu⟩ := List.mem_flatMap.1 hu
  exact c_stmt num lim t (hw t ht) u hu

theorem multi_of_lex {ss : List CStmt} (hne : ss ≠ []) (hw : ∀ t ∈ ss, wStmt num lim t)
    (hl : ∀ t ∈ ss, (formatStmt num t).getLast? ≠ some 44) {s : Str}
    (h : lex s = some (ss.flatMap fun t => toks (itStmt t))) :
    multiParse lim s = some ss ∧ multiParseWithComments lim s = some ss := by
  have := multi_toks num lim hne hw hl
  constructor
  · unfold multiParse
    rw [h]
    simp only [Option.bind_some, dropComments_nc (nc_stmts num lim hw)]
    exact this
  · unfold multiParseWithComments
    rw [h]
    exact this

/-- Whatever a program without comments is parsed as is well formed. -/
theorem reads_multi (hlim : LimOK lim) : ∀ n, Post (pMulti lim n) (fun ss => ss ≠ [] ∧ ∀ t ∈ ss, kStmt num t → wStmt id lim t)
  | 0 => fun ts a r _ h => by simp [pMulti] at h
  | n + 1 => by
    unfold pMulti
    refine (Post.comments n).bind fun cs hcs => ?_
    subst hcs
    refine Post.bind (Q := fun t => (kStmt num t → wStmt id lim t) ∧ t.withComments [] = t) ?_ fun s hs => ?_
    · intro ts a r hg h
      have h1 := need_inv h
      exact ⟨⟨(reads_stmt num lim hlim n ts a r hg h1).1, stmt_bare lim h1⟩, (reads_stmt num lim hlim n ts a r hg h1).2⟩
    refine (Post.comments n).bind fun cs hcs => ?_
    subst hcs
    refine (Post.many (reads_multi hlim n) n).bind fun rest hrest => Post.ret ?_
    refine ⟨by simp, ?_⟩
    intro t ht
    rcases List.mem_cons.1 ht with rfl | ht
    · rw [hs.2]; exact hs.1
    · cases hr : rest.getLast? with
      | none => rw [hr] at ht; simp [giveComments] at ht
      | some ss =>
        rw [hr] at ht
        simp only [Option.getD_some] at ht
        have : giveComments [] ss = ss := by
          cases ss with
          | nil => rfl
          | cons s ss => cases s <;> rfl
        rw [this] at ht
        exact (hrest ss (List.mem_of_getLast? hr)).2 t ht

theorem multi_wf (hlim : LimOK lim) {s : Str} {ss : List CStmt} (hu : Uncommented s)
    (h : multiParseWithComments lim s = some ss) : ss ≠ [] ∧ ∀ t ∈ ss, kStmt num t → wStmt id lim t := by
  unfold multiParseWithComments at h
  cases hl : lex s with
  | none => rw [hl] at h; simp at h
  | some ts =>
    rw [hl] at h
    simp only [Option.bind_some, complete] at h
    have e : tokens s = ts := by simp [tokens, hl]
    have hg := lex_good hl
    rw [dropComments_nc (fun t ht => hu t (by rw [e]; exact ht))] at hg
    split at h
    · rename_i a hp
      simp only [Option.some.injEq] at h
      subst h
      exact (reads_multi num lim hlim _ _ _ _ hg hp).1
    · simp at h

theorem z_stmts (better : Vis → Vis → Bool) : ∀ (ss : List CStmt) (v : Vis), (∀ t ∈ ss, kStmt num t) →
    fStmts better num (ss.map (mStmt num)) v = fStmts better num ss v
  | [], v, _ => rfl
  | t :: ss, v, h => by
    simp only [List.map_cons, fStmts]
    rw [z_stmt num better t (h t (by simp)), z_stmts better ss _ fun t ht => h t (by simp [ht])]

theorem format_m {t : CStmt} (hk : kStmt num t) : formatStmt num (mStmt num t) = formatStmt num t := by
  unfold formatStmt
  rw [z_stmt num isBetter t hk]
end
end Lay

/-! ## Every layout -/

/-- **C49** for every layout: whatever the options, whether or not lines are broken, and however the
formatter chooses between layouts, the text of a statement is parsed as the statement.  Partial:
`wStmt`, as in `C49_format_parse_partial`. -/
theorem C49_layout_partial (num : Str → Str) (lim : Str → Option Int) (better : Vis → Vis → Bool) (o : Opts)
    (brk : Bool) (t : CStmt) (hw : wStmt num lim t) :
    parse lim (fStmts better num [t] (Vis.new o brk)).text = some t := by
  have h := Lay.lex_layout Lay.tau_id better num lim [t] o brk (by simpa using hw) (fun t _ => Lay.cc_true t)
  simp only [id_eq, List.flatMap_cons, List.flatMap_nil, List.append_nil] at h
  unfold parse
  rw [h]
  simp only [Option.bind_some, dropComments_nc (c_stmt num lim t hw)]
  unfold complete
  rw [p_stmt num lim t _ hw (by unfold fuelFor; omega)]

/-- **C49** for every layout of a program: the text of several statements is parsed as these
statements.  Partial: `wStmt`, and no statement ends with a comma (`GROUP BY a,`). -/
theorem C49_layout_program_partial (num : Str → Str) (lim : Str → Option Int) (better : Vis → Vis → Bool) (o : Opts)
    (brk : Bool) (ss : List CStmt) (hne : ss ≠ []) (hw : ∀ t ∈ ss, wStmt num lim t)
    (hl : ∀ t ∈ ss, (formatStmt num t).getLast? ≠ some 44) :
    multiParse lim (fStmts better num ss (Vis.new o brk)).text = some ss ∧
      multiParseWithComments lim (fStmts better num ss (Vis.new o brk)).text = some ss :=
  Lay.multi_of_lex num lim hne hw hl
    (Lay.lex_layout Lay.tau_id better num lim ss o brk hw (fun t _ => Lay.cc_true t))

/-- **C49** for `ReFormatVQL`: the text of a program without comments is parsed, laid out, and its
lines are trimmed; the result is parsed as the same statements, with the numbers in printed form,
and reformatting it again changes nothing.  Partial: no comments; `kStmt` as in
`C49_parse_format_parse_partial`; no statement ends with a comma; and no line inside a string ends
with a blank (`C49_reformat_string_refuted`). -/
theorem C49_reformat_partial (o : Opts) (brk : Bool) (s s' : Str) (hu : Uncommented s)
    (h : reFormatVQL limitVal numberText o brk s = some s') :
    ∃ ss, multiParseWithComments limitVal s = some ss ∧
      ((∀ t ∈ ss, kStmt numberText t ∧ (formatStmt numberText t).getLast? ≠ some 44 ∧
          NoBlankEnds (formatStmt numberText t)) →
        multiParseWithComments limitVal s' = some (ss.map (mStmt numberText)) ∧
        multiParse limitVal s' = some (ss.map (mStmt numberText)) ∧
        reFormatVQL limitVal numberText o brk s' = some s') := by
  unfold reFormatVQL at h
  cases hs : multiParseWithComments limitVal s with
  | none => rw [hs] at h; simp at h
  | some ss =>
    rw [hs] at h
    simp only [Option.map_some, Option.some.injEq] at h
    refine ⟨ss, rfl, fun hk => ?_⟩
    obtain ⟨hne, hwf⟩ := Lay.multi_wf numberText limitVal limOK_limitVal hu hs
    have hw : ∀ t ∈ ss.map (mStmt numberText), wStmt numberText limitVal t := by
      intro u hu
      obtain ⟨t, ht, rfl⟩ := List.mem_map.1 hu
      exact y_stmt numberText limitVal t (hwf t ht (hk t ht).1) (hk t ht).1
    have hl : ∀ t ∈ ss.map (mStmt numberText), (formatStmt numberText t).getLast? ≠ some 44 := by
      intro u hu
      obtain ⟨t, ht, rfl⟩ := List.mem_map.1 hu
      rw [Lay.format_m numberText (hk t ht).1]
      exact (hk t ht).2.1
    have hC : ∀ t ∈ ss.map (mStmt numberText), Lay.CC Lay.Clean (itStmt t) := by
      intro u hu
      have hwu := hw u hu
      obtain ⟨t, ht, rfl⟩ := List.mem_map.1 hu
      refine Lay.cc_clean numberText limitVal hwu ?_
      rw [Lay.format_m numberText (hk t ht).1]
      exact (hk t ht).2.2
    have he : s' = Lay.trimEnds (fStmts isBetter numberText (ss.map (mStmt numberText)) (Vis.new o brk)).text := by
      rw [Lay.z_stmts numberText isBetter ss _ fun t ht => (hk t ht).1, ← Lay.trim_lines, ← h]
      rfl
    have hlex := Lay.lex_layout Lay.tau_trim isBetter numberText limitVal _ o brk hw hC
    rw [← he] at hlex
    obtain ⟨m1, m2⟩ := Lay.multi_of_lex numberText limitVal (by simpa using hne) hw hl hlex
    refine ⟨m2, m1, ?_⟩
    unfold reFormatVQL
    rw [m2, Option.map_some, ← h]
    unfold reformat
    rw [Lay.z_stmts numberText isBetter ss _ fun t ht => (hk t ht).1]

/-- The hypotheses are satisfied: a program of two statements with a parameter, a nested query that is
broken over several lines, numbers in several bases, and a string of two lines. -/
def layoutSample : Str := bs "LET X(a=0x10) = SELECT a + 1 AS b, count() AS n FROM scope() SELECT b, n, 1.50 AS f, { SELECT 017 AS z, 'a long string', 'another long string' FROM scope() } AS q, '''a\nb''' FROM X(a=0x1F) WHERE b > 017 LIMIT 0x2"

/-- `NoBlankEnds`, as a test. -/
def noBlankEnds : Str → Bool
  | c :: d :: s => !(c == 32 && d == 10) && noBlankEnds (d :: s)
  | _ => true

theorem noBlankEnds_iff : ∀ {s : Str}, noBlankEnds s = true → NoBlankEnds s
  | [], _, a, b, e => by simp at e
  | [c], _, a, b, e => by
    have := congrArg List.length e
    simp at this
    omega
  | c :: d :: s, h, a, b, e => by
    simp only [noBlankEnds, Bool.and_eq_true] at h
    cases a with
    | nil =>
      simp only [List.nil_append, List.cons.injEq] at e
      rw [e.1, e.2.1] at h
      exact absurd h.1 (by decide)
    | cons x a =>
      simp only [List.cons_append, List.cons.injEq] at e
      exact noBlankEnds_iff h.2 a b e.2

example : Uncommented layoutSample ∧ (reFormatVQL limitVal numberText defaultOpts true layoutSample).isSome = true ∧
    ((multiParseWithComments limitVal layoutSample).map fun ss => (ss.length, ss.all fun t =>
      decide (kStmt numberText t) && decide ((formatStmt numberText t).getLast? ≠ some 44) &&
        noBlankEnds (formatStmt numberText t))) = some (2, true) := by
  refine ⟨by decide +kernel, by decide +kernel, by decide +kernel⟩

/-- The text of the sample has lines. -/
example : (reFormatVQL limitVal numberText defaultOpts true layoutSample).map (fun s => decide (10 < s.count 10)) = some true := by
  decide +kernel

/-- The string a LET defines. -/
def stringOf : List CStmt → Str
  | [.let_ _ _ _ _ _ (.expr (.mk _ (.mk _ (.cmp _ (.mk _ (.mk _ (.mk _ (.mk _ (.str t)) _) _) _) _) _) _))] => t
  | _ => []

/-- **C49** Not for every program: `ReFormatVQL` removes blanks at the ends of the lines of a string,
so the string has another value afterwards. -/
theorem C49_reformat_string_refuted : ∃ s,
    (multiParseWithComments limitVal s).map stringOf = some (bs "'''a \nb'''") ∧
    ((reFormatVQL limitVal numberText defaultOpts true s).bind fun s' =>
      (multiParseWithComments limitVal s').map stringOf) = some (bs "'''a\nb'''") :=
  ⟨bs "LET X = '''a \nb'''", by decide +kernel, by decide +kernel⟩

/-- **C49** Not with comments: a `--` comment inside an expression is put in front of the rest of the
expression on the same line, so what is printed does not parse. -/
theorem C49_reformat_comment_refuted : ∃ s s', (multiParse limitVal s).isSome = true ∧
    reFormatVQL limitVal numberText defaultOpts true s = some s' ∧ multiParse limitVal s' = none := by
  refine ⟨bs "SELECT a +\n-- c\n b AS X FROM y", bs "SELECT a + -- c b AS X\nFROM y\n\n", by decide +kernel,
    by decide +kernel, ?_⟩
  have : (multiParse limitVal (bs "SELECT a + -- c b AS X\nFROM y\n\n")).isNone = true := by decide +kernel
  simpa using this

/-- The comments of a text. -/
def commentsOf (s : Str) : List Str := ((tokens s).filter fun t => decide (t.kind ∈ comKs)).map Tok.text

/-- **C49** Comments are lost: one in front of the value of an argument is not printed. -/
theorem C49_reformat_comment_lost_refuted : ∃ s s', commentsOf s = [bs "--x"] ∧
    reFormatVQL limitVal numberText defaultOpts true s = some s' ∧ commentsOf s' = [] :=
  ⟨bs "SELECT a FROM y(a=\n--x\n1)", bs "SELECT a\nFROM y(a=1)\n\n", by decide +kernel, by decide +kernel, by decide +kernel⟩

/-! ## The rows -/

open Vql

/-- **C49** Reformatting a program changes nothing about its rows: both texts are parsed and evaluated
in the same fresh scope, one finishes if and only if the other does, and every statement gives the
same rows.  Partial: as `C49_reformat_partial`, and the rows are data. -/
theorem C49_reformat_rows_partial {F S : Type} [FloatOps F] {H : Host F S} (hp : Printing H)
    (hH : ∀ tbl, HostR H (exact tbl))
    (o : Opts) (brk : Bool) {p p' : Str} {ss ss' : List CStmt} (hu : Uncommented p)
    (h : reFormatVQL limitVal numberText o brk p = some p')
    (h1 : multiParseWithComments limitVal p = some ss) (h2 : multiParseWithComments limitVal p' = some ss')
    (hk : ∀ t ∈ ss, kStmt numberText t ∧ (formatStmt numberText t).getLast? ≠ some 44 ∧
      NoBlankEnds (formatStmt numberText t))
    {st : Vql.St F S} {s : Nat} (hst : Fresh st s) (fuel node : Nat) (rows : List (List (V F)))
    (hd : ∀ l ∈ rows, DataL l) :
    (∃ s1, runStmts H fuel (lowStmts ss node) s st = some (rows, s1)) ↔
      ∃ s1, runStmts H fuel (lowStmts ss' node) s st = some (rows, s1) := by
  obtain ⟨ss0, e0, hr⟩ := C49_reformat_partial o brk p p' hu h
  rw [h1, Option.some.injEq] at e0
  subst e0
  have e := (hr hk).1
  rw [h2, Option.some.injEq] at e
  obtain ⟨hne, hwf⟩ := Lay.multi_wf numberText limitVal limOK_limitVal hu h1
  have ht : ∀ t ∈ ss, (∃ text, parse limitVal text = some t) ∧ kStmt numberText t := fun t ht =>
    ⟨⟨_, parse_format id limitVal t (hwf t ht (hk t ht).1)⟩, (hk t ht).1⟩
  refine C49_same_rows_partial hp hH ht ?_ hst fuel node rows hd
  rw [e, List.map_map]
  refine List.map_congr_left fun t hm => ?_
  obtain ⟨text, hx⟩ := (ht t hm).1
  exact (C49_parse_format_parse_partial text t hx (hk t hm).1).1

end Vfilter.Fmt
