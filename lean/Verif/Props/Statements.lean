import Verif.StmtMulti
/-!
# C44 at the level of texts

`Props/TextMisc` proves C44 for sequences of statements and comments that have already been told
apart.  Here the texts themselves are put together, line by line, and the lexer and the grammar
have to find the statements again.
-/

set_option linter.all false

namespace Vfilter.Fmt

/-- The text of a comment: one token, which is a comment. -/
def IsComment (c : Str) : Prop := IsTok .vqlComment c ∨ IsTok .comment c ∨ IsTok .mlComment c

instance (c : Str) : Decidable (IsComment c) := inferInstanceAs (Decidable (_ ∨ _ ∨ _))

/-- The comment with this text: it is kept as it stands, in a field that depends on how it starts. -/
def commentOf (c : Str) : Comment :=
  if c.take 2 = bs "--" then .vql c else if c.take 2 = bs "//" then .line c else .multi c

/-- The tokens of a text. -/
def tokens (s : Str) : List Tok := (lex s).getD []

/-- The text is read alone as the statement `t`, does not end with a comma, and contains nothing
that looks like the start of a comment or a long string that is never closed. -/
structure Stands (lim : Str → Option Int) (s : Str) (t : CStmt) : Prop where
  reads : parse lim s = some t
  calm : Calm (tokens s)
  last : ∀ u, (dropComments (tokens s)).getLast? = some u → u.text ≠ bs ","

/-! ## Proofs -/

theorem dropComments_app (a b : List Tok) : dropComments (a ++ b) = dropComments a ++ dropComments b := by
  simp [dropComments]

theorem dropComments_flatMap {α : Type} (f : α → List Tok) : ∀ l : List α,
    dropComments (l.flatMap f) = l.flatMap fun x => dropComments (f x)
  | [] => rfl
  | x :: l => by simp [dropComments_app, dropComments_flatMap f l]

theorem dropComments_kind {ts : List Tok} : ∀ t ∈ dropComments ts, t.kind ∉ comKs := by
  intro t ht hk
  unfold dropComments at ht
  obtain ⟨_, h2⟩ := List.mem_filter.1 ht
  simp only [comKs, List.mem_cons, List.not_mem_nil, or_false] at hk
  rcases hk with h | h | h <;> simp [h] at h2

theorem dropComments_id {ts : List Tok} (h : ∀ t ∈ ts, t.kind ∉ comKs) : dropComments ts = ts := by
  unfold dropComments
  refine List.filter_eq_self.2 fun t ht => ?_
  have := h t ht
  simp only [comKs, List.mem_cons, List.not_mem_nil, or_false, not_or] at this
  simp [this]

section
variable {lim : Str → Option Int} {s : Str} {t : CStmt}

theorem Stands.lexes (h : Stands lim s t) : lex s = some (tokens s) := by
  have := h.reads
  unfold parse at this
  cases e : lex s with
  | none => rw [e] at this; simp at this
  | some ts => simp [tokens, e]

theorem Stands.whole (h : Stands lim s t) : Whole lim (dropComments (tokens s)) t := by
  refine ⟨fun u hu => ⟨lex_kin h.lexes u ?_, dropComments_kind u hu⟩, ?_, h.last⟩
  · unfold dropComments at hu
    exact (List.mem_filter.1 hu).1
  · have := h.reads
    unfold parse complete at this
    rw [h.lexes] at this
    simp only [Option.bind_some] at this
    split at this
    · rename_i a e
      simp only [Option.some.injEq] at this
      rw [e, this]
    · simp at this

theorem Stands.head (h : Stands lim s t) : ∃ u R, tokens s = u :: R ∧ u.kind ∈ begKs := by
  obtain ⟨u, R, e, _, hk⟩ := h.whole.head
  cases ht : tokens s with
  | nil => rw [ht] at e; simp [dropComments] at e
  | cons v ts =>
    refine ⟨v, ts, rfl, ?_⟩
    by_cases hv : v.kind ∈ comKs
    · simp only [comKs, List.mem_cons, List.not_mem_nil, or_false] at hv
      rcases hv with h | h | h <;> simp [begKs, h]
    · have hd : dropComments (v :: ts) = v :: dropComments ts := by
        rw [show v :: ts = [v] ++ ts from rfl, dropComments_app, dropComments_id (ts := [v]) (by simpa using hv)]
        rfl
      rw [ht, hd] at e
      simp only [List.cons.injEq] at e
      rw [e.1]
      simp only [List.mem_cons, List.not_mem_nil, or_false] at hk
      rcases hk with h | h | h <;> simp [begKs, h]

theorem Stands.line (h : Stands lim s t) : lex s = some (tokens s) ∧ Calm (tokens s) ∧ ∃ u R, tokens s = u :: R ∧ u.kind ∈ begKs :=
  ⟨h.lexes, h.calm, h.head⟩
end

/-! Comments -/

theorem isComment_tok {c : Str} (h : IsComment c) : ∃ k ∈ comKs, IsTok k c ∧ lex c = some [⟨k, c⟩] ∧ cmt ⟨k, c⟩ = commentOf c := by
  have key : ∀ k ∈ comKs, IsTok k c → lex c = some [⟨k, c⟩] := by
    intro k hk ht
    have ht' : firstRule rules (c ++ []) = some (k, c, []) := by rw [List.append_nil]; exact ht
    have := lex_tok ht' (fun e => by
      subst e
      have hn : firstRule rules [] = none := by decide
      rw [IsTok, hn] at ht; simp at ht) (fun e => by subst e; revert hk; decide)
    rw [List.append_nil, lex_nil] at this
    rw [this]
    simp only [Option.map_some, Option.some.injEq, List.cons.injEq, and_true]
    unfold mkTok
    rw [if_neg]
    rintro (rfl | rfl) <;> revert hk <;> decide
  rcases h with h | h | h
  · refine ⟨_, by decide, h, key _ (by decide) h, ?_⟩
    have h1 := rule_of h 2 (f := lineFrom (bs "--")) (by simp [rules])
    unfold lineFrom at h1
    split at h1
    · rename_i hp
      obtain ⟨x, rfl⟩ := List.isPrefixOf_iff_prefix.1 hp
      rfl
    · simp at h1
  · refine ⟨_, by decide, h, key _ (by decide) h, ?_⟩
    have h1 := rule_of h 3 (f := lineFrom (bs "//")) (by simp [rules])
    unfold lineFrom at h1
    split at h1
    · rename_i hp
      obtain ⟨x, rfl⟩ := List.isPrefixOf_iff_prefix.1 hp
      rfl
    · simp at h1
  · refine ⟨_, by decide, h, key _ (by decide) h, ?_⟩
    have h1 := rule_of h 1 (f := delimited (bs "/*") (bs "*/")) (by simp [rules])
    unfold delimited at h1
    split at h1
    · rename_i hp
      obtain ⟨x, rfl⟩ := List.isPrefixOf_iff_prefix.1 hp
      rfl
    · simp at h1

theorem comment_toks {c : Str} (h : IsComment c) : ∃ k ∈ comKs, tokens c = [⟨k, c⟩] ∧ lex c = some [⟨k, c⟩] ∧
    c ∉ opTexts ∧ cmt ⟨k, c⟩ = commentOf c := by
  obtain ⟨k, hk, ht, hl, hc⟩ := isComment_tok h
  exact ⟨k, hk, by simp [tokens, hl], hl, not_op ht (fun e => by subst e; revert hk; decide), hc⟩

theorem comments_cmt : ∀ (cs : List Str), (∀ c ∈ cs, IsComment c) →
    (cs.flatMap tokens).map cmt = cs.map commentOf ∧ (cs.flatMap tokens).length = cs.length ∧
    ∀ t ∈ cs.flatMap tokens, t.kind ∈ comKs ∧ t.text ∉ opTexts
  | [], _ => ⟨rfl, rfl, by simp⟩
  | c :: cs, h => by
    obtain ⟨h1, h2, h3⟩ := comments_cmt cs fun c hc => h c (by simp [hc])
    obtain ⟨k, hk, ht, _, ho, hc⟩ := comment_toks (h c (by simp))
    refine ⟨?_, ?_, ?_⟩
    · simp [ht, hc, h1]
    · simp [ht, h2]
    · intro t hm
      simp only [List.flatMap_cons, ht, List.cons_append, List.nil_append, List.mem_cons] at hm
      rcases hm with rfl | hm
      · exact ⟨hk, ho⟩
      · exact h3 t hm

theorem comment_line {c : Str} (h : IsComment c) : lex c = some (tokens c) ∧ Calm (tokens c) ∧ ∃ u R, tokens c = u :: R ∧ u.kind ∈ begKs := by
  obtain ⟨k, hk, ht, hl, _, _⟩ := comment_toks h
  refine ⟨by rw [ht, hl], by rw [ht]; trivial, _, _, ht, ?_⟩
  simp only [comKs, List.mem_cons, List.not_mem_nil, or_false] at hk
  rcases hk with h | h | h <;> simp [begKs, h]

theorem lex_toks (ls : List Str) (h : ∀ l ∈ ls, lex l = some (tokens l) ∧ Calm (tokens l) ∧ ∃ u R, tokens l = u :: R ∧ u.kind ∈ begKs) :
    lex (onLines ls) = some (ls.flatMap tokens) := by
  have := lex_lines (ls.map fun l => (l, tokens l)) (by
    intro x hx
    obtain ⟨l, hl, rfl⟩ := List.mem_map.1 hx
    exact h l hl)
  rw [List.map_map, List.flatMap_map] at this
  simpa [Function.comp_def] using this

/-! ## The statements of a text -/

/-- C44 for texts: when texts that are each read as one statement are put on lines of their own,
`MultiParse` gives exactly these statements, in order.  The texts may contain comments and line
breaks of their own. -/
theorem C44_multi_parse (lim : Str → Option Int) (l : List (Str × CStmt)) (hne : l ≠ [])
    (h : ∀ p ∈ l, Stands lim p.1 p.2) :
    multiParse lim (onLines (l.map Prod.fst)) = some (l.map Prod.snd) := by
  have hl := lex_toks (l.map Prod.fst) (by
    intro s hs
    obtain ⟨p, hp, rfl⟩ := List.mem_map.1 hs
    exact (h p hp).line)
  rw [List.flatMap_map] at hl
  unfold multiParse
  rw [hl]
  simp only [Option.bind_some]
  have e : dropComments (l.flatMap fun p => tokens p.1) =
      strm (l.map fun p => (([] : List Tok), dropComments (tokens p.1), p.2)) [] := by
    rw [dropComments_flatMap]
    simp [strm, List.flatMap_map]
  have hp : Pieces lim [] (l.map fun p => (([] : List Tok), dropComments (tokens p.1), p.2)) := by
    clear hne hl e
    induction l with
    | nil => trivial
    | cons p l ih =>
      refine ⟨by simp, (h p (by simp)).whole, fun _ => ?_, ih fun q hq => h q (by simp [hq])⟩
      cases l <;> simp [ahead]
  rw [e, multi_complete (by simp) (by simpa using hne) hp]
  simp only [List.map_map, Option.some.injEq]
  refine List.map_congr_left fun p hp => ?_
  simpa using (h p hp).whole.bare

/-- The lines of a program: the comments in front of every statement, the statement, and the
comments behind the last one. -/
def progLines (l : List (List Str × Str × CStmt)) (tr : List Str) : List Str :=
  (l.flatMap fun p => p.1 ++ [p.2.1]) ++ tr

/-- No statement that ends with a list of several expressions is followed by two comments. -/
def Spaced (tr : List Str) : List (List Str × Str × CStmt) → Prop
  | [] => True
  | [p] => stmtEndsList p.2.2 → tr.length ≤ 1
  | p :: q :: l => (stmtEndsList p.2.2 → q.1.length ≤ 1) ∧ Spaced tr (q :: l)

/-- C44 for texts, with comments on lines of their own between the statements:
`MultiParseWithComments` gives the statements in order, each with exactly the comments in front of
it.  (Partial: the comments behind the last statement are lost, `C44_trailing_refuted`; a statement
that ends with a list must not be followed by two comments, `C44_list_comments_refuted`.) -/
theorem C44_multi_parse_comments_partial (lim : Str → Option Int) (l : List (List Str × Str × CStmt)) (tr : List Str)
    (hne : l ≠ []) (h : ∀ p ∈ l, (∀ c ∈ p.1, IsComment c) ∧ Stands lim p.2.1 p.2.2 ∧ ∀ t ∈ tokens p.2.1, t.kind ∉ comKs)
    (ht : ∀ c ∈ tr, IsComment c) (hs : Spaced tr l) :
    multiParseWithComments lim (onLines (progLines l tr)) =
      some (l.map fun p => p.2.2.withComments (p.1.map commentOf)) := by
  have hl := lex_toks (progLines l tr) (by
    intro s hs
    simp only [progLines, List.mem_append, List.mem_flatMap, List.mem_singleton] at hs
    rcases hs with ⟨p, hp, hs | rfl⟩ | hs
    · exact comment_line ((h p hp).1 s hs)
    · exact (h p hp).2.1.line
    · exact comment_line (ht s hs))
  obtain ⟨t1, t2, t3⟩ := comments_cmt tr ht
  unfold multiParseWithComments
  rw [hl]
  simp only [Option.bind_some]
  have e : (progLines l tr).flatMap tokens =
      strm (l.map fun p => (p.1.flatMap tokens, tokens p.2.1, p.2.2)) (tr.flatMap tokens) := by
    simp [progLines, strm, List.flatMap_append, List.flatMap_assoc, List.flatMap_map]
  have hp : Pieces lim (tr.flatMap tokens) (l.map fun p => (p.1.flatMap tokens, tokens p.2.1, p.2.2)) := by
    clear hne hl e
    induction l with
    | nil => trivial
    | cons p l ih =>
      obtain ⟨c1, c2, c3⟩ := h p (by simp)
      refine ⟨(comments_cmt _ c1).2.2, ?_, ?_, ih (fun q hq => h q (by simp [hq])) ?_⟩
      · have := c2.whole
        rwa [dropComments_id c3] at this
      · intro he
        cases l with
        | nil =>
          simp only [List.map_nil, ahead]
          rw [t2]
          exact hs he
        | cons q l =>
          simp only [List.map_cons, ahead]
          rw [(comments_cmt _ (h q (by simp)).1).2.1]
          exact hs.1 he
      · cases l with
        | nil => trivial
        | cons q l => exact hs.2
  rw [e, multi_complete t3 (by simpa using hne) hp]
  simp only [List.map_map, Option.some.injEq]
  refine List.map_congr_left fun p hp => ?_
  simp only [Function.comp_apply]
  rw [(comments_cmt _ (h p hp).1).1]

/-! ## What the conditions are for -/

/-- A conversion of LIMIT for the examples, none of which has one. -/
def noLimit : Str → Option Int := fun _ => none

/-- The number of statements, and of comments of each. -/
def counts (r : Option (List CStmt)) : Option (List Nat) :=
  r.map (·.map fun | .let_ c _ _ _ _ _ => c.length | .query c _ => c.length)

/-- C44 fails: behind a statement that ends with a list, two comments are an error, although each
of the lines is fine (and one comment is, too). -/
theorem C44_list_comments_refuted :
    (parse noLimit (bs "SELECT * FROM x GROUP BY a, b")).isSome = true ∧
    (parse noLimit (bs "SELECT * FROM y")).isSome = true ∧
    counts (multiParseWithComments noLimit (onLines
      [bs "SELECT * FROM x GROUP BY a, b", bs "-- one", bs "SELECT * FROM y"])) = some [0, 1] ∧
    multiParseWithComments noLimit (onLines
      [bs "SELECT * FROM x GROUP BY a, b", bs "-- one", bs "-- two", bs "SELECT * FROM y"]) = none := by
  refine ⟨by decide +kernel, by decide +kernel, by decide +kernel, ?_⟩
  have : (multiParseWithComments noLimit (onLines
      [bs "SELECT * FROM x GROUP BY a, b", bs "-- one", bs "-- two", bs "SELECT * FROM y"])).isNone = true := by
    decide +kernel
  simpa using this

/-- C44 fails: a comment behind a list that ends with a comma is lost. -/
theorem C44_comma_comment_refuted :
    (parse noLimit (bs "SELECT * FROM x GROUP BY a,")).isSome = true ∧
    counts (multiParseWithComments noLimit (onLines
      [bs "SELECT * FROM x GROUP BY a,", bs "-- one", bs "SELECT * FROM y"])) = some [0, 0] := by
  refine ⟨by decide +kernel, by decide +kernel⟩

/-- C44 fails: two texts that are fine alone are refused together, since the quotes of the second
close a long string in the first. -/
theorem C44_unclosed_refuted :
    (parse noLimit (bs "SELECT a['''x'] FROM y")).isSome = true ∧
    (parse noLimit (bs "SELECT '''z''' FROM y")).isSome = true ∧
    multiParse noLimit (onLines [bs "SELECT a['''x'] FROM y", bs "SELECT '''z''' FROM y"]) = none := by
  refine ⟨by decide +kernel, by decide +kernel, ?_⟩
  have : (multiParse noLimit (onLines [bs "SELECT a['''x'] FROM y", bs "SELECT '''z''' FROM y"])).isNone = true := by
    decide +kernel
  simpa using this

/-! ## Examples -/

theorem stands_of {s : Str} {t : CStmt} (h : parse noLimit s = some t) (hc : Calm (tokens s))
    (hl : (match (dropComments (tokens s)).getLast? with
      | none => false
      | some u => u.text != bs ",") = true) : Stands noLimit s t :=
  ⟨h, hc, fun u hu => by rw [hu] at hl; simpa using hl⟩

example : ∃ t1 t2, multiParse noLimit (onLines [bs "LET x = 1 -- one", bs "SELECT\n x\n FROM scope()"]) = some [t1, t2] := by
  have h1 : ∃ t, Stands noLimit (bs "LET x = 1 -- one") t :=
    ⟨_, stands_of (Option.eq_some_of_isSome (by decide +kernel)) (by decide +kernel) (by decide +kernel)⟩
  have h2 : ∃ t, Stands noLimit (bs "SELECT\n x\n FROM scope()") t :=
    ⟨_, stands_of (Option.eq_some_of_isSome (by decide +kernel)) (by decide +kernel) (by decide +kernel)⟩
  obtain ⟨t1, h1⟩ := h1
  obtain ⟨t2, h2⟩ := h2
  refine ⟨t1, t2, C44_multi_parse noLimit [(_, t1), (_, t2)] (by simp) ?_⟩
  intro p hp
  simp only [List.mem_cons, List.not_mem_nil, or_false] at hp
  rcases hp with rfl | rfl
  · exact h1
  · exact h2

example : ∃ t1 t2, multiParseWithComments noLimit (onLines
      [bs "-- one", bs "/* two */", bs "LET x = 1", bs "// three", bs "SELECT x FROM scope()", bs "-- four"]) =
    some [t1, t2] ∧ counts (some [t1, t2]) = some [2, 1] := by
  have h1 : ∃ t, Stands noLimit (bs "LET x = 1") t :=
    ⟨_, stands_of (Option.eq_some_of_isSome (by decide +kernel)) (by decide +kernel) (by decide +kernel)⟩
  have h2 : ∃ t, Stands noLimit (bs "SELECT x FROM scope()") t :=
    ⟨_, stands_of (Option.eq_some_of_isSome (by decide +kernel)) (by decide +kernel) (by decide +kernel)⟩
  obtain ⟨t1, h1⟩ := h1
  obtain ⟨t2, h2⟩ := h2
  refine ⟨_, _, C44_multi_parse_comments_partial noLimit
    [([bs "-- one", bs "/* two */"], bs "LET x = 1", t1), ([bs "// three"], bs "SELECT x FROM scope()", t2)] [bs "-- four"]
    (by simp) ?_ (by decide +kernel) ⟨fun _ => by simp, fun _ => by simp⟩, ?_⟩
  · intro p hp
    simp only [List.mem_cons, List.not_mem_nil, or_false] at hp
    rcases hp with rfl | rfl
    · exact ⟨by dsimp only; decide +kernel, h1, by dsimp only; decide +kernel⟩
    · exact ⟨by dsimp only; decide +kernel, h2, by dsimp only; decide +kernel⟩
  · cases t1 <;> cases t2 <;> rfl

end Vfilter.Fmt
