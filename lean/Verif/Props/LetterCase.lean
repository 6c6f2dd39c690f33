import Verif.EvalLetters
import Verif.LexCase
import Verif.Props.EvalReprint
/-!
# C83: keywords may be written in any letter case

The lexer's rules for keywords begin with `(?i)` (vfilter.go:154-172) and the grammar refers to
them by kind, with three exceptions: the text of AND, OR and of TRUE and FALSE is kept in the tree
(vfilter.go:978, 990, 1043).
-/

set_option linter.all false

namespace Vfilter.Fmt
open Vql

/-- The keywords (vfilter.go:154-157, 160-172). -/
def isKeyword : TK → Bool
  | .explain | .select | .where_ | .and_ | .or_ | .from_ | .not_ | .as_ | .in_ | .limit | .null
  | .desc | .groupBy | .orderBy | .bool | .let_ => true
  | _ => false

/-- The keywords of which nothing is kept but that they are there. -/
def isSilent (k : TK) : Bool := isKeyword k && !(k = .and_ || k = .or_ || k = .bool)

/-- The text with other upper and lower case letters in some of its words of the kinds `K`: read as
the lexer reads it, everything else stays what it is. -/
inductive Respelled (K : TK → Bool) : Str → Str → Prop
  | rest {s : Str} : Respelled K s s
  | same {k : TK} {m r r' : Str} : firstRule rules (m ++ r) = some (k, m, r) → Respelled K r r' →
      Respelled K (m ++ r) (m ++ r')
  | word {k : TK} {m m' r r' : Str} : firstRule rules (m ++ r) = some (k, m, r) → K k = true →
      m'.map upper = m.map upper → Respelled K r r' → Respelled K (m ++ r) (m' ++ r')

theorem CaseX.refl : ∀ s, CaseX s s
  | [] => .nil
  | _ :: s => .cons rfl (fun _ => Iff.rfl) (CaseX.refl s)

theorem CaseX.append_left : ∀ {m r r' : Str}, (r.head? = some 120 ↔ r'.head? = some 120) → CaseX r r' → CaseX (m ++ r) (m ++ r')
  | [], _, _, _, h => h
  | [c], r, r', hx, h => .cons rfl (fun _ => hx) h
  | c :: d :: m, _, _, hx, h => .cons rfl (fun _ => by simp) (CaseX.append_left hx h)

/-- Letters only differ in case. -/
theorem CaseX.append : ∀ {m m' r r' : Str}, m'.map upper = m.map upper → (∀ c ∈ m, c ≠ 48) →
    CaseX r r' → CaseX (m ++ r) (m' ++ r')
  | [], m', _, _, e, _, h => by
    have : m' = [] := by simpa using e
    subst this
    exact h
  | c :: m, m', r, r', e, hm, h => by
    cases m' with
    | nil => simp at e
    | cons d m' =>
      simp only [List.map_cons, List.cons.injEq] at e
      exact .cons e.1.symm (fun h48 => absurd h48 (hm c (by simp))) (CaseX.append e.2 (fun c hc => hm c (by simp [hc])) h)

theorem keyword_upper {w s m r : Str} (h : keyword w s = some (m, r)) : m.map upper = w := by
  unfold keyword at h
  cases hf : foldPrefix w s with
  | none => rw [hf] at h; simp at h
  | some p =>
    obtain ⟨m1, r1⟩ := p
    rw [hf] at h
    simp only at h
    split at h
    · simp only [Option.some.injEq, Prod.mk.injEq] at h
      rw [← h.1]
      exact fold_upper hf
    · simp at h

/-- What a keyword looks like: it does not begin with an x and has no 0 in it. -/
def Wordy (m : Str) : Prop := (∃ c t, m = c :: t ∧ upper c ≠ 88) ∧ ∀ c ∈ m, c ≠ 48

theorem wordy_of {m w : Str} (h : m.map upper = w) (h1 : w ≠ []) (h2 : w.head? ≠ some 88) (h3 : ∀ c ∈ w, c ≠ 48) :
    Wordy m := by
  subst h
  refine ⟨?_, ?_⟩
  · cases m with
    | nil => exact absurd rfl h1
    | cons c t => exact ⟨c, t, rfl, by simpa using h2⟩
  · rintro c hc rfl
    exact h3 48 (List.mem_map.2 ⟨48, hc, rfl⟩) rfl

theorem keyword2_wordy {v w s m r : Str} (h : keyword2 v w s = some (m, r)) (h1 : v ≠ []) (h2 : v.head? ≠ some 88)
    (h3 : ∀ c ∈ v ++ w, c ≠ 48) : Wordy m := by
  unfold keyword2 at h
  split at h
  · simp at h
  · rename_i m1 r1 hf
    have hv := wordy_of (fold_upper hf) h1 h2 (fun c hc => h3 c (by simp [hc]))
    rw [span_eq] at h
    split at h
    · simp at h
    · rename_i a b hb heq
      split at h
      · simp at h
      · rename_i m2 r2 hk
        simp only [Option.some.injEq, Prod.mk.injEq] at h
        rw [← h.1]
        obtain ⟨⟨c, t, rfl, hc⟩, h48⟩ := hv
        refine ⟨⟨c, t ++ a ++ m2, by simp, hc⟩, ?_⟩
        intro x hx
        simp only [List.mem_append] at hx
        rcases hx with (hx | hx) | hx
        · exact h48 x hx
        · simp only [Prod.mk.injEq] at heq
          rw [← heq.1] at hx
          have := tw_mem x hx
          rintro rfl
          simp [isWS] at this
        · rintro rfl
          have := keyword_upper hk
          exact h3 48 (by rw [← this]; simp; exact .inr ⟨48, hx, rfl⟩) rfl

/-- Keywords are wordy. -/
theorem keyword_wordy {k : TK} {s m r : Str} (h : firstRule rules s = some (k, m, r)) (hk : isKeyword k = true) :
    Wordy m := by
  obtain ⟨f, hf, hs⟩ := first_mem h
  simp only [rules, List.mem_cons, List.not_mem_nil, or_false, Prod.mk.injEq] at hf
  rcases hf with h | h | h | h | h | h | h | h | h | h | h | h | h | h | h | h | h | h | h | h | h | h | h | h | h | h | h | h
  all_goals obtain ⟨rfl, rfl⟩ := h
  all_goals first
    | exact absurd hk (by decide)
    | exact wordy_of (keyword_upper hs) (by decide) (by decide) (by decide)
    | exact keyword2_wordy hs (by decide) (by decide) (by decide)
    | skip
  · cases h1 : keyword (bs "TRUE") s with
    | some p =>
      simp only [h1, Option.some_or, Option.some.injEq] at hs
      exact wordy_of (keyword_upper (hs ▸ h1)) (by decide) (by decide) (by decide)
    | none =>
      simp only [h1, Option.none_or] at hs
      exact wordy_of (keyword_upper hs) (by decide) (by decide) (by decide)

theorem respelled_case {K : TK → Bool} (hK : ∀ k, K k = true → isKeyword k = true) {s s' : Str} (h : Respelled K s s') :
    CaseX s s' ∧ (s.head? = some 120 ↔ s'.head? = some 120) := by
  induction h with
  | rest => exact ⟨CaseX.refl _, Iff.rfl⟩
  | @same k m r r' h1 _ ih =>
    refine ⟨CaseX.append_left ih.2 ih.1, ?_⟩
    cases m with
    | nil => exact ih.2
    | cons c m => simp
  | @word k m m' r r' h1 h2 h3 _ ih =>
    have hw := keyword_wordy h1 (hK k h2)
    refine ⟨CaseX.append h3 hw.2 ih.1, ?_⟩
    obtain ⟨⟨c, t, rfl, hc⟩, _⟩ := hw
    cases m' with
    | nil => simp at h3
    | cons d m' =>
      simp only [List.map_cons, List.cons.injEq] at h3
      have h5 : c ≠ 120 := by rintro rfl; exact hc rfl
      have h6 : d ≠ 120 := by rintro rfl; exact hc (h3.1 ▸ rfl)
      simp [h5, h6]

theorem respelled_first {K : TK → Bool} (hK : ∀ k, K k = true → isKeyword k = true) {k : TK} {m m' r r' : Str}
    (h1 : firstRule rules (m ++ r) = some (k, m, r)) (hl : m'.length = m.length) (hc : CaseX (m ++ r) (m' ++ r')) :
    firstRule rules (m' ++ r') = some (k, m', r') := by
  rcases first_case hc bl_rules with ⟨h, _⟩ | ⟨k2, m2, r2, m3, r3, h2, h3, h4⟩
  · rw [h1] at h; simp at h
  · rw [h1] at h2
    simp only [Option.some.injEq, Prod.mk.injEq] at h2
    obtain ⟨rfl, rfl, rfl⟩ := h2
    have h5 := first_split h3
    have := List.append_inj h5 (by omega)
    rw [h3, this.1, this.2]

/-- How the words of a respelled text relate to those of the original. -/
theorem respelled_lex {K : TK → Bool} (hK : ∀ k, K k = true → isKeyword k = true) {g : Tok → Tok}
    (hg : ∀ k m m', K k = true → m'.map upper = m.map upper → g (mkTok k m') = g (mkTok k m)) {s s' : Str}
    (h : Respelled K s s') : (lex s').map (List.map g) = (lex s).map (List.map g) := by
  induction h with
  | rest => rfl
  | @same k m r r' h1 h2 ih =>
    have hc := respelled_case hK (.same h1 h2)
    have h3 := respelled_first hK h1 rfl hc.1
    by_cases hm : m = []
    · subst hm; exact ih
    · rw [lex_step h1 hm, lex_step h3 hm]
      split
      · exact ih
      · revert ih
        generalize lex r = x, lex r' = y
        intro ih
        cases x <;> cases y <;> simp_all
  | @word k m m' r r' h1 h2 h4 h5 ih =>
    have hc := respelled_case hK (.word h1 h2 h4 h5)
    have hl : m'.length = m.length := by simpa using congrArg List.length h4
    have h3 := respelled_first hK h1 hl hc.1
    have hw := keyword_wordy h1 (hK k h2)
    have hm : m ≠ [] := by obtain ⟨⟨c, t, rfl, _⟩, _⟩ := hw; simp
    have hm' : m' ≠ [] := by rintro rfl; exact hm (by simpa using hl.symm)
    rw [lex_step h1 hm, lex_step h3 hm']
    split
    · exact ih
    · have := hg k m m' h2 h4
      revert ih
      generalize lex r = x, lex r' = y
      intro ih
      cases x <;> cases y <;> simp_all

/-! ## Programs -/

section
variable {K : TK → Bool} {f : Str → Str} (hf : KeepsSigns f) (lim : Str → Option Int)
include hf

theorem case_parse {s s' : Str} (h : (lex s').map (List.map (recaseT f)) = (lex s).map (List.map (recaseT f))) :
    (parse lim s').map (rcStmt f) = (parse lim s).map (rcStmt f) ∧
    (multiParse lim s').map (List.map (rcStmt f)) = (multiParse lim s).map (List.map (rcStmt f)) ∧
    (multiParseWithComments lim s').map (List.map (rcStmt f)) = (multiParseWithComments lim s).map (List.map (rcStmt f)) := by
  unfold parse multiParse multiParseWithComments
  revert h
  generalize lex s = x, lex s' = y
  intro h
  rcases x with _ | ts <;> rcases y with _ | ts'
  · exact ⟨rfl, rfl, rfl⟩
  · simp at h
  · simp at h
  · simp only [Option.map_some, Option.some.injEq] at h
    have hd : (dropComments ts').map (recaseT f) = (dropComments ts).map (recaseT f) := by
      rw [← recase_drop, ← recase_drop, h]
    have e1 : fuelFor (dropComments ts') = fuelFor (dropComments ts) := by
      rw [← fuelFor_map (f := f), hd, fuelFor_map]
    have e2 : fuelFor ts' = fuelFor ts := by rw [← fuelFor_map (f := f), h, fuelFor_map]
    simp only [Option.bind_some]
    refine ⟨?_, ?_, ?_⟩
    · rw [← natl_complete (natl_stmt hf _), ← natl_complete (natl_stmt hf _), hd, e1]
    · rw [← natl_complete (natl_multi hf _), ← natl_complete (natl_multi hf _), hd, e1]
    · rw [← natl_complete (natl_multi hf _), ← natl_complete (natl_multi hf _), h, e2]

end

/-- **C83** Words.  If some keywords of a text are written with other upper and lower case letters,
the lexer takes it for the same sequence of words: the same kinds, with the same text apart from
the letters of keywords. -/
theorem C83_words {s s' : Str} (h : Respelled isKeyword s s') :
    (lex s').map (List.map fun t => (t.kind, if isKeyword t.kind then t.text.map upper else t.text)) =
      (lex s).map (List.map fun t => (t.kind, if isKeyword t.kind then t.text.map upper else t.text)) := by
  have hup : ∀ c, upper (upper c) = upper c := forall_byte (by decide +kernel)
  have := respelled_lex (g := fun t => ⟨t.kind, if isKeyword t.kind then t.text.map upper else t.text⟩)
    (fun _ h => h) (fun k m m' hk e => by
      have : ∀ m, mkTok k m = ⟨k, if k = .in_ ∨ k = .desc then m.map upper else m⟩ := by
        intro m; unfold mkTok; split <;> rfl
      simp only [this, hk, if_true]
      split
      · rw [e]
      · rw [e]) h
  have h2 := congrArg (Option.map (List.map fun t : Tok => (t.kind, t.text))) this
  simpa only [Option.map_map, Function.comp_def, List.map_map] using h2

/-- **C83** Programs.  Such a text is a statement, or a list of statements, if and only if the
original is, and the two syntax trees differ at most in the letters of AND, OR, TRUE and FALSE. -/
theorem C83_trees (lim : Str → Option Int) {s s' : Str} (h : Respelled isKeyword s s') :
    (parse lim s').map (rcStmt (List.map upper)) = (parse lim s).map (rcStmt (List.map upper)) ∧
    (multiParse lim s').map (List.map (rcStmt (List.map upper))) =
      (multiParse lim s).map (List.map (rcStmt (List.map upper))) ∧
    (multiParseWithComments lim s').map (List.map (rcStmt (List.map upper))) =
      (multiParseWithComments lim s).map (List.map (rcStmt (List.map upper))) := by
  apply case_parse keeps_upper
  refine respelled_lex (fun _ h => h) ?_ h
  intro k m m' hk e
  cases k <;> simp_all [isKeyword, recaseT, recase, mkTok, kept, bare]

/-- A text with `g` applied to its words of the kinds `K`. -/
def respell (K : TK → Bool) (g : Str → Str) : Nat → Str → Str
  | 0, s => s
  | n + 1, s =>
    match firstRule rules s with
    | none => s
    | some (k, m, r) => (if K k = true then g m else m) ++ respell K g n r

theorem respelled_respell {K : TK → Bool} {g : Str → Str} (hg : ∀ m, (g m).map upper = m.map upper) :
    ∀ n s, Respelled K s (respell K g n s)
  | 0, s => .rest
  | n + 1, s => by
    simp only [respell]
    split
    · exact .rest
    · next k m r h =>
      obtain rfl := first_split h
      split
      · next hk => exact .word h hk (hg m) (respelled_respell hg n r)
      · exact .same h (respelled_respell hg n r)

/-- **C83** If AND, OR, TRUE and FALSE are left as they were the trees are equal: nothing that is done
with the program can tell in which letters its keywords were written. -/
theorem C83_same_tree (lim : Str → Option Int) {s s' : Str} (h : Respelled isSilent s s') :
    parse lim s' = parse lim s ∧ multiParse lim s' = multiParse lim s ∧
    multiParseWithComments lim s' = multiParseWithComments lim s := by
  have hid : rcStmt id = id := funext rcStmt_id
  have := case_parse (f := id) keeps_id lim (s := s) (s' := s') (by
    refine respelled_lex (K := isSilent) (fun k h => ?_) ?_ h
    · simp only [isSilent, Bool.and_eq_true] at h; exact h.1
    intro k m m' hk e
    cases k <;> simp_all [isKeyword, isSilent, recaseT, recase, mkTok, kept, bare])
  simpa only [hid, List.map_id_fun, Option.map_id, id] using this

/-- Whether one text is a respelling of another can be computed. -/
def isRespelling (K : TK → Bool) : Nat → Str → Str → Bool
  | 0, s, s' => decide (s = s')
  | n + 1, s, s' =>
    match firstRule rules s with
    | none => decide (s = s')
    | some (k, m, r) => (decide (s'.take m.length = m) || K k && decide ((s'.take m.length).map upper = m.map upper)) &&
        isRespelling K n r (s'.drop m.length)

theorem respelled_of {K : TK → Bool} : ∀ n s s', isRespelling K n s s' = true → Respelled K s s'
  | 0, s, s', h => by
    obtain rfl : s = s' := by simpa [isRespelling] using h
    exact .rest
  | n + 1, s, s', h => by
    simp only [isRespelling] at h
    split at h
    · obtain rfl : s = s' := by simpa using h
      exact .rest
    · next k m r hf =>
      obtain rfl := first_split hf
      simp only [Bool.and_eq_true, Bool.or_eq_true, decide_eq_true_eq] at h
      have hr := respelled_of n _ _ h.2
      rw [← List.take_append_drop m.length s']
      rcases h.1 with e | ⟨hk, e⟩
      · rw [e]; exact .same hf hr
      · exact .word hf hk e hr

/-- **C83** All at once: all keywords rewritten in upper case, in lower case or in any other way that
keeps the letters. -/
theorem C83_rewritten (lim : Str → Option Int) {g : Str → Str} (hg : ∀ m, (g m).map upper = m.map upper) (n : Nat)
    (s : Str) :
    (multiParse lim (respell isKeyword g n s)).map (List.map (rcStmt (List.map upper))) =
      (multiParse lim s).map (List.map (rcStmt (List.map upper))) ∧
    multiParse lim (respell isSilent g n s) = multiParse lim s :=
  ⟨(C83_trees lim (respelled_respell hg n s)).2.1, (C83_same_tree lim (respelled_respell hg n s)).2.1⟩

/-- Lower case of an ASCII letter. -/
def lower (c : UInt8) : UInt8 := if 65 ≤ c && c ≤ 90 then c + 32 else c

theorem lower_letters (m : Str) : (m.map lower).map upper = m.map upper := by
  rw [List.map_map]
  have : ∀ c, (upper ∘ lower) c = upper c := forall_byte (by decide +kernel)
  exact List.map_congr_left fun c _ => this c

/-- Both hypotheses are satisfied by a text with every keyword; it is a program. -/
def everyKeyword : Str := bs ("LET X(a=TRUE) = SELECT NULL AS n, a AND NOT b OR c IN d FROM e WHERE 0x1F " ++
  "GROUP  BY f ORDER BY g DESC LIMIT 3 EXPLAIN SELECT `SELECT`, 'from', FROMx FROM X -- where")

def everyKeywordLower : Str := bs ("let X(a=true) = select null as n, a and not b or c in d from e where 0x1F " ++
  "group  by f order by g desc limit 3 explain select `SELECT`, 'from', FROMx from X -- where")

example : respell isKeyword (List.map lower) 200 everyKeyword = everyKeywordLower := by decide +kernel
example : Respelled isKeyword everyKeyword everyKeywordLower :=
  (show respell isKeyword (List.map lower) 200 everyKeyword = everyKeywordLower by decide +kernel) ▸
    respelled_respell lower_letters 200 _
example : ((multiParse limitVal everyKeyword).map List.length, (multiParse limitVal everyKeywordLower).map List.length) =
    (some 2, some 2) := by decide +kernel

/-! ## Rows -/

section
variable {F S : Type} [FloatOps F] {H : Host F S}

/-- Evaluating a program and the program with its words in upper case. -/
theorem upper_rows (ha : ∀ (b b' : ColBody) (a : Str), a ≠ [] → H.colName (.mk b a) = H.colName (.mk b' a))
    (hH : ∀ tbl, HostR H (exact tbl)) {ts : List CStmt} (ht : ∀ t ∈ ts, qStmt t)
    {st : Vql.St F S} {s : Nat} (hst : Fresh st s) (fuel node : Nat) (rows : List (List (V F)))
    (hd : ∀ l ∈ rows, DataL l) :
    (∃ s1, runStmts H fuel (lowStmts ts node) s st = some (rows, s1)) ↔
      ∃ s1, runStmts H fuel (lowStmts (ts.map (rcStmt (List.map upper))) node) s st = some (rows, s1) := by
  obtain ⟨m, hn⟩ := nu_stmts ts node
  have hu : ∀ u ∈ usesStmts (lowStmts ts node), UseOk H (exact (nameAt (usesStmts (lowStmts ts node)))) u := by
    intro u hm
    cases u with
    | sym n s c => exact ⟨⟨rfl, (nameAt_of_numbered hn.nodup hm).symm⟩, fun _ _ _ _ => trivial⟩
    | src n c => exact fun _ _ _ _ => trivial
  obtain ⟨h1, h2⟩ := rs_stmts ha ts node ht hu
  constructor
  · rintro ⟨s1, h⟩
    obtain ⟨r, s2, W, h3, _, _, h4⟩ := runStmts_sim (hH _) fuel h1 (W := Corr.one s s) (And.intro rfl rfl) st st
      (fresh_r hst) rows s1 h
    exact ⟨s2, dataLL_eq hd h4 ▸ h3⟩
  · rintro ⟨s1, h⟩
    obtain ⟨r, s2, W, h3, _, _, h4⟩ := runStmts_sim (hH _) fuel h2 (W := Corr.one s s) (And.intro rfl rfl) st st
      (fresh_r hst) rows s1 h
    exact ⟨s2, dataLL_eq hd h4 ▸ h3⟩

/-- **C83** Rows.  A program and the program with other letters in its keywords, AND, OR, TRUE and
FALSE included, are evaluated in the same fresh scope: one finishes if and only if the other does,
and every statement gives the same rows.  Wherever the written form can be seen as data, as the name of
a column without AS or as `$Query`, the four words have to be in upper case (`qStmt`); elsewhere they
may be written in any way. -/
theorem C83_rows_partial (ha : ∀ (b b' : ColBody) (a : Str), a ≠ [] → H.colName (.mk b a) = H.colName (.mk b' a))
    (hH : ∀ tbl, HostR H (exact tbl)) (lim : Str → Option Int) {text text' : Str} (hr : Respelled isKeyword text text')
    {ts ts' : List CStmt} (hp : multiParse lim text = some ts) (hp' : multiParse lim text' = some ts')
    (ht : ∀ t ∈ ts, qStmt t) (ht' : ∀ t ∈ ts', qStmt t)
    {st : Vql.St F S} {s : Nat} (hst : Fresh st s) (fuel node : Nat) (rows : List (List (V F)))
    (hd : ∀ l ∈ rows, DataL l) :
    (∃ s1, runStmts H fuel (lowStmts ts node) s st = some (rows, s1)) ↔
      ∃ s1, runStmts H fuel (lowStmts ts' node) s st = some (rows, s1) := by
  have h := (C83_trees lim hr).2.1
  rw [hp, hp'] at h
  simp only [Option.map_some, Option.some.injEq] at h
  rw [upper_rows ha hH ht hst fuel node rows hd, upper_rows ha hH ht' hst fuel node rows hd, h]

end

/-- **C83** for the functions and plugins of the package. -/
theorem C83_package_partial {matchF : V F64 → V F64 → Bool} {fmtV : V F64 → Str} (limit : Nat)
    (hm : Blind matchF) (hm' : ∀ a, Blind (matchF a)) (hf : Blind fmtV) {text text' : Str}
    (hr : Respelled isKeyword text text') {ts ts' : List CStmt} (hp : multiParse limitVal text = some ts)
    (hp' : multiParse limitVal text' = some ts') (ht : ∀ t ∈ ts, qStmt t) (ht' : ∀ t ∈ ts', qStmt t)
    {st : Vql.St F64 Unit} {s : Nat} (hst : Fresh st s) (fuel node : Nat) (rows : List (List (V F64)))
    (hd : ∀ l ∈ rows, DataL l) :
    (∃ s1, runStmts (packageHost matchF fmtV limit) fuel (lowStmts ts node) s st = some (rows, s1)) ↔
      ∃ s1, runStmts (packageHost matchF fmtV limit) fuel (lowStmts ts' node) s st = some (rows, s1) :=
  C83_rows_partial (fun b b' a h => by cases a with
    | nil => exact absurd rfl h
    | cons => rfl) (package_r limit hm hm' hf) limitVal hr hp hp' ht ht' hst fuel node rows hd

/-- The hypotheses are satisfied by a program that uses the four words in a function and in named
columns; both ways of writing it finish with the same row. -/
def mixed : Str := bs ("LET F(a) = a AND TRUE OR FALSE LET Q = SELECT F(a=1) AND NOT false AS x FROM scope() " ++
  "SELECT * FROM Q WHERE x AND TRUE")

def mixed2 : Str := bs ("Let F(a) = a aNd true Or false lEt Q = select F(a=1) and noT FALSE aS x From scope() " ++
  "select * from Q where x AND TRUE")

example : Respelled isKeyword mixed mixed2 := respelled_of 100 _ _ (by decide +kernel)

example : ((multiParse limitVal mixed).getD []).length = 3 ∧ ((multiParse limitVal mixed2).getD []).length = 3 ∧
    (∀ t ∈ (multiParse limitVal mixed).getD [], qStmt t) ∧ ∀ t ∈ (multiParse limitVal mixed2).getD [], qStmt t := by
  decide +kernel

example : finishes ((multiParse limitVal mixed).getD []) (fun rs => match rs with
  | [[], [], [.dict [(_, .bool b)]]] => b
  | _ => false) = true := by decide +kernel

/-- The name of the first column of a query. -/
def firstName (s : Str) : Option Str :=
  match multiParse limitVal s with
  | some [.query _ q] => match (lowSelect q 0).1 with
    | .mk _ _ (c :: _) _ _ _ _ _ => some (columnName numberText c)
    | _ => none
  | _ => none

/-- `$Query` while a query is evaluated. -/
def queryText (s : Str) : Option Str :=
  match multiParse limitVal s with
  | some [.query _ q] => some (statementText numberText (lowSelect q 0).1)
  | _ => none

/-- **C83** (refuted in general) The written form of AND, OR, TRUE and FALSE shows: a column without AS
is named after it, and `$Query` contains it. -/
theorem C83_name_refuted : ∃ s s', Respelled isKeyword s s' ∧
    firstName s = some (bs "a  AND TRUE") ∧ firstName s' = some (bs "a  and true") ∧
    queryText s ≠ none ∧ queryText s' ≠ none ∧ queryText s ≠ queryText s' :=
  ⟨bs "SELECT a AND TRUE FROM b", respell isKeyword (List.map lower) 30 (bs "SELECT a AND TRUE FROM b"),
    respelled_respell lower_letters 30 _, by decide +kernel⟩

end Vfilter.Fmt
