import Verif.LexGap
import Verif.Number
/-!
# C75: blanks, line breaks and comments between the words of a query

`Parse` and `MultiParse` read the same statements however the words of a text are spaced.
-/

set_option linter.all false

namespace Vfilter.Fmt.Spacing

/-! ## Blanks -/

/-- What may stand between two words: blanks, line breaks, `-- ..` and `// ..` up to the end of
the line, and `/* .. */`, in any order. -/
inductive Blank : Str → Prop where
  | nil : Blank []
  | ws {c : UInt8} {g : Str} : c ∈ ([32, 9, 10, 12, 13] : Str) → Blank g → Blank (c :: g)
  | dashes {l g : Str} : (∀ c ∈ l, c ≠ 10) → Blank g → Blank (bs "--" ++ (l ++ 10 :: g))
  | slashes {l g : Str} : (∀ c ∈ l, c ≠ 10) → Blank g → Blank (bs "//" ++ (l ++ 10 :: g))
  | block {m g : Str} : (∀ a b, m ≠ a ++ bs "*/" ++ b) → Blank g → Blank (bs "/*" ++ (m ++ (bs "*/" ++ g)))

/-- The same at the end of a text, where the last line need not be ended. -/
inductive BlankEnd : Str → Prop where
  | blank {g : Str} : Blank g → BlankEnd g
  | dashes {g l : Str} : Blank g → (∀ c ∈ l, c ≠ 10) → BlankEnd (g ++ (bs "--" ++ l))
  | slashes {g l : Str} : Blank g → (∀ c ∈ l, c ≠ 10) → BlankEnd (g ++ (bs "//" ++ l))

/-- The tokens the grammar sees (vfilter.go:187-190). -/
def words (s : Str) : Option (List Tok) := (lex s).map dropComments

theorem ws_of {c : UInt8} (h : c ∈ ([32, 9, 10, 12, 13] : Str)) : isWS c = true := by
  simp only [List.mem_cons, List.not_mem_nil, or_false] at h
  rcases h with rfl | rfl | rfl | rfl | rfl <;> rfl

theorem line_take {l g : Str} (hl : ∀ c ∈ l, c ≠ 10) :
    (l ++ 10 :: g).takeWhile (· != 10) = l ∧ (l ++ 10 :: g).dropWhile (· != 10) = 10 :: g := by
  induction l with
  | nil => simp
  | cons c l ih =>
    have := ih fun c hc => hl c (by simp [hc])
    have hc := hl c (by simp)
    simp [hc, this]

theorem line_take_end {l : Str} (hl : ∀ c ∈ l, c ≠ 10) :
    l.takeWhile (· != 10) = l ∧ l.dropWhile (· != 10) = [] := by
  induction l with
  | nil => simp
  | cons c l ih =>
    have := ih fun c hc => hl c (by simp [hc])
    have hc := hl c (by simp)
    simp [hc, this]

theorem upTo_block {g : Str} : ∀ {m : Str}, (∀ a b, m ≠ a ++ bs "*/" ++ b) →
    upTo (bs "*/") (m ++ (bs "*/" ++ g)) = some (m ++ bs "*/", g)
  | [], h => rfl
  | c :: m, h => by
    have ih := upTo_block (g := g) (m := m) (fun a b e => h (c :: a) b (by rw [e]; rfl))
    have hp : (bs "*/").isPrefixOf (c :: (m ++ (bs "*/" ++ g))) = false := by
      rw [Bool.eq_false_iff]
      intro hp
      obtain ⟨x, hx⟩ := List.isPrefixOf_iff_prefix.1 hp
      cases m with
      | nil =>
        have : 42 :: 47 :: x = c :: 42 :: 47 :: g := hx
        simp at this
      | cons d m =>
        have : 42 :: 47 :: x = c :: d :: (m ++ (bs "*/" ++ g)) := hx
        simp only [List.cons.injEq] at this
        exact h [] m (by rw [← this.1, ← this.2.1]; rfl)
    rw [List.cons_append, upTo, if_neg (by simp [hp]), ih]
    rfl

theorem words_step {k : TK} {m r : Str} (hk : IsCom k) (hm : m ≠ []) (h : firstRule rules (m ++ r) = some (k, m, r)) :
    words (m ++ r) = words r := by
  have hs : k ≠ .space := by rintro rfl; rcases hk with h | h | h <;> cases h
  unfold words
  rw [lex_step h hm, if_neg hs]
  cases lex r with
  | none => rfl
  | some ts =>
    have : (mkTok k m).kind = k := by unfold mkTok; split <;> rfl
    simp only [Option.map_some, dropComments]
    rw [List.filter_cons_of_neg]
    rw [this]
    rcases hk with rfl | rfl | rfl <;> simp

/-- Blanks and comments in front of a text are not seen. -/
theorem words_blank {g : Str} (h : Blank g) (r : Str) : words (g ++ r) = words r := by
  induction h with
  | nil => rfl
  | ws hc _ ih =>
    rw [List.cons_append]
    unfold words at ih ⊢
    rw [lex_blank (ws_of hc)]
    exact ih
  | @dashes l g hl _ ih =>
    have e : bs "--" ++ (l ++ 10 :: g) ++ r = (bs "--" ++ l) ++ (10 :: (g ++ r)) := by simp
    rw [e, words_step (k := .vqlComment) (.inr (.inr rfl)) (by rw [show bs "--" = [45, 45] from rfl]; simp)]
    · unfold words at ih ⊢
      rw [lex_blank rfl]
      exact ih
    · have h1 : lineFrom (bs "--") ((bs "--" ++ l) ++ (10 :: (g ++ r))) = some (bs "--" ++ l, 10 :: (g ++ r)) := by
        have hl2 : ∀ c ∈ bs "--" ++ l, c ≠ 10 := by
          intro c hc
          rcases List.mem_append.1 hc with hc | hc
          · exact (show ∀ c ∈ bs "--", c ≠ (10 : UInt8) by decide) c hc
          · exact hl c hc
        have := line_take (g := g ++ r) hl2
        unfold lineFrom
        rw [if_pos (by rw [List.append_assoc]; exact prefix_app (List.isPrefixOf_iff_prefix.2 (List.prefix_refl _)))]
        rw [span_eq, this.1, this.2]
      show firstRule rules (45 :: 45 :: (l ++ _)) = _
      have h1' : lineFrom (bs "--") (45 :: 45 :: (l ++ (10 :: (g ++ r)))) = some (bs "--" ++ l, 10 :: (g ++ r)) := h1
      simp only [rules, firstRule, h1']
      rfl
  | @slashes l g hl _ ih =>
    have e : bs "//" ++ (l ++ 10 :: g) ++ r = (bs "//" ++ l) ++ (10 :: (g ++ r)) := by simp
    rw [e, words_step (k := .comment) (.inl rfl) (by rw [show bs "//" = [47, 47] from rfl]; simp)]
    · unfold words at ih ⊢
      rw [lex_blank rfl]
      exact ih
    · have h1 : lineFrom (bs "//") ((bs "//" ++ l) ++ (10 :: (g ++ r))) = some (bs "//" ++ l, 10 :: (g ++ r)) := by
        have hl2 : ∀ c ∈ bs "//" ++ l, c ≠ 10 := by
          intro c hc
          rcases List.mem_append.1 hc with hc | hc
          · exact (show ∀ c ∈ bs "//", c ≠ (10 : UInt8) by decide) c hc
          · exact hl c hc
        have := line_take (g := g ++ r) hl2
        unfold lineFrom
        rw [if_pos (by rw [List.append_assoc]; exact prefix_app (List.isPrefixOf_iff_prefix.2 (List.prefix_refl _)))]
        rw [span_eq, this.1, this.2]
      show firstRule rules (47 :: 47 :: (l ++ _)) = _
      have h1' : lineFrom (bs "//") (47 :: 47 :: (l ++ (10 :: (g ++ r)))) = some (bs "//" ++ l, 10 :: (g ++ r)) := h1
      simp only [rules, firstRule, h1']
      rfl
  | @block m g hm _ ih =>
    have e : bs "/*" ++ (m ++ (bs "*/" ++ g)) ++ r = (bs "/*" ++ (m ++ bs "*/")) ++ (g ++ r) := by simp
    rw [e, words_step (k := .mlComment) (.inr (.inl rfl)) (by rw [show bs "/*" = [47, 42] from rfl]; simp)]
    · exact ih
    · have h1 : delimited (bs "/*") (bs "*/") (47 :: 42 :: (m ++ (bs "*/" ++ (g ++ r)))) =
          some (bs "/*" ++ (m ++ bs "*/"), g ++ r) := by
        have := upTo_block (g := g ++ r) hm
        unfold delimited
        rw [if_pos (by rfl)]
        show (upTo (bs "*/") (m ++ (bs "*/" ++ (g ++ r)))).map _ = _
        rw [this]
        rfl
      have e2 : (bs "/*" ++ (m ++ bs "*/")) ++ (g ++ r) = 47 :: 42 :: (m ++ (bs "*/" ++ (g ++ r))) := by
        rw [show bs "/*" = [47, 42] from rfl]; simp
      rw [e2]
      simp only [rules, firstRule, h1]
      rfl

theorem words_end {g : Str} (h : BlankEnd g) : words g = some [] := by
  cases h with
  | blank h => have := words_blank h []; rw [List.append_nil] at this; rw [this]; rfl
  | @dashes g l h hl =>
    rw [words_blank h]
    have h1 : lineFrom (bs "--") (45 :: 45 :: l) = some (bs "--" ++ l, []) := by
      have hl2 : ∀ c ∈ bs "--" ++ l, c ≠ 10 := by
        intro c hc
        rcases List.mem_append.1 hc with hc | hc
        · exact (show ∀ c ∈ bs "--", c ≠ (10 : UInt8) by decide) c hc
        · exact hl c hc
      have := line_take_end hl2
      unfold lineFrom
      rw [if_pos (show (bs "--").isPrefixOf (45 :: 45 :: l) = true from List.isPrefixOf_iff_prefix.2 ⟨l, rfl⟩)]
      show some ((bs "--" ++ l).span (· != 10)) = _
      rw [span_eq, this.1, this.2]
    have h2 : firstRule rules (bs "--" ++ l ++ []) = some (.vqlComment, bs "--" ++ l, []) := by
      rw [List.append_nil]
      show firstRule rules (45 :: 45 :: l) = _
      simp only [rules, firstRule, h1]
      rfl
    have := words_step (.inr (.inr rfl)) (by rw [show bs "--" = [45, 45] from rfl]; simp) h2
    rw [List.append_nil] at this
    rw [this]; rfl
  | @slashes g l h hl =>
    rw [words_blank h]
    have h1 : lineFrom (bs "//") (47 :: 47 :: l) = some (bs "//" ++ l, []) := by
      have hl2 : ∀ c ∈ bs "//" ++ l, c ≠ 10 := by
        intro c hc
        rcases List.mem_append.1 hc with hc | hc
        · exact (show ∀ c ∈ bs "//", c ≠ (10 : UInt8) by decide) c hc
        · exact hl c hc
      have := line_take_end hl2
      unfold lineFrom
      rw [if_pos (show (bs "//").isPrefixOf (47 :: 47 :: l) = true from List.isPrefixOf_iff_prefix.2 ⟨l, rfl⟩)]
      show some ((bs "//" ++ l).span (· != 10)) = _
      rw [span_eq, this.1, this.2]
    have h2 : firstRule rules (bs "//" ++ l ++ []) = some (.comment, bs "//" ++ l, []) := by
      rw [List.append_nil]
      show firstRule rules (47 :: 47 :: l) = _
      simp only [rules, firstRule, h1]
      rfl
    have := words_step (.inl rfl) (by rw [show bs "//" = [47, 47] from rfl]; simp) h2
    rw [List.append_nil] at this
    rw [this]; rfl

/-! ## Pieces of a text -/

/-- A piece of a text that can be read on its own, such as `SELECT`, `f(a=1)` or `a.b + 'x y'`: it
is not cut off within a word, and contains no comments and no long string or comment that is
opened and not closed. -/
structure Piece (w : Str) : Prop where
  reads : lex w ≠ none
  plain : ∀ ts, lex w = some ts → ∀ t ∈ ts, t.kind ≠ .comment ∧ t.kind ≠ .mlComment ∧ t.kind ≠ .vqlComment
  closed : ∀ ts, lex w = some ts → Calm ts

/-- Pieces, each followed by something blank, as one text. -/
def spread : List (Str × Str) → Str
  | [] => []
  | (w, g) :: r => w ++ (g ++ spread r)

/-- Nothing blank has been left out between two pieces, apart from the last: it starts with a blank
or a line break. -/
def Spaced : List (Str × Str) → Prop
  | [] => True
  | [(_, g)] => g = [] ∨ (∃ c g', g = c :: g' ∧ c ∈ ([32, 9, 10, 12, 13] : Str) ∧ BlankEnd g')
  | (_, g) :: r => (∃ c g', g = c :: g' ∧ c ∈ ([32, 9, 10, 12, 13] : Str) ∧ Blank g') ∧ Spaced r

/-- No piece that ends with the letters GROUP or ORDER stands in front of the word BY. -/
def NoSplitBy : List (Str × Str) → Prop
  | [] => True
  | (w, g) :: r => (EndsGO w → keyword (bs "BY") ((g ++ spread r).dropWhile isWS) = none) ∧ NoSplitBy r

theorem words_piece {w : Str} (hw : Piece w) {c : UInt8} {g : Str} (hc : isWS c = true)
    (hB : EndsGO w → keyword (bs "BY") ((c :: g).dropWhile isWS) = none) :
    words (w ++ c :: g) = (words g).bind fun ts => (words w).map (· ++ ts) := by
  cases hl : lex w with
  | none => exact absurd hl hw.reads
  | some ts =>
    have hp := hw.plain ts hl
    have := lex_gap hc (q := g) w.length w ts (Nat.le_refl _)
      (fun h => by have := hB h; rwa [List.dropWhile_cons_of_pos hc] at this) hl (hw.closed ts hl)
      (fun t ht h => by obtain ⟨a, b, d⟩ := hp t ht; rcases h with h | h | h <;> contradiction)
    unfold words
    rw [this, hl]
    cases lex g with
    | none => rfl
    | some us => simp [dropComments]

theorem words_spread : ∀ l : List (Str × Str), (∀ p ∈ l, Piece p.1) → Spaced l → NoSplitBy l →
    words (spread l) = some ((l.map fun p => (words p.1).getD []).flatten)
  | [], _, _, _ => rfl
  | [(w, g)], hw, hs, hn => by
    have hw := hw (w, g) (by simp)
    simp only [spread, List.append_nil]
    rcases hs with rfl | ⟨c, g', rfl, hc, hg⟩
    · rw [List.append_nil]
      cases hl : lex w with
      | none => exact absurd hl hw.reads
      | some ts => simp [words, hl]
    · have hB := hn.1
      simp only [spread, List.append_nil] at hB
      rw [words_piece hw (ws_of hc) hB, words_end hg]
      cases hl : lex w with
      | none => exact absurd hl hw.reads
      | some ts => simp [words, hl]
  | (w, g) :: p :: r, hw, hs, hn => by
    have hw1 := hw (w, g) (by simp)
    obtain ⟨⟨c, g', rfl, hc, hg⟩, hs2⟩ := hs
    have ih := words_spread (p :: r) (fun p hp => hw p (by simp [hp])) hs2 hn.2
    have e : spread ((w, c :: g') :: p :: r) = w ++ c :: (g' ++ spread (p :: r)) := rfl
    rw [e, words_piece hw1 (ws_of hc) (by simpa using hn.1), words_blank hg, ih]
    cases hl : lex w with
    | none => exact absurd hl hw1.reads
    | some ts => simp [words, hl]

section
variable (lim : Str → Option Int)

theorem parse_words (s : Str) : parse lim s = (words s).bind fun ts => complete (pStmt lim (fuelFor ts)) ts := by
  unfold parse words
  rw [Option.bind_map]
  rfl

theorem multiParse_words (s : Str) :
    multiParse lim s = (words s).bind fun ts => complete (pMulti lim (fuelFor ts)) ts := by
  unfold multiParse words
  rw [Option.bind_map]
  rfl

/-- **C75** Two texts with the same pieces are read as the same statements, or both not at all,
whatever blanks, line breaks and comments stand in front of, between and behind the pieces. -/
theorem C75_spacing {a b : Str} {l l' : List (Str × Str)} (ha : Blank a) (hb : Blank b)
    (hp : ∀ p ∈ l, Piece p.1) (he : l.map Prod.fst = l'.map Prod.fst)
    (hs : Spaced l) (hs' : Spaced l') (hn : NoSplitBy l) (hn' : NoSplitBy l') :
    parse lim (a ++ spread l) = parse lim (b ++ spread l') ∧
    multiParse lim (a ++ spread l) = multiParse lim (b ++ spread l') := by
  have hp' : ∀ p ∈ l', Piece p.1 := by
    intro p hm
    have : p.1 ∈ l.map Prod.fst := by rw [he]; exact List.mem_map.2 ⟨p, hm, rfl⟩
    obtain ⟨q, hq, e⟩ := List.mem_map.1 this
    rw [← e]; exact hp q hq
  have key : words (a ++ spread l) = words (b ++ spread l') := by
    rw [words_blank ha, words_blank hb, words_spread l hp hs hn, words_spread l' hp' hs' hn']
    have := congrArg (List.map fun w => (words w).getD []) he
    rw [List.map_map, List.map_map] at this
    exact congrArg (fun x => some (List.flatten x)) this
  rw [parse_words, parse_words, multiParse_words, multiParse_words, key]
  exact ⟨rfl, rfl⟩
end

/-! ## Any text, one word on each line -/

theorem kw2_parts {v s m r : Str} (h : keyword2 v (bs "BY") s = some (m, r)) :
    ∃ a b y, m = a ++ b ++ y ∧ a.map upper = v ∧ y.map upper = bs "BY" ∧ b ≠ [] ∧ (∀ c ∈ b, isWS c = true) ∧
      atBoundary r = true ∧ foldPrefix v a = some (a, []) ∧ keyword (bs "BY") y = some (y, []) := by
  unfold keyword2 at h
  split at h
  · simp at h
  rename_i a x ha
  split at h
  · simp at h
  rename_i b x' hne hsp
  split at h
  · simp at h
  rename_i y z hy
  simp only [Option.some.injEq, Prod.mk.injEq] at h
  obtain ⟨rfl, rfl⟩ := h
  rw [span_eq] at hsp
  simp only [Prod.mk.injEq] at hsp
  have hk := keyword_some hy
  refine ⟨a, b, y, rfl, fold_caps ha, fold_caps hk.1, ?_, ?_, hk.2, fold_self ha, self_keyword _ _ _ _ hy⟩
  · rintro rfl; exact hne rfl
  · intro c hc
    rw [← hsp.1] at hc
    exact List.all_takeWhile (p := isWS) (l := x) |> List.all_eq_true.1 |> (· c hc)

theorem by_ws {y : Str} (h : y.map upper = bs "BY") : ∃ c t, y = c :: t ∧ isWS c = false := by
  cases y with
  | nil => cases h
  | cons c t =>
    refine ⟨c, t, rfl, ?_⟩
    have hc : upper c = 66 := by
      have h : upper c :: t.map upper = 66 :: [89] := h
      simp only [List.cons.injEq] at h
      exact h.1
    exact isWS_not_word c (by simp [isWord, upper_word c (by rw [hc]; decide)])

theorem takeWhile_self {p : UInt8 → Bool} : ∀ {b : Str}, (∀ c ∈ b, p c = true) → b.takeWhile p = b
  | [], _ => rfl
  | c :: b, h => by rw [List.takeWhile_cons_of_pos (h c (by simp)), takeWhile_self fun d hd => h d (by simp [hd])]

theorem dropWhile_self {p : UInt8 → Bool} : ∀ {b : Str}, (∀ c ∈ b, p c = true) → b.dropWhile p = []
  | [], _ => rfl
  | c :: b, h => by rw [List.dropWhile_cons_of_pos (h c (by simp)), dropWhile_self fun d hd => h d (by simp [hd])]

theorem kw2_self {v a b y : Str} (ha : foldPrefix v a = some (a, [])) (hb : b ≠ []) (hw : ∀ c ∈ b, isWS c = true)
    (hy : y.map upper = bs "BY") (hk : keyword (bs "BY") y = some (y, [])) :
    keyword2 v (bs "BY") (a ++ b ++ y) = some (a ++ b ++ y, []) := by
  have h1 := fold_some (r := b ++ y) ha
  obtain ⟨c, t, rfl, hc⟩ := by_ws hy
  have h2 : (b ++ c :: t).span isWS = (b, c :: t) := by
    have := takeWhile_app (p := isWS) (r := c :: t) (by simp [headNot, hc]) b
    rw [span_eq, this.1, this.2, takeWhile_self hw, dropWhile_self hw]
    rfl
  unfold keyword2
  rw [List.append_assoc, h1]
  simp only [List.nil_append]
  rw [h2]
  cases b with
  | nil => exact absurd rfl hb
  | cons d b => simp only [hk, List.append_assoc]

theorem kw2_head {m r : Str} (hr : atBoundary r = true) (h : firstRule (rules.take 18) (m ++ r) = none) :
    firstRule (rules.take 18) m = none := by
  rw [first_none] at h ⊢
  intro p hp
  have h := h p hp
  simp only [rules, List.take, List.mem_cons, List.not_mem_nil, or_false] at hp
  rcases hp with rfl | rfl | rfl | rfl | rfl | rfl | rfl | rfl | rfl | rfl | rfl | rfl | rfl | rfl |
    rfl | rfl | rfl | rfl
  all_goals first
    | exact mono_many1 _ _ _ h | exact mono_delimited _ _ _ _ h | exact mono_lineFrom _ _ _ h
    | exact mono_keyword (by decide) _ hr h | exact mono_amp _ _ h

theorem group_tok {s m r : Str} (h : firstRule rules s = some (.groupBy, m, r)) : IsTok .groupBy m := by
  have h1 := rule_of h 18 (f := keyword2 (bs "GROUP") (bs "BY")) (by simp [rules])
  have h0 := first_take 18 h
  rw [first_split h] at h0
  obtain ⟨a, b, y, rfl, _, hy, hb, hw, hr, ha, hk⟩ := kw2_parts h1
  exact isTok_of 18 _ rfl (kw2_head hr h0) (kw2_self ha hb hw hy hk)

theorem order_tok {s m r : Str} (h : firstRule rules s = some (.orderBy, m, r)) : IsTok .orderBy m := by
  have h1 := rule_of h 19 (f := keyword2 (bs "ORDER") (bs "BY")) (by simp [rules])
  have h0 := first_take 18 h
  rw [first_split h] at h0
  obtain ⟨a, b, y, rfl, hu, hy, hb, hw, hr, ha, hk⟩ := kw2_parts h1
  refine isTok_of 19 _ rfl ?_ (kw2_self ha hb hw hy hk)
  show firstRule (rules.take 18 ++ [(.groupBy, keyword2 (bs "GROUP") (bs "BY"))]) _ = none
  rw [first_append, kw2_head hr h0]
  have : keyword2 (bs "GROUP") (bs "BY") (a ++ b ++ y) = none := by
    cases a with
    | nil => cases hu
    | cons c t =>
      have hc : upper c = 79 := by
        have hu : upper c :: t.map upper = 79 :: bs "RDER" := hu
        simp only [List.cons.injEq] at hu
        exact hu.1
      have hf : foldPrefix (bs "GROUP") (c :: (t ++ b ++ y)) = none := by
        rw [show bs "GROUP" = 71 :: bs "ROUP" from rfl, foldPrefix, hc]; rfl
      unfold keyword2
      rw [List.cons_append, List.cons_append, hf]
  simp only [firstRule, this]
  rfl

theorem op_tok {s m r : Str} (h : firstRule rules s = some (.op, m, r)) : IsTok .op m := by
  have h1 := rule_of h 25 (f := operator) (by simp [rules])
  unfold operator at h1
  split at h1
  · rename_i hc
    simp only [Option.some.injEq, Prod.mk.injEq] at h1
    rw [h1.1] at hc
    have : ∀ m ∈ ops2, IsTok .op m := by decide
    exact this m (by simpa using hc)
  · split at h1
    · rename_i c x
      split at h1
      · rename_i hc
        simp only [Option.some.injEq, Prod.mk.injEq] at h1
        rw [← h1.1]
        have : ∀ c ∈ ops1, IsTok .op [c] := by decide
        exact this _ (by simpa using hc)
      · simp at h1
    · simp at h1

/-- A word that a rule finds is a word on its own. -/
theorem tok_alone {k : TK} {s m r : Str} (hs : k ≠ .space) (hk : ¬ IsCom k) (h : firstRule rules s = some (k, m, r)) :
    IsTok k m := by
  cases k with
  | space => exact absurd rfl hs
  | mlComment => exact absurd (.inr (.inl rfl)) hk
  | vqlComment => exact absurd (.inr (.inr rfl)) hk
  | comment => exact absurd (.inl rfl) hk
  | explain => exact kw_tok 4 _ rfl (by decide) (w := bs "EXPLAIN") (by decide) h (by decide) (by simp [rules])
  | select => exact kw_tok 5 _ rfl (by decide) (w := bs "SELECT") (by decide) h (by decide) (by simp [rules])
  | where_ => exact kw_tok 6 _ rfl (by decide) (w := bs "WHERE") (by decide) h (by decide) (by simp [rules])
  | and_ => exact and_tok h
  | or_ => exact or_tok h
  | altOr => exact bar_tok h
  | altAnd => exact amp_tok h
  | from_ => exact kw_tok 11 _ rfl (by decide) (w := bs "FROM") (by decide) h (by decide) (by simp [rules])
  | not_ => exact kw_tok 12 _ rfl (by decide) (w := bs "NOT") (by decide) h (by decide) (by simp [rules])
  | as_ => exact kw_tok 13 _ rfl (by decide) (w := bs "AS") (by decide) h (by decide) (by simp [rules])
  | in_ => exact kw_tok 14 _ rfl (by decide) (w := bs "IN") (by decide) h (by decide) (by simp [rules])
  | limit => exact kw_tok 15 _ rfl (by decide) (w := bs "LIMIT") (by decide) h (by decide) (by simp [rules])
  | null => exact kw_tok 16 _ rfl (by decide) (w := bs "NULL") (by decide) h (by decide) (by simp [rules])
  | desc => exact kw_tok 17 _ rfl (by decide) (w := bs "DESC") (by decide) h (by decide) (by simp [rules])
  | groupBy => exact group_tok h
  | orderBy => exact order_tok h
  | bool => exact bool_tok h
  | let_ => exact kw_tok 21 _ rfl (by decide) (w := bs "LET") (by decide) h (by decide) (by simp [rules])
  | number => exact num_tok h
  | ident => exact ident_tok h
  | symIdent => exact sym_tok h
  | op => exact op_tok h
  | mlString => exact ml_tok h
  | string => exact str_tok h

/-- The token of a word, read on its own. -/
theorem lex_alone {k : TK} {s m r : Str} (hs : k ≠ .space) (hk : ¬ IsCom k) (hm : m ≠ [])
    (h : firstRule rules s = some (k, m, r)) : lex (mkTok k m).text = some [mkTok k m] := by
  have key : ∀ {t : Str}, t ≠ [] → IsTok k t → lex t = some [mkTok k t] := by
    intro t ht h
    rw [lex_step h ht, if_neg hs]
    rfl
  by_cases hu : k = .in_ ∨ k = .desc
  · have ht : (mkTok k m).text = m.map upper ∧ mkTok k (m.map upper) = mkTok k m ∧ IsTok k (m.map upper) := by
      rcases hu with rfl | rfl
      · have h1 := rule_of h 14 (f := keyword (bs "IN")) (by simp [rules])
        have := fold_caps (keyword_some h1).1
        refine ⟨by rfl, ?_, ?_⟩
        · simp only [mkTok]; rw [this]; rfl
        · rw [this]; decide
      · have h1 := rule_of h 17 (f := keyword (bs "DESC")) (by simp [rules])
        have := fold_caps (keyword_some h1).1
        refine ⟨by rfl, ?_, ?_⟩
        · simp only [mkTok]; rw [this]; rfl
        · rw [this]; decide
    rw [ht.1, key (by simpa using hm) ht.2.2, ht.2.1]
  · have e : mkTok k m = ⟨k, m⟩ := if_neg hu
    rw [e, ← e]
    simp only [e]
    rw [key hm (tok_alone hs hk h), e]

theorem mkTok_kind (k : TK) (m : Str) : (mkTok k m).kind = k := by unfold mkTok; split <;> rfl

theorem lex_words : ∀ (n : Nat) (s : Str) (ts : List Tok), s.length ≤ n → lex s = some ts →
    ∀ t ∈ ts, ¬ IsCom t.kind → lex t.text = some [t]
  | 0, s, ts, hn, h, t, ht, hc => by
    have : s = [] := List.eq_nil_of_length_eq_zero (Nat.le_zero.1 hn)
    subst this
    have : ts = [] := by rw [lex_nil] at h; simpa using h.symm
    subst this; simp at ht
  | n + 1, s, ts, hn, h, t, ht, hc => by
    cases s with
    | nil =>
      have : ts = [] := by rw [lex_nil] at h; simpa using h.symm
      subst this; simp at ht
    | cons d s =>
      by_cases hw : isWS d = true
      · rw [lex_blank hw] at h
        exact lex_words n s ts (by simpa using hn) h t ht hc
      · obtain ⟨k, m, r, us, hf, hm, hk, hr, rfl, hl⟩ := lex_inv h (by simpa using hw)
        rcases List.mem_cons.1 ht with rfl | ht
        · rw [mkTok_kind] at hc
          exact lex_alone hk hc hm hf
        · have hl2 : r.length ≤ n := by
            have := congrArg List.length (first_split hf)
            have : 0 < m.length := List.length_pos_iff.2 hm
            simp only [List.length_cons, List.length_append] at *
            omega
          exact lex_words n r us hl2 hr t ht hc

/-- The words of a text, each followed by a line break and nothing else. -/
def onePerLine (ts : List Tok) : Str := (ts.map fun t => t.text ++ [10]).flatten

/-- No word that ends with the letters GROUP or ORDER stands in front of the word BY. -/
def NoBy : List Tok → Prop
  | [] => True
  | [_] => True
  | a :: b :: r => (EndsGO a.text → b.text.map upper ≠ bs "BY") ∧ NoBy (b :: r)

theorem b_head {c : UInt8} (h : upper c = 66) (s : Str) : firstRule (rules.take 23) (c :: s) = none := by
  have : c = 66 ∨ c = 98 := by
    unfold upper at h
    split at h
    · right
      have : c = c - 32 + 32 := by simp
      rw [h] at this; exact this
    · exact .inl h
  rcases this with rfl | rfl <;> rfl

theorem by_word {t x : Str} {k : Tok} (hl : lex t = some [k]) (he : k.text = t)
    (hk : keyword (bs "BY") (t ++ 10 :: x) ≠ none) : t.map upper = bs "BY" := by
  have ha := app_keyword (w := bs "BY") t (r := 10 :: x) rfl (by decide)
  unfold App at ha
  rw [ha] at hk
  cases h : keyword (bs "BY") t with
  | none => rw [h] at hk; exact absurd rfl hk
  | some p =>
    obtain ⟨m, y⟩ := p
    have hs := keyword_some h
    have hu := fold_caps hs.1
    have hsp := splits_fold _ _ _ _ hs.1
    have hm : ∀ c ∈ m, isLetter c = true := fold_word (by decide) hs.1
    obtain ⟨c, d, rfl⟩ : ∃ c d, m = c :: d := by
      cases m with
      | nil => cases hu
      | cons c d => exact ⟨c, d, rfl⟩
    have hc : upper c = 66 := by
      have h : upper c :: d.map upper = 66 :: [89] := hu
      simp only [List.cons.injEq] at h
      exact h.1
    have hi : identifier t = some (c :: d, y) := by
      have hdw : ∀ e ∈ d, isWord e = true := fun e he => by simp [isWord, hm e (by simp [he])]
      have hy : headNot isWord y = true := by
        cases y with
        | nil => rfl
        | cons e y => simpa [headNot, atBoundary] using hs.2
      have := takeWhile_app (p := isWord) hy d
      rw [hsp]
      simp only [List.cons_append, identifier, hm c (by simp), if_true, span_eq]
      rw [this.1, this.2, takeWhile_self hdw, dropWhile_self hdw]
      rfl
    have hf : firstRule rules t = some (.ident, c :: d, y) := by
      rw [rules_split 23, first_append, show t = c :: (d ++ y) from hsp, b_head hc,
        ← List.cons_append, ← hsp]
      show firstRule ((.ident, identifier) :: _) t = _
      simp only [firstRule, hi]
    rw [lex_step hf (by simp), if_neg (by decide)] at hl
    simp only [Option.map_eq_some_iff] at hl
    obtain ⟨us, _, hl⟩ := hl
    have : k = mkTok .ident (c :: d) := by
      simp only [List.cons.injEq] at hl; exact hl.1.symm
    have ht : t = c :: d := by rw [← he, this]; rfl
    rw [ht]; exact hu


theorem lex_len : ∀ (n : Nat) (s : Str) (ts : List Tok), s.length ≤ n → lex s = some ts →
    ∀ t ∈ ts, t.text.length ≤ s.length
  | 0, s, ts, hn, h, t, ht => by
    have : s = [] := List.eq_nil_of_length_eq_zero (Nat.le_zero.1 hn)
    subst this
    have : ts = [] := by rw [lex_nil] at h; simpa using h.symm
    subst this; simp at ht
  | n + 1, s, ts, hn, h, t, ht => by
    cases s with
    | nil =>
      have : ts = [] := by rw [lex_nil] at h; simpa using h.symm
      subst this; simp at ht
    | cons d s =>
      by_cases hw : isWS d = true
      · rw [lex_blank hw] at h
        have := lex_len n s ts (by simpa using hn) h t ht
        simp only [List.length_cons]; omega
      · obtain ⟨k, m, r, us, hf, hm, hk, hr, rfl, hl⟩ := lex_inv h (by simpa using hw)
        have hsp := congrArg List.length (first_split hf)
        rcases List.mem_cons.1 ht with rfl | ht
        · have : (mkTok k m).text.length = m.length := by unfold mkTok; split <;> simp
          rw [this, hsp]; simp
        · have : r.length ≤ n := by simp only [List.length_cons] at *; omega
          have := lex_len n r us this hr t ht
          omega

/-- A word does not start with a blank. -/
theorem word_start {t : Tok} (h : lex t.text = some [t]) : ∃ c x, t.text = c :: x ∧ isWS c = false := by
  cases e : t.text with
  | nil => rw [e, lex_nil] at h; simp at h
  | cons c x =>
    refine ⟨c, x, rfl, ?_⟩
    cases hw : isWS c with
    | false => rfl
    | true =>
      rw [e, lex_blank hw] at h
      have := lex_len x.length x _ (Nat.le_refl _) h t (by simp)
      rw [e] at this
      simp at this
      omega

theorem piece_of {t : Tok} (h : lex t.text = some [t]) (hc : ¬ IsCom t.kind) : Piece t.text := by
  refine ⟨by rw [h]; simp, ?_, ?_⟩
  · intro ts e u hu
    rw [h] at e
    simp only [Option.some.injEq] at e
    subst e
    have : u = t := by simpa using hu
    subst this
    exact ⟨fun h => hc (.inl h), fun h => hc (.inr (.inl h)), fun h => hc (.inr (.inr h))⟩
  · intro ts e
    rw [h] at e
    simp only [Option.some.injEq] at e
    subst e
    exact trivial

theorem words_mem {s : Str} {ws : List Tok} (h : words s = some ws) :
    ∀ t ∈ ws, lex t.text = some [t] ∧ ¬ IsCom t.kind := by
  unfold words at h
  simp only [Option.map_eq_some_iff] at h
  obtain ⟨ts, hl, rfl⟩ := h
  intro t ht
  have hm := List.mem_filter.1 ht
  have hc : ¬ IsCom t.kind := by
    rintro (h | h | h) <;> simp [h] at hm
  exact ⟨lex_words s.length s ts (Nat.le_refl _) hl t hm.1 hc, hc⟩

theorem words_alone {s : Str} {ws : List Tok} (h : words s = some ws) :
    (ws.map fun t => (words t.text).getD []).flatten = ws := by
  have key : ∀ l : List Tok, (∀ t ∈ l, lex t.text = some [t] ∧ ¬ IsCom t.kind) →
      (l.map fun t => (words t.text).getD []).flatten = l := by
    intro l
    induction l with
    | nil => intro _; rfl
    | cons t l ih =>
      intro hl
      have ht := hl t (by simp)
      have e : (words t.text).getD [] = [t] := by
        unfold words
        rw [ht.1]
        have : dropComments [t] = [t] := by
          unfold dropComments
          rw [List.filter_cons_of_pos]
          · rfl
          · have hc := ht.2
            unfold IsCom at hc
            simp only [not_or] at hc
            simp [hc.1, hc.2.1, hc.2.2]
        simp [this]
      simp only [List.map_cons, List.flatten_cons, e, ih fun t h => hl t (by simp [h])]
      rfl
  exact key ws (words_mem h)

theorem onePerLine_spread : ∀ ws : List Tok, onePerLine ws = [] ++ spread (ws.map fun t => (t.text, [10]))
  | [] => rfl
  | t :: ws => by
    have := onePerLine_spread ws
    simp only [onePerLine, List.map_cons, List.flatten_cons, spread, List.nil_append, List.append_assoc] at this ⊢
    rw [this]

theorem spaced_lines : ∀ ws : List Tok, Spaced (ws.map fun t => (t.text, [10]))
  | [] => trivial
  | [t] => .inr ⟨10, [], rfl, by decide, .blank .nil⟩
  | t :: u :: ws => ⟨⟨10, [], rfl, by decide, .nil⟩, spaced_lines (u :: ws)⟩

theorem noSplit_lines : ∀ ws : List Tok, (∀ t ∈ ws, lex t.text = some [t]) → NoBy ws →
    NoSplitBy (ws.map fun t => (t.text, [10]))
  | [], _, _ => trivial
  | [t], _, _ => ⟨fun _ => rfl, trivial⟩
  | t :: u :: ws, hl, hb => by
    refine ⟨fun hE => ?_, noSplit_lines (u :: ws) (fun t ht => hl t (by simp [ht])) hb.2⟩
    have hu := hl u (by simp)
    have hne := hb.1 hE
    show keyword (bs "BY") ((10 :: (u.text ++ (10 :: spread (ws.map _)))).dropWhile isWS) = none
    rw [List.dropWhile_cons_of_pos rfl]
    obtain ⟨c, x, e, hc⟩ := word_start hu
    rw [e, List.cons_append, List.dropWhile_cons_of_neg (by simp [hc]), ← List.cons_append, ← e]
    cases hk : keyword (bs "BY") (u.text ++ 10 :: spread (ws.map fun t => (t.text, [10]))) with
    | none => rfl
    | some p => exact absurd (by_word hu rfl (by rw [hk]; simp)) hne

section
variable (lim : Str → Option Int)

/-- **C75** A text whose words are written anew, with blanks, line breaks and comments in other
places, is read as the same statements. -/
theorem C75_rewritten {s a : Str} {ws : List Tok} {l : List (Str × Str)} (h : words s = some ws)
    (hl : l.map Prod.fst = ws.map Tok.text) (ha : Blank a) (hs : Spaced l) (hn : NoSplitBy l) :
    parse lim (a ++ spread l) = parse lim s ∧ multiParse lim (a ++ spread l) = multiParse lim s := by
  have hp : ∀ p ∈ l, Piece p.1 := by
    intro p hm
    have : p.1 ∈ ws.map Tok.text := by rw [← hl]; exact List.mem_map.2 ⟨p, hm, rfl⟩
    obtain ⟨t, ht, e⟩ := List.mem_map.1 this
    rw [← e]
    exact piece_of (words_mem h t ht).1 (words_mem h t ht).2
  have key : words (a ++ spread l) = words s := by
    rw [words_blank ha, words_spread l hp hs hn, h]
    have := congrArg (List.map fun w => (words w).getD []) hl
    rw [List.map_map, List.map_map] at this
    have e : (l.map fun p => (words p.1).getD []).flatten = (ws.map fun t => (words t.text).getD []).flatten :=
      congrArg List.flatten this
    rw [e, words_alone h]
  rw [parse_words, parse_words, multiParse_words, multiParse_words, key]
  exact ⟨rfl, rfl⟩

/-- **C75** Any text, written with one word on each line and no comments, is read as the same
statements. -/
theorem C75_one_per_line {s : Str} {ws : List Tok} (h : words s = some ws) (hb : NoBy ws) :
    parse lim (onePerLine ws) = parse lim s ∧ multiParse lim (onePerLine ws) = multiParse lim s := by
  rw [onePerLine_spread]
  refine C75_rewritten lim (a := []) h (by rw [List.map_map]; rfl) .nil (spaced_lines ws) (noSplit_lines ws ?_ hb)
  exact fun t ht => (words_mem h t ht).1
end


/-! ## What is not so -/

/-- A comment between the words of GROUP BY, where a blank may stand, takes the clause apart. -/
theorem C75_comment_within_group_by_refuted :
    (parse (fun _ => none) (bs "SELECT a FROM b GROUP  BY a")).isSome = true ∧
    parse (fun _ => none) (bs "SELECT a FROM b GROUP /* */ BY a") = none := by
  constructor <;> decide +kernel

/-- A blank that is left out may matter: `a - 1` is a difference, `a -1` and `a-1` are two words
next to each other. -/
theorem C75_blank_left_out_refuted :
    (parse (fun _ => none) (bs "SELECT a - 1 FROM b")).isSome = true ∧
    parse (fun _ => none) (bs "SELECT a -1 FROM b") = none ∧
    parse (fun _ => none) (bs "SELECT a-1 FROM b") = none := by
  refine ⟨?_, ?_, ?_⟩ <;> decide +kernel

/-! ## Examples -/

instance (w : Str) : Decidable (∃ ts, lex w = some ts ∧ (∀ t ∈ ts, t.kind ≠ .comment ∧ t.kind ≠ .mlComment ∧
    t.kind ≠ .vqlComment) ∧ Calm ts) :=
  match h : lex w with
  | none => .isFalse (by rintro ⟨ts, e, _⟩; simp at e)
  | some ts =>
    if h2 : (∀ t ∈ ts, t.kind ≠ .comment ∧ t.kind ≠ .mlComment ∧ t.kind ≠ .vqlComment) ∧ Calm ts then
      .isTrue ⟨ts, rfl, h2⟩
    else .isFalse (by rintro ⟨us, e, h3⟩; simp only [Option.some.injEq] at e; subst e; exact h2 h3)

theorem Piece.of {w : Str} (h : ∃ ts, lex w = some ts ∧ (∀ t ∈ ts, t.kind ≠ .comment ∧ t.kind ≠ .mlComment ∧
    t.kind ≠ .vqlComment) ∧ Calm ts) : Piece w := by
  obtain ⟨ts, e, h1, h2⟩ := h
  refine ⟨by rw [e]; simp, fun us h => ?_, fun us h => ?_⟩ <;>
    (rw [e] at h; simp only [Option.some.injEq] at h; subst h; assumption)

/-- The pieces of a query. -/
example : ∀ w ∈ [bs "SELECT", bs "f(x=a[1].b) + 'x y' AS N,", bs "* FROM info()", bs "WHERE a=1 AND b='it''s'", bs "LIMIT 5"],
    Piece w := by
  have : ∀ w ∈ [bs "SELECT", bs "f(x=a[1].b) + 'x y' AS N,", bs "* FROM info()", bs "WHERE a=1 AND b='it''s'", bs "LIMIT 5"],
      ∃ ts, lex w = some ts ∧ (∀ t ∈ ts, t.kind ≠ .comment ∧ t.kind ≠ .mlComment ∧ t.kind ≠ .vqlComment) ∧ Calm ts := by
    decide +kernel
  exact fun w h => Piece.of (this w h)

/-- A gap: a blank, a line comment and a line break, a long comment. -/
example : Blank (bs " -- it's\n\t/* a ' */") :=
  .ws (by decide) (.dashes (l := bs " it's") (by decide) (.ws (by decide)
    (.block (m := bs " a ' ") (g := []) (by
      intro a b e
      have : (42 : UInt8) ∈ bs " a ' " := by rw [e]; simp [show bs "*/" = [42, 47] from rfl]
      exact absurd this (by decide)) .nil)))

/-- `SELECT a FROM b`, written with a comment, and one word on each line. -/
example : parse (fun _ => none) (bs "SELECT a -- it's\n FROM b") = parse (fun _ => none) (bs "SELECT a FROM b") :=
  (C75_spacing (fun _ => none) (a := []) (b := []) (l := [(bs "SELECT a", bs " -- it's\n "), (bs "FROM b", [])])
    (l' := [(bs "SELECT a", bs " "), (bs "FROM b", [])]) .nil .nil
    (by
      have : ∀ w ∈ [bs "SELECT a", bs "FROM b"], ∃ ts, lex w = some ts ∧
          (∀ t ∈ ts, t.kind ≠ .comment ∧ t.kind ≠ .mlComment ∧ t.kind ≠ .vqlComment) ∧ Calm ts := by
        decide +kernel
      intro p hp
      exact Piece.of (this p.1 (List.mem_map.2 ⟨p, hp, rfl⟩)))
    rfl
    ⟨⟨32, _, rfl, by decide, .dashes (l := bs " it's") (by decide) (.ws (by decide) .nil)⟩, .inl rfl⟩
    ⟨⟨32, [], rfl, by decide, .nil⟩, .inl rfl⟩
    ⟨fun _ => by decide, fun _ => by decide, trivial⟩ ⟨fun _ => by decide, fun _ => by decide, trivial⟩).1

/-- The words of a text. -/
example : ∃ ws, words (bs "SELECT a FROM b WHERE a.c=1 ORDER  by c desc") = some ws ∧
    onePerLine ws = bs "SELECT\na\nFROM\nb\nWHERE\na\n.\nc\n=\n1\nORDER  by\nc\nDESC\n" := by
  exact ⟨_, rfl, by decide +kernel⟩


end Vfilter.Fmt.Spacing
