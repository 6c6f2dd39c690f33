import Verif.StmtLast
import Verif.LexJoin
/-!
# Several statements in one text

The token lists of several statements, with comments between them, are read as those statements;
and the tokens of several lines are those of the lines.
-/

set_option linter.all false

namespace Vfilter.Fmt

/-! ## Tokens -/

/-- A comment of the given kind. -/
def cmt (t : Tok) : Comment :=
  if t.kind = .vqlComment then .vql t.text else if t.kind = .comment then .line t.text else .multi t.text

theorem pComment_ok {t : Tok} (h : t.kind ∈ comKs) (R : List Tok) : pComment (t :: R) = .ok (cmt t) R := by
  obtain ⟨k, s⟩ := t
  simp only [comKs, List.mem_cons, List.not_mem_nil, or_false] at h
  rcases h with h | h | h <;> subst h <;> rfl

theorem comments_read : ∀ (cs R : List Tok) (n : Nat), (∀ t ∈ cs, t.kind ∈ comKs) → Next comKs [] R → cs.length < n →
    many pComment n (cs ++ R) = .ok (cs.map cmt) R
  | [], R, n, _, hR, hn => many_stop (by simpa using hn) (com_fl hR)
  | c :: cs, R, 0, _, _, hn => by simp at hn
  | c :: cs, R, n + 1, hc, hR, hn =>
    many_cons (pComment_ok (hc c (by simp)) _) (comments_read cs R n (fun t ht => hc t (by simp [ht])) hR
      (by simpa using hn))

section
variable (lim : Str → Option Int)

/-- A statement does not start with anything but LET, SELECT or EXPLAIN (or a comment). -/
theorem stmt_head {n : Nat} {ts r : List Tok} {s : CStmt} (hn : 2 ≤ n) (hg : Kins ts) (h : pStmt lim n ts = .ok s r) :
    ∃ t R, ts = t :: R ∧ t.text ∉ opTexts ∧ t.kind ∈ [TK.let_, .select, .explain] := by
  unfold pStmt at h
  rcases alt_inv h with h | h
  · obtain ⟨a, r1, h1, _⟩ := bind_inv h
    have := tok_inv h1
    subst this
    exact ⟨_, _, rfl, (hg _ (by simp)).1 (by simp), by simp⟩
  · unfold P.map at h
    obtain ⟨q, r1, h1, _⟩ := bind_inv h
    cases ts with
    | nil =>
      have := select_fl (lim := lim) (R := []) trivial hn
      rcases this with h2 | h2 <;> rw [h2] at h1 <;> simp at h1
    | cons t R =>
      have hk := hg t (by simp)
      by_cases hk2 : t.kind ∈ [TK.select, .explain]
      · refine ⟨t, R, rfl, hk.1 ?_, List.mem_cons_of_mem _ hk2⟩
        intro e; rw [e] at hk2; revert hk2; decide
      · exfalso
        have := select_fl (lim := lim) (R := t :: R) (n := n) ⟨?_, by simp⟩ hn
        · rcases this with h2 | h2 <;> rw [h2] at h1 <;> simp at h1
        · intro hm
          simp only [List.mem_cons, List.not_mem_nil, or_false] at hm hk2
          rcases hm with hm | hm | hm | hm | hm
          · exact hk2 (.inl hm)
          · exact hk2 (.inr hm)
          all_goals exact hk.2 (by simp [comKs, hm])

/-- The statement itself carries no comments. -/
theorem stmt_bare {n : Nat} {ts r : List Tok} {s : CStmt} (h : pStmt lim n ts = .ok s r) : s.withComments [] = s := by
  unfold pStmt at h
  rcases alt_inv h with h | h
  · obtain ⟨_, _, _, h⟩ := bind_inv h
    obtain ⟨_, _, _, h⟩ := bind_inv h
    obtain ⟨_, _, _, h⟩ := bind_inv h
    obtain ⟨_, _, _, h⟩ := bind_inv h
    obtain ⟨_, _, _, h⟩ := bind_inv h
    simp only [ret, Res.ok.injEq] at h
    rw [← h.1]; rfl
  · unfold P.map at h
    obtain ⟨_, _, _, h⟩ := bind_inv h
    simp only [ret, Res.ok.injEq] at h
    rw [← h.1]; rfl

/-- The tokens of a statement that can be followed by others. -/
structure Whole (ts : List Tok) (s : CStmt) : Prop where
  kin : Kins ts
  reads : pStmt lim (fuelFor ts) ts = .ok s []
  last : ∀ t, ts.getLast? = some t → t.text ≠ bs ","

variable {lim}

theorem Whole.head {ts : List Tok} {s : CStmt} (h : Whole lim ts s) :
    ∃ t R, ts = t :: R ∧ t.text ∉ opTexts ∧ t.kind ∈ [TK.let_, .select, .explain] :=
  stmt_head lim (by unfold fuelFor; omega) h.kin h.reads

theorem Whole.fin {ts : List Tok} {s : CStmt} (h : Whole lim ts s) : Fin ts := by
  refine ⟨fun t ht => (h.kin t ht).2, ?_⟩
  rcases lst_stmt lim _ ts s [] h.kin h.reads with e | ⟨x, u, e, hu⟩
  · obtain ⟨t, R, e2, _⟩ := h.head
    rw [← e] at e2; simp at e2
  · have hl : ts.getLast? = some u := by rw [e]; simp
    refine ⟨u, hl, ?_⟩
    rcases hu with hu | hu
    · exact hu
    · exact absurd hu (h.last u hl)

theorem Whole.bare {ts : List Tok} {s : CStmt} (h : Whole lim ts s) : s.withComments [] = s := stmt_bare lim h.reads

/-- The comments in front of a statement, its tokens and the statement. -/
abbrev Piece := List Tok × List Tok × CStmt

/-- The tokens of some statements and of comments at the end. -/
def strm (ps : List Piece) (tr : List Tok) : List Tok := (ps.flatMap fun p => p.1 ++ p.2.1) ++ tr

/-- How many comments come next. -/
def ahead (ps : List Piece) (tr : List Tok) : Nat :=
  match ps with
  | [] => tr.length
  | p :: _ => p.1.length

/-- Every piece is a whole statement with comments in front, and no statement that ends with a
list has two comments behind it. -/
def Pieces (lim : Str → Option Int) (tr : List Tok) : List Piece → Prop
  | [] => True
  | p :: ps => (∀ t ∈ p.1, t.kind ∈ comKs ∧ t.text ∉ opTexts) ∧ Whole lim p.2.1 p.2.2 ∧
    (stmtEndsList p.2.2 → ahead ps tr ≤ 1) ∧ Pieces lim tr ps

theorem strm_beg_cs : ∀ (cs R : List Tok), (∀ t ∈ cs, t.kind ∈ comKs ∧ t.text ∉ opTexts) → Beg R → Beg (cs ++ R)
  | [], R, _, h => h
  | c :: cs, R, hc, h => ⟨(hc c (by simp)).2, .inr ⟨(hc c (by simp)).1,
      strm_beg_cs cs R (fun t ht => hc t (by simp [ht])) h⟩⟩

theorem strm_beg {tr : List Tok} (ht : ∀ t ∈ tr, t.kind ∈ comKs ∧ t.text ∉ opTexts) {ps : List Piece}
    (h : Pieces lim tr ps) : Beg (strm ps tr) := by
  cases ps with
  | nil =>
    have := strm_beg_cs tr [] ht trivial
    simpa [strm] using this
  | cons p ps =>
    obtain ⟨t, R, e, h1, h2⟩ := h.2.1.head
    have := strm_beg_cs p.1 (p.2.1 ++ strm ps tr) h.1 (by rw [e]; exact ⟨h1, .inl h2⟩)
    simpa [strm] using this

theorem few_of (cs R : List Tok) (hl : cs.length ≤ 1) (hR : Next comKs [] R) : Few (cs ++ R) := by
  cases cs with
  | nil =>
    cases R with
    | nil => trivial
    | cons t R =>
      cases R with
      | nil => trivial
      | cons u R => exact .inl hR.1
  | cons c cs =>
    have : cs = [] := List.length_eq_zero_iff.1 (by simpa using hl)
    subst this
    cases R with
    | nil => trivial
    | cons t R => exact .inr hR.1

theorem Whole.next {ts : List Tok} {s : CStmt} (h : Whole lim ts s) (R : List Tok) : Next comKs [] (ts ++ R) := by
  obtain ⟨t, R1, e, h1, h2⟩ := h.head
  rw [e]
  refine ⟨(h.kin t (by rw [e]; simp)).2, by simp⟩

theorem strm_few {tr : List Tok} (ht : ∀ t ∈ tr, t.kind ∈ comKs ∧ t.text ∉ opTexts) {ps : List Piece}
    (h : Pieces lim tr ps) (ha : ahead ps tr ≤ 1) : Few (strm ps tr) := by
  cases ps with
  | nil =>
    have := few_of tr [] ha trivial
    simpa [strm] using this
  | cons p ps =>
    have := few_of p.1 (p.2.1 ++ strm ps tr) ha (h.2.1.next _)
    simpa [strm] using this

theorem give_with (cs : List Comment) {s : CStmt} (ss : List CStmt) :
    giveComments cs (s.withComments [] :: ss) = s.withComments cs :: ss := by
  cases s <;> simp [giveComments, CStmt.withComments]

/-- The statements are read in order, each with the comments in front of it. -/
theorem multi_strm {tr : List Tok} (ht : ∀ t ∈ tr, t.kind ∈ comKs ∧ t.text ∉ opTexts) :
    ∀ (ps : List Piece) (p : Piece) (n : Nat), Pieces lim tr (p :: ps) → 10 * (strm (p :: ps) tr).length + 3 ≤ n →
      pMulti lim n (strm (p :: ps) tr) =
        .ok ((p :: ps).map fun p => p.2.2.withComments (p.1.map cmt)) [] := by
  intro ps
  induction ps with
  | nil =>
    intro p n h hn
    obtain ⟨cs, ts, s⟩ := p
    obtain ⟨h1, h2, h3, _⟩ := h
    obtain ⟨n, rfl⟩ : ∃ k, n = k + 1 := ⟨n - 1, by omega⟩
    simp only [strm, List.flatMap_cons, List.flatMap_nil, List.append_nil, List.length_append] at hn
    have hts : 0 < ts.length := by
      obtain ⟨t, R, e, _⟩ := h2.head
      simp only at e
      rw [e]; simp
    have es : strm [(cs, ts, s)] tr = cs ++ (ts ++ tr) := by simp [strm]
    have hb : Beg tr := by simpa [strm] using strm_beg ht (ps := []) (lim := lim) trivial
    rw [es]
    simp only [pMulti]
    rw [bind_ok (comments_read cs _ n (fun t htt => (h1 t htt).1) (h2.next tr) (by omega))]
    have hp : pStmt lim n ts = .ok s [] := by
      rw [(stmt_fuel lim ts n (by omega)).2]; exact h2.reads
    have hst : pStmt lim n (ts ++ tr) = .ok s tr := by
      rcases sta_stmt (lim := lim) hb n ts h2.fin with e | e | ⟨a, e, hbad⟩
      · rw [e, hp]; simp [ext]
      · rw [hp] at e; rcases e with e | ⟨_, e, _⟩ <;> simp at e
      · rw [hp] at e
        simp only [Res.ok.injEq, and_true] at e
        subst e
        exact absurd (strm_few (lim := lim) ht (ps := []) trivial (h3 hbad.2)) (by simpa [strm] using hbad.1)
    rw [bind_ok (need_ok hst)]
    have hc := comments_read tr [] n (fun t htt => (ht t htt).1) trivial (by omega)
    rw [List.append_nil] at hc
    rw [bind_ok hc]
    have hm : many (pMulti lim n) n [] = .ok [] [] := by
      refine many_stop (by omega) ?_
      right
      obtain ⟨m, rfl⟩ : ∃ k, n = k + 1 := ⟨n - 1, by omega⟩
      simp only [pMulti]
      rw [bind_ok (many_stop (p := pComment) (by omega) (com_fl (R := []) trivial))]
      have : Fl (pStmt lim m) [] := by
        have hs : pStmt lim m [] = .err [] ∨ pStmt lim m [] = .no := by
          unfold pStmt
          rcases select_fl (lim := lim) (R := []) (n := m) trivial (by omega) with e | e
          · right; simp [alt, P.bind, tok, P.map, e]
          · left; simp [alt, P.bind, tok, P.map, e, tooFar]
        exact hs.symm
      simp only [P.bind, this.need]
    rw [bind_ok hm]
    simp [ret, giveComments]
  | cons q ps ih =>
    intro p n h hn
    obtain ⟨cs, ts, s⟩ := p
    obtain ⟨cs1, ts1, s1⟩ := q
    obtain ⟨h1, h2, h3, h4⟩ := h
    obtain ⟨n, rfl⟩ : ∃ k, n = k + 1 := ⟨n - 1, by omega⟩
    have es : strm ((cs, ts, s) :: (cs1, ts1, s1) :: ps) tr = cs ++ (ts ++ (cs1 ++ strm (([], ts1, s1) :: ps) tr)) := by
      simp [strm]
    have e1 : strm ((cs1, ts1, s1) :: ps) tr = cs1 ++ strm (([], ts1, s1) :: ps) tr := by simp [strm]
    rw [es] at hn ⊢
    simp only [List.length_append] at hn
    have hts : 0 < ts.length := by
      obtain ⟨t, R, e, _⟩ := h2.head
      simp only at e
      rw [e]; simp
    have hb := strm_beg ht h4
    rw [e1] at hb
    simp only [pMulti]
    rw [bind_ok (comments_read cs _ n (fun t htt => (h1 t htt).1) (h2.next _) (by omega))]
    have hp : pStmt lim n ts = .ok s [] := by
      rw [(stmt_fuel lim ts n (by omega)).2]; exact h2.reads
    have hst : pStmt lim n (ts ++ (cs1 ++ strm (([], ts1, s1) :: ps) tr)) =
        .ok s (cs1 ++ strm (([], ts1, s1) :: ps) tr) := by
      rcases sta_stmt (lim := lim) hb n ts h2.fin with e | e | ⟨a, e, hbad⟩
      · rw [e, hp]; simp [ext]
      · rw [hp] at e; rcases e with e | ⟨_, e, _⟩ <;> simp at e
      · rw [hp] at e
        simp only [Res.ok.injEq, and_true] at e
        subst e
        have := strm_few ht h4 (h3 hbad.2)
        rw [e1] at this
        exact absurd this hbad.1
    rw [bind_ok (need_ok hst)]
    have hnx : Next comKs [] (strm (([], ts1, s1) :: ps) tr) := by
      have := h4.2.1.next (strm ps tr)
      simpa [strm] using this
    rw [bind_ok (comments_read cs1 _ n (fun t htt => (h4.1 t htt).1) hnx (by omega))]
    have hrec := ih ([], ts1, s1) n ⟨by simp, h4.2.1, h4.2.2.1, h4.2.2.2⟩ (by omega)
    have hfl : Fl (pMulti lim n) [] := by
      right
      obtain ⟨m, rfl⟩ : ∃ k, n = k + 1 := ⟨n - 1, by omega⟩
      simp only [pMulti]
      rw [bind_ok (many_stop (p := pComment) (by omega) (com_fl (R := []) trivial))]
      have : Fl (pStmt lim m) [] := by
        have hs : pStmt lim m [] = .err [] ∨ pStmt lim m [] = .no := by
          unfold pStmt
          rcases select_fl (lim := lim) (R := []) (n := m) trivial (by omega) with e | e
          · right; simp [alt, P.bind, tok, P.map, e]
          · left; simp [alt, P.bind, tok, P.map, e, tooFar]
        exact hs.symm
      simp only [P.bind, this.need]
    rw [bind_ok (many_one (by omega) hrec hfl)]
    simp only [ret, List.getLast?_singleton, Option.getD_some, List.map_cons, List.map_nil]
    rw [give_with]

/-- A complete input. -/
theorem multi_complete {tr : List Tok} (ht : ∀ t ∈ tr, t.kind ∈ comKs ∧ t.text ∉ opTexts) {ps : List Piece}
    (hne : ps ≠ []) (h : Pieces lim tr ps) :
    complete (pMulti lim (fuelFor (strm ps tr))) (strm ps tr) =
      some (ps.map fun p => p.2.2.withComments (p.1.map cmt)) := by
  cases ps with
  | nil => exact absurd rfl hne
  | cons p ps =>
    unfold complete
    rw [multi_strm ht ps p _ h (by unfold fuelFor; omega)]
end

/-! ## Lines -/

/-- Every line is followed by a line break. -/
def onLines (ls : List Str) : Str := ls.flatMap fun l => l ++ [10]

/-- A text that starts with such a token does not start with BY. -/
theorem noB_beg : ∀ {q : Str} {ts : List Tok}, lex q = some ts → (∀ t, ts.head? = some t → t.kind ∈ begKs) → noB q = true
  | [], ts, _, _ => rfl
  | c :: q, ts, h, hk => by
    by_cases hc : isWS c = true
    · rw [lex_blank hc] at h
      have := noB_beg h hk
      unfold noB at this ⊢
      rw [List.dropWhile_cons_of_pos hc]
      exact this
    · rw [Bool.not_eq_true] at hc
      obtain ⟨k, m, r, ts', h1, h2, h3, h4, rfl, h5⟩ := lex_inv h hc
      have hk := hk _ rfl
      have hkind : (mkTok k m).kind = k := by unfold mkTok; split <;> rfl
      rw [hkind] at hk
      unfold noB
      rw [List.dropWhile_cons_of_neg (by simp [hc])]
      simp only
      have key : ∀ {w : Str} {a : UInt8}, keyword (a :: w) (c :: q) = some (m, r) → a ≠ 66 → (upper c != 66) = true := by
        intro w a hw ha
        have := (keyword_some hw).1
        simp only [foldPrefix] at this
        split at this
        · rename_i e; rw [e]; simpa using ha
        · simp at this
      have line : ∀ {a : UInt8}, lineFrom [a, a] (c :: q) = some (m, r) → upper a ≠ 66 → (upper c != 66) = true := by
        intro a hw ha
        unfold lineFrom at hw
        split at hw
        · rename_i hp
          simp only [List.isPrefixOf, Bool.and_eq_true, beq_iff_eq] at hp
          rw [← hp.1]; simpa using ha
        · simp at hw
      simp only [begKs, List.mem_cons, List.not_mem_nil, or_false] at hk
      rcases hk with rfl | rfl | rfl | rfl | rfl | rfl
      · exact key (w := bs "ET") (a := 76) (rule_of h1 21 (f := keyword (bs "LET")) (by simp [rules])) (by decide)
      · exact key (w := bs "ELECT") (a := 83) (rule_of h1 5 (f := keyword (bs "SELECT")) (by simp [rules])) (by decide)
      · exact key (w := bs "XPLAIN") (a := 69) (rule_of h1 4 (f := keyword (bs "EXPLAIN")) (by simp [rules])) (by decide)
      · exact line (a := 45) (rule_of h1 2 (f := lineFrom (bs "--")) (by simp [rules])) (by decide)
      · exact line (a := 47) (rule_of h1 3 (f := lineFrom (bs "//")) (by simp [rules])) (by decide)
      · have hw := rule_of h1 1 (f := delimited (bs "/*") (bs "*/")) (by simp [rules])
        unfold delimited at hw
        split at hw
        · rename_i hp
          have e : bs "/*" = [47, 42] := rfl
          rw [e] at hp
          simp only [List.isPrefixOf, Bool.and_eq_true, beq_iff_eq] at hp
          rw [← hp.1]; decide
        · simp at hw

/-- The tokens of several lines, each of which starts with a statement or a comment. -/
theorem lex_lines : ∀ (ls : List (Str × List Tok)), (∀ l ∈ ls, lex l.1 = some l.2 ∧ Calm l.2 ∧
      ∃ t R, l.2 = t :: R ∧ t.kind ∈ begKs) →
    lex (onLines (ls.map Prod.fst)) = some (ls.flatMap Prod.snd)
  | [], _ => rfl
  | (l, ts) :: ls, h => by
    have ih := lex_lines ls fun x hx => h x (by simp [hx])
    obtain ⟨h1, h2, _⟩ := h (l, ts) (by simp)
    have hq : noB (onLines (ls.map Prod.fst)) = true := by
      refine noB_beg ih ?_
      intro t ht
      cases ls with
      | nil => simp at ht
      | cons x ls =>
        obtain ⟨_, _, u, R, e, hu⟩ := h x (by simp)
        simp only [List.flatMap_cons, e, List.cons_append, List.head?_cons, Option.some.injEq] at ht
        rw [← ht]; exact hu
    have e : onLines (((l, ts) :: ls).map Prod.fst) = l ++ 10 :: onLines (ls.map Prod.fst) := by
      simp [onLines]
    rw [e, lex_app hq _ l ts (Nat.le_refl _) h1 h2, ih]
    simp

end Vfilter.Fmt
