import Verif.RoundTok
/-!
# The printed tokens are parsed into the printed tree
-/

set_option linter.all false

namespace Vfilter.Fmt

/-! ## Combinators -/

section
variable {α β : Type}

/-- The node does not match and reads nothing. -/
def Fl (p : P α) (ts : List Tok) : Prop := p ts = .no ∨ p ts = .err ts

theorem bind_ok {p : P α} {f : α → P β} {ts r : List Tok} {a : α} (h : p ts = .ok a r) :
    (p.bind f) ts = f a r := by simp [P.bind, h]

theorem map_ok {p : P α} {f : α → β} {ts r : List Tok} {a : α} (h : p ts = .ok a r) :
    (p.map f) ts = .ok (f a) r := by simp [P.map, P.bind, h, ret]

theorem need_ok {p : P α} {ts r : List Tok} {a : α} (h : p ts = .ok a r) : need p ts = .ok a r := by
  simp [need, h]

theorem Fl.need {p : P α} {ts : List Tok} (h : Fl p ts) : need p ts = .err ts := by
  rcases h with h | h <;> simp [Fmt.need, h]

theorem Fl.bind {p : P α} {ts : List Tok} (h : Fl p ts) (f : α → P β) : Fl (p.bind f) ts := by
  rcases h with h | h <;> simp [Fl, P.bind, h]

theorem Fl.map {p : P α} {ts : List Tok} (h : Fl p ts) (f : α → β) : Fl (p.map f) ts := h.bind _

theorem far_self (ts : List Tok) : tooFar ts ts = false := by simp [tooFar]

theorem Fl.alt {p q : P α} {ts : List Tok} (h : Fl p ts) (hq : Fl q ts) : Fl (alt p q) ts := by
  rcases h with h | h <;> rcases hq with hq | hq <;> simp [Fl, Fmt.alt, h, hq, far_self]

theorem alt_ok {p q : P α} {ts r : List Tok} {a : α} (h : p ts = .ok a r) : alt p q ts = .ok a r := by
  simp [alt, h]

theorem alt_skip {p q : P α} {ts r : List Tok} {a : α} (h : Fl p ts) (hq : q ts = .ok a r) :
    alt p q ts = .ok a r := by
  rcases h with h | h <;> simp [alt, h, hq, far_self]

theorem opt_ok {p : P α} {ts r : List Tok} {a : α} (h : p ts = .ok a r) : opt p ts = .ok (some a) r := by
  simp [opt, h]

theorem opt_fl {p : P α} {ts : List Tok} (h : Fl p ts) : opt p ts = .ok none ts := by
  rcases h with h | h <;> simp [opt, h, far_self]

theorem many_cons {p : P α} {ts r R : List Tok} {a : α} {as : List α} {m : Nat} (h : p ts = .ok a r)
    (h2 : many p m r = .ok as R) : many p (m + 1) ts = .ok (a :: as) R := by
  simp [many, h, P.bind, h2, ret]

theorem many_stop {p : P α} {ts : List Tok} {m : Nat} (hm : 0 < m) (h : Fl p ts) :
    many p m ts = .ok [] ts := by
  obtain ⟨k, rfl⟩ : ∃ k, m = k + 1 := ⟨m - 1, by omega⟩
  rcases h with h | h <;> simp [many, h, far_self]

theorem many_one {p : P α} {ts r : List Tok} {a : α} {m : Nat} (hm : 1 < m) (h : p ts = .ok a r)
    (h2 : Fl p r) : many p m ts = .ok [a] r := by
  obtain ⟨k, rfl⟩ : ∃ k, m = k + 1 := ⟨m - 1, by omega⟩
  exact many_cons h (many_stop (by omega) h2)
end

/-! ## What is not ahead -/

/-- The next token is of none of these kinds and has none of these texts. -/
def Next (ks : List TK) (ss : List Str) (R : List Tok) : Prop :=
  match R with
  | [] => True
  | t :: _ => t.kind ∉ ks ∧ t.text ∉ ss

theorem Next.mono {ks ks' : List TK} {ss ss' : List Str} {R : List Tok} (h : Next ks ss R)
    (hk : ks' ⊆ ks := by decide) (hs : ss' ⊆ ss := by decide) : Next ks' ss' R := by
  cases R with
  | nil => trivial
  | cons t R => exact ⟨fun hm => h.1 (hk hm), fun hm => h.2 (hs hm)⟩

theorem tok_ok (k : TK) (t : Str) (ts : List Tok) : tok k (⟨k, t⟩ :: ts) = .ok t ts := by simp [tok]

theorem lit_ok (k : TK) (t : Str) (ts : List Tok) : lit t (⟨k, t⟩ :: ts) = .ok t ts := by simp [lit]

theorem tok_fl {k : TK} {R : List Tok} (h : Next [k] [] R) : Fl (tok k) R := by
  cases R with
  | nil => exact .inl rfl
  | cons t R => exact .inl (by simp only [tok]; rw [if_neg (by simpa using h.1)])

theorem lit_fl {s : Str} {R : List Tok} (h : Next [] [s] R) : Fl (lit s) R := by
  cases R with
  | nil => exact .inl rfl
  | cons t R => exact .inl (by simp only [lit]; rw [if_neg (by simpa using h.2)])

theorem lits_fl {R : List Tok} : ∀ {ss : List Str}, Next [] ss R → Fl (lits ss) R
  | [], _ => .inl rfl
  | s :: ss, h => (lit_fl (h.mono (by simp) (by simp))).alt (lits_fl (h.mono (by simp) (by
      intro x hx; simp [hx])))

/-- The kinds of comments. -/
def comKs : List TK := [.vqlComment, .comment, .mlComment]

theorem com_fl {R : List Tok} (h : Next comKs [] R) : Fl pComment R :=
  ((tok_fl (h.mono)).map _).alt (((tok_fl h.mono).map _).alt ((tok_fl h.mono).map _))

theorem optC_nil {R : List Tok} (h : Next comKs [] R) : optC R = .ok [] R := by
  unfold optC
  rw [map_ok (opt_fl (com_fl h))]
  rfl

theorem isTok_inj {k k' : TK} {t : Str} (h : IsTok k t) (h' : IsTok k' t) : k = k' := by
  unfold IsTok at h h'
  rw [h] at h'
  simpa using h'

/-- The texts of operators. -/
def opTexts : List Str :=
  [bs "<>", bs "<=", bs ">=", bs "=", bs "<", bs ">", bs "!=", bs "=~", bs "+", bs "-", bs "*", bs "/",
    bs "[", bs ".", bs "(", bs ",", bs "]", bs ")", bs "{", bs "}", bs ":"]

theorem op_isTok : ∀ s ∈ opTexts, IsTok .op s := by decide

/-- A token that is no operator has the text of none. -/
theorem not_op {k : TK} {t : Str} (h : IsTok k t) (hk : k ≠ .op) : t ∉ opTexts :=
  fun hm => hk (isTok_inj h (op_isTok t hm))

/-- The kinds of tokens values start with. -/
def valKs : List TK := [.symIdent, .ident, .mlString, .string, .number, .bool, .null]

/-- The token starts a value. -/
def StV (t : Tok) : Prop := (t.kind ∈ valKs ∧ t.text ∉ opTexts) ∨ t = ⟨.op, bs "("⟩

/-- The token starts an expression. -/
def St (t : Tok) : Prop := StV t ∨ t = ⟨.not_, bs "NOT"⟩

theorem StV.next {t : Tok} (h : StV t) (R : List Tok) {ks : List TK} {ss : List Str}
    (hk : ∀ k ∈ ks, k ∉ TK.op :: valKs := by decide) (hs : ∀ s ∈ ss, s ∈ opTexts ∧ s ≠ bs "(" := by decide) :
    Next ks ss (t :: R) := by
  refine ⟨fun hm => ?_, fun hm => ?_⟩
  · rcases h with h | rfl
    · exact hk _ hm (by simp [h.1])
    · exact hk _ hm (by simp)
  · rcases h with h | rfl
    · exact h.2 (hs _ hm).1
    · exact (hs _ hm).2 rfl

theorem St.next {t : Tok} (h : St t) (R : List Tok) {ks : List TK} {ss : List Str}
    (hk : ∀ k ∈ ks, k ∉ TK.op :: TK.not_ :: valKs := by decide)
    (hs : ∀ s ∈ ss, s ∈ opTexts ∧ s ≠ bs "(" := by decide) : Next ks ss (t :: R) := by
  rcases h with h | rfl
  · refine h.next R (fun k hm hmem => hk k hm ?_) hs
    simp only [List.mem_cons] at hmem ⊢
    rcases hmem with h | h <;> simp [h]
  · refine ⟨fun hm => hk _ hm (by simp), fun hm => ?_⟩
    have := (hs _ hm).1
    exact absurd this (by decide)

/-- The kinds and texts that start an expression, and comments. -/
def startKs : List TK :=
  [.symIdent, .ident, .mlString, .string, .number, .bool, .null, .not_, .vqlComment, .comment, .mlComment]

/-- No expression starts here. -/
def NS (R : List Tok) : Prop := Next startKs [bs "("] R

section
variable {lim : Str → Option Int}

theorem sym_fl {R : List Tok} (h : Next [.symIdent, .ident, .vqlComment, .comment, .mlComment] [] R) {n : Nat} (hn : 1 ≤ n) : Fl (pSym lim n) R := by
  obtain ⟨n, rfl⟩ : ∃ k, n = k + 1 := ⟨n - 1, by omega⟩
  right
  rw [pSym, bind_ok (optC_nil (Next.mono h))]
  have : Fl (dotted (alt (tok .symIdent) (tok .ident)) n) R :=
    ((tok_fl (Next.mono h)).alt (tok_fl (Next.mono h))).bind _
  simp [P.bind, this.need]

/-- All alternatives of a value fail on a token that starts no value. -/
theorem val_fl {R : List Tok} (h : NS R) {n : Nat} (hn : 2 ≤ n) : Fl (pVal lim n) R := by
  obtain ⟨n, rfl⟩ : ∃ k, n = k + 1 := ⟨n - 1, by omega⟩
  right
  rw [pVal, bind_ok (optC_nil (Next.mono h))]
  have := ((sym_fl (lim := lim) (n := n) (Next.mono h) (by omega)).map CValB.sym).alt (
      (((lit_fl (s := bs "(") (Next.mono h)).bind fun _ => (need (pComma lim n)).bind fun c =>
        (need (lit (bs ")"))).bind fun _ => ret (CValB.sub c))).alt (
      (((tok_fl (k := .mlString) (Next.mono h)).alt (tok_fl (k := .string) (Next.mono h))).map CValB.str).alt (
      ((tok_fl (k := .number) (Next.mono h)).map CValB.num).alt (
      ((tok_fl (k := .bool) (Next.mono h)).map CValB.bool).alt
      ((tok_fl (k := .null) (Next.mono h)).map fun _ => CValB.null)))))
  simp only [P.bind, this.need]

theorem member_fl {R : List Tok} (h : NS R) {n : Nat} (hn : 3 ≤ n) : Fl (pMember lim n) R := by
  obtain ⟨n, rfl⟩ : ∃ k, n = k + 1 := ⟨n - 1, by omega⟩
  right
  rw [pMember, bind_ok (optC_nil (Next.mono h))]
  simp only [P.bind, (val_fl (lim := lim) (n := n) h (by omega)).need]

theorem mul_fl {R : List Tok} (h : NS R) {n : Nat} (hn : 4 ≤ n) : Fl (pMul lim n) R := by
  obtain ⟨n, rfl⟩ : ∃ k, n = k + 1 := ⟨n - 1, by omega⟩
  right
  rw [pMul, bind_ok (optC_nil (Next.mono h))]
  simp only [P.bind, (member_fl (lim := lim) (n := n) h (by omega)).need]

theorem add_fl {R : List Tok} (h : NS R) {n : Nat} (hn : 5 ≤ n) : Fl (pAdd lim n) R := by
  obtain ⟨n, rfl⟩ : ∃ k, n = k + 1 := ⟨n - 1, by omega⟩
  right
  rw [pAdd, bind_ok (optC_nil (Next.mono h))]
  simp only [P.bind, (mul_fl (lim := lim) (n := n) h (by omega)).need]

theorem cond_fl {R : List Tok} (h : NS R) {n : Nat} (hn : 6 ≤ n) : Fl (pCond lim n) R := by
  obtain ⟨n, rfl⟩ : ∃ k, n = k + 1 := ⟨n - 1, by omega⟩
  right
  rw [pCond, bind_ok (optC_nil (Next.mono h))]
  exact Fl.need (((tok_fl (Next.mono h)).bind _).alt ((add_fl (n := n) h (by omega)).bind _))

theorem or_fl {R : List Tok} (h : NS R) {n : Nat} (hn : 7 ≤ n) : Fl (pOr lim n) R := by
  obtain ⟨n, rfl⟩ : ∃ k, n = k + 1 := ⟨n - 1, by omega⟩
  right
  rw [pOr, bind_ok (optC_nil (Next.mono h))]
  simp only [P.bind, (cond_fl (lim := lim) (n := n) h (by omega)).need]

theorem and_fl {R : List Tok} (h : NS R) {n : Nat} (hn : 8 ≤ n) : Fl (pAnd lim n) R := by
  obtain ⟨n, rfl⟩ : ∃ k, n = k + 1 := ⟨n - 1, by omega⟩
  right
  rw [pAnd, bind_ok (optC_nil (Next.mono h))]
  simp only [P.bind, (or_fl (lim := lim) (n := n) h (by omega)).need]

theorem comma_fl {R : List Tok} (h : NS R) {n : Nat} (hn : 9 ≤ n) : Fl (pComma lim n) R := by
  obtain ⟨n, rfl⟩ : ∃ k, n = k + 1 := ⟨n - 1, by omega⟩
  right
  rw [pComma, bind_ok (optC_nil (Next.mono h))]
  simp only [P.bind, (and_fl (lim := lim) (n := n) h (by omega)).need]

theorem arg_fl {R : List Tok} (h : NS R) {n : Nat} (hn : 1 ≤ n) : Fl (pArg lim n) R := by
  obtain ⟨n, rfl⟩ : ∃ k, n = k + 1 := ⟨n - 1, by omega⟩
  right
  rw [pArg, bind_ok (optC_nil (Next.mono h))]
  simp only [P.bind, (tok_fl (k := .ident) (Next.mono h)).need]

theorem col_fl {R : List Tok} (h : NS R) (h2 : Next [] [bs "*", bs "{"] R) {n : Nat} (hn : 9 ≤ n) :
    Fl (pCol lim n) R := by
  obtain ⟨n, rfl⟩ : ∃ k, n = k + 1 := ⟨n - 1, by omega⟩
  right
  rw [pCol, bind_ok (many_stop (by omega) (com_fl (Next.mono h)))]
  have := ((lit_fl (s := bs "*") h2.mono).map fun _ => CColB.star).alt
    (((lit_fl (s := bs "{") h2.mono).bind fun _ => (need (pSelect lim n)).bind fun q =>
        (need (lit (bs "}"))).bind fun _ => ret (CColB.select q)).alt
      ((and_fl (lim := lim) (n := n) h (by omega)).map CColB.expr))
  simp only [P.bind, this.need]

theorem select_fl {R : List Tok} (h : Next [.select, .explain, .vqlComment, .comment, .mlComment] [] R)
    {n : Nat} (hn : 2 ≤ n) : Fl (pSelect lim n) R := by
  obtain ⟨n, rfl⟩ : ∃ k, n = k + 1 := ⟨n - 1, by omega⟩
  right
  rw [pSelect, bind_ok (many_stop (by omega) (com_fl h.mono)),
    bind_ok (many_stop (by omega) (tok_fl h.mono))]
  simp only [P.bind, (tok_fl (k := .select) h.mono).need]
end

/-! ## How expressions start -/

section
variable (num : Str → Str) (lim : Str → Option Int)

theorem stV_tok {k : TK} {t : Str} (h : IsTok k t) (hk : k ∈ valKs) : StV ⟨k, t⟩ :=
  .inl ⟨hk, not_op h (by rintro rfl; exact absurd hk (by decide))⟩

theorem name_stV {ks : List TK} (hks : ∀ k ∈ ks, k ∈ [TK.symIdent, .ident]) {n : Str}
    (h : DotName ks n) : ∃ t ts, toks (nameItems n) = t :: ts ∧ StV t := by
  obtain ⟨k, a, as, hk, ha, has, hn, hi⟩ := name_items hks h
  rw [hi, toks_some]
  refine ⟨_, _, rfl, stV_tok ha ?_⟩
  have := hks k hk
  simp only [List.mem_cons, List.not_mem_nil, or_false] at this
  rcases this with rfl | rfl <;> decide

mutual
theorem s_and : ∀ (e : CAnd), wAnd num lim e → ∃ t ts, toks (itAnd e) = t :: ts ∧ St t
  | .mk cs l rs, hw => by
    obtain ⟨t, ts, h, hs⟩ := s_or l hw.2.1
    exact ⟨t, _, by rw [itAnd, toks_append, h]; rfl, hs⟩
theorem s_or : ∀ (e : COr), wOr num lim e → ∃ t ts, toks (itOr e) = t :: ts ∧ St t
  | .mk cs l rs, hw => by
    obtain ⟨t, ts, h, hs⟩ := s_cond l hw.2.1
    exact ⟨t, _, by rw [itOr, toks_append, h]; rfl, hs⟩
theorem s_cond : ∀ (e : CCond), wCond num lim e → ∃ t ts, toks (itCond e) = t :: ts ∧ St t
  | .not cs c, hw => ⟨_, _, by rw [itCond, toks_some], .inr rfl⟩
  | .cmp cs l r, hw => by
    obtain ⟨t, ts, h, hs⟩ := s_add l hw.2.1
    exact ⟨t, _, by rw [itCond, toks_append, h]; rfl, .inl hs⟩
theorem s_add : ∀ (e : CAdd), wAdd num lim e → ∃ t ts, toks (itAdd e) = t :: ts ∧ StV t
  | .mk cs l rs, hw => by
    obtain ⟨t, ts, h, hs⟩ := s_mul l hw.2.1
    exact ⟨t, _, by rw [itAdd, toks_append, h]; rfl, hs⟩
theorem s_mul : ∀ (e : CMul), wMul num lim e → ∃ t ts, toks (itMul e) = t :: ts ∧ StV t
  | .mk cs l rs, hw => by
    obtain ⟨t, ts, h, hs⟩ := s_member l hw.2.1
    exact ⟨t, _, by rw [itMul, toks_append, h]; rfl, hs⟩
theorem s_member : ∀ (e : CMember), wMember num lim e → ∃ t ts, toks (itMember e) = t :: ts ∧ StV t
  | .mk cs l rs, hw => by
    obtain ⟨t, ts, h, hs⟩ := s_val l hw.2.1
    exact ⟨t, _, by rw [itMember, toks_append, h]; rfl, hs⟩
theorem s_val : ∀ (e : CVal), wVal num lim e → ∃ t ts, toks (itVal e) = t :: ts ∧ StV t
  | .mk cs b, hw => s_valB b hw.2
theorem s_valB : ∀ (e : CValB), wValB num lim e → ∃ t ts, toks (itValB e) = t :: ts ∧ StV t
  | .sym s, hw => s_sym s hw
  | .sub c, hw => ⟨⟨.op, bs "("⟩, _, by rw [itValB]; exact toks_some _ _, .inr rfl⟩
  | .str t, hw => by
    refine ⟨strTok t, [], by rw [itValB, toks_some]; rfl, ?_⟩
    unfold strTok
    by_cases h : IsTok .mlString t
    · rw [if_pos h]; exact stV_tok h (by decide)
    · rw [if_neg h]; exact stV_tok (hw.resolve_left h) (by decide)
  | .num t, hw => ⟨_, [], by rw [itValB, toks_some]; rfl, stV_tok hw.1 (by decide)⟩
  | .bool t, hw => ⟨_, [], by rw [itValB, toks_some]; rfl, stV_tok hw (by decide)⟩
  | .null, hw => ⟨_, [], by rw [itValB, toks_some]; rfl, .inl (by decide)⟩
theorem s_sym : ∀ (e : CSym), wSym num lim e → ∃ t ts, toks (itSym e) = t :: ts ∧ StV t
  | .mk cs n called ps, hw => by
    obtain ⟨t, ts, h, hs⟩ := name_stV names_ok hw.2.1
    exact ⟨t, _, by rw [itSym, toks_append, h]; rfl, hs⟩
end
end

/-! ## Names -/

/-- `"." ident` -/
abbrev bDot : P Str := (lit (bs ".")).bind fun d => (need (tok .ident)).bind fun i => ret (d ++ i)

theorem dot_rest {R : List Tok} (hR : Next [] [bs "."] R) : ∀ (as : List Str) (m : Nat), as.length + 1 ≤ m →
    many bDot m (toks (restItems as) ++ R) = .ok (as.map (46 :: ·)) R
  | [], m, hm => many_stop (by omega) ((lit_fl hR).bind _)
  | b :: as, m, hm => by
    obtain ⟨m, rfl⟩ : ∃ k, m = k + 1 := ⟨m - 1, by omega⟩
    have ih := dot_rest hR as m (by simp at hm; omega)
    refine many_cons (r := toks (restItems as) ++ R) ?_ ih
    show bDot (⟨.op, bs "."⟩ :: ⟨.ident, b⟩ :: (toks (restItems as) ++ R)) = _
    unfold bDot
    rw [bind_ok (lit_ok _ _ _), bind_ok (need_ok (tok_ok _ _ _))]
    rfl

theorem rest_len (as : List Str) : (toks (restItems as)).length = 2 * as.length := by
  induction as with
  | nil => rfl
  | cons b as ih =>
    show (⟨.op, bs "."⟩ :: ⟨.ident, b⟩ :: toks (restItems as)).length = _
    simp only [List.length_cons, ih]
    omega

theorem p_name {ks : List TK} (hks : ∀ k ∈ ks, k ∈ [TK.symIdent, .ident]) {nm : Str} (h : DotName ks nm)
    {first : P Str} (hf : ∀ k ∈ ks, ∀ t ts, first (⟨k, t⟩ :: ts) = .ok t ts) {R : List Tok}
    (hR : Next [] [bs "."] R) {n : Nat} (hn : (toks (nameItems nm)).length + 1 ≤ n) :
    dotted first n (toks (nameItems nm) ++ R) = .ok nm R := by
  obtain ⟨k, a, as, hk, ha, has, he, hi⟩ := name_items hks h
  rw [hi, toks_some] at hn ⊢
  have hl := rest_len as
  simp only [List.length_cons] at hn
  unfold dotted
  rw [List.cons_append, bind_ok (hf k hk _ _), bind_ok (dot_rest hR as n (by omega)), he]
  rfl

/-! ## What follows -/

/-- The texts that go on with an expression. -/
def goSs : List Str :=
  [bs "<>", bs "<=", bs ">=", bs "=", bs "<", bs ">", bs "!=", bs "=~", bs "+", bs "-", bs "*", bs "/",
    bs "[", bs ".", bs "("]

abbrev FolMember := Next [] [bs "[", bs ".", bs "("]
abbrev FolMul := Next [] [bs "*", bs "/", bs "[", bs ".", bs "("]
abbrev FolAdd := Next [] [bs "+", bs "-", bs "*", bs "/", bs "[", bs ".", bs "("]
abbrev FolCond := Next [.in_] goSs
abbrev FolOr := Next [.in_, .or_, .altOr] goSs
abbrev FolAnd := Next [.in_, .or_, .altOr, .and_, .altAnd] goSs
/-- Behind a comma expression. -/
abbrev FolComma := Next
  [.in_, .or_, .altOr, .and_, .altAnd, .symIdent, .ident, .mlString, .string, .number, .bool, .null, .not_,
    .vqlComment, .comment, .mlComment]
  (bs "," :: goSs)
/-- Behind a query. -/
abbrev FolSel := Next
  [.in_, .or_, .altOr, .and_, .altAnd, .symIdent, .ident, .mlString, .string, .number, .bool, .null, .not_,
    .vqlComment, .comment, .mlComment, .where_, .groupBy, .orderBy, .desc, .limit]
  (bs "," :: goSs)

theorem FolComma.ns {R : List Tok} (h : FolComma R) : NS R := Next.mono h

/-- A token that is no operator. -/
theorem next_tok {t : Tok} {R : List Tok} {ks : List TK} {ss : List Str} (h : IsTok t.kind t.text)
    (hk : t.kind ≠ .op) (hks : t.kind ∉ ks) (hss : ∀ s ∈ ss, s ∈ opTexts := by decide) : Next ks ss (t :: R) :=
  ⟨hks, fun hm => not_op h hk (hss _ hm)⟩

theorem next_op {s : Str} {R : List Tok} {ks : List TK} {ss : List Str} (hks : TK.op ∉ ks := by decide)
    (hss : s ∉ ss := by decide) : Next ks ss (⟨.op, s⟩ :: R) := ⟨hks, hss⟩

theorem andTok_is {op : Str} (h : IsTok .and_ op ∨ IsTok .altAnd op) :
    IsTok (andTok op).kind (andTok op).text ∧ (andTok op).kind ∈ [TK.and_, .altAnd] := by
  unfold andTok
  by_cases ha : IsTok .altAnd op
  · rw [if_pos ha]; exact ⟨ha, by simp⟩
  · rw [if_neg ha]; exact ⟨h.resolve_right ha, by simp⟩

theorem orTok_is {op : Str} (h : IsTok .or_ op ∨ IsTok .altOr op) :
    IsTok (orTok op).kind (orTok op).text ∧ (orTok op).kind ∈ [TK.or_, .altOr] := by
  unfold orTok
  by_cases ha : IsTok .altOr op
  · rw [if_pos ha]; exact ⟨ha, by simp⟩
  · rw [if_neg ha]; exact ⟨h.resolve_right ha, by simp⟩

section
variable {num : Str → Str} {lim : Str → Option Int}

theorem n_andTs {R : List Tok} (hR : FolAnd R) : ∀ {rs : List CAndT}, wAndTs num lim rs →
    FolOr (toks (itAndTs rs) ++ R)
  | [], _ => hR.mono
  | .mk op t :: rs, hw => by
    obtain ⟨h1, h2⟩ := andTok_is hw.1
    rw [itAndTs, toks_none, toks_none, toks_some, List.cons_append]
    simp only [List.mem_cons, List.not_mem_nil, or_false] at h2
    refine next_tok h1 ?_ ?_ <;> rcases h2 with h | h <;> rw [h] <;> decide

theorem n_orTs {R : List Tok} (hR : FolOr R) : ∀ {rs : List COrT}, wOrTs num lim rs →
    FolCond (toks (itOrTs rs) ++ R)
  | [], _ => hR.mono
  | .mk op t :: rs, hw => by
    obtain ⟨h1, h2⟩ := orTok_is hw.1
    rw [itOrTs, toks_none, toks_some, List.cons_append]
    simp only [List.mem_cons, List.not_mem_nil, or_false] at h2
    refine next_tok h1 ?_ ?_ <;> rcases h2 with h | h <;> rw [h] <;> decide

theorem n_cmp {R : List Tok} (hR : FolCond R) : ∀ {rs : Option CCmpT}, wCmp num lim rs →
    FolAdd (toks (itCmp rs) ++ R)
  | none, _ => hR.mono
  | some (.mk op t), hw => by
    rw [itCmp, toks_none, toks_some, List.cons_append]
    have h := hw.1
    simp only [cmpOps, List.mem_cons, List.not_mem_nil, or_false] at h
    rcases h with rfl | rfl | rfl | rfl | rfl | rfl | rfl | rfl | rfl <;> exact ⟨by decide, by decide⟩

theorem n_addTs {R : List Tok} (hR : FolAdd R) : ∀ {rs : List CAddT}, wAddTs num lim rs →
    FolMul (toks (itAddTs rs) ++ R)
  | [], _ => hR.mono
  | .mk op t :: rs, hw => by
    rw [itAddTs, toks_none, iop, toks_some, List.cons_append]
    have h := hw.1
    simp only [List.mem_cons, List.not_mem_nil, or_false] at h
    rcases h with rfl | rfl <;> exact next_op

theorem n_mulTs {R : List Tok} (hR : FolMul R) : ∀ {rs : List CMulT}, wMulTs num lim rs →
    FolMember (toks (itMulTs rs) ++ R)
  | [], _ => hR.mono
  | .mk op t :: rs, hw => by
    rw [itMulTs, toks_none, iop, toks_some, List.cons_append]
    have h := hw.1
    simp only [List.mem_cons, List.not_mem_nil, or_false] at h
    rcases h with rfl | rfl <;> exact next_op

theorem n_mTerms {R : List Tok} (hR : FolMember R) : ∀ {rs : List CMTerm}, wMTerms num lim rs →
    Next [] [bs "("] (toks (itMTerms rs) ++ R)
  | [], _ => hR.mono
  | .range i j :: rs, hw => by
    rw [itMTerms, iop, toks_some, List.cons_append]; exact next_op
  | .index i :: rs, hw => by
    rw [itMTerms, iop, toks_some, List.cons_append]; exact next_op
  | .field n :: rs, hw => by
    rw [itMTerms, iop, toks_some, List.cons_append]; exact next_op
  | .empty :: rs, hw => hw.elim

theorem n_mTerms_dot {R : List Tok} (hR : FolMember R) : ∀ {rs : List CMTerm}, wMTerms num lim rs →
    startsField rs = false → Next [] [bs "."] (toks (itMTerms rs) ++ R)
  | [], _, _ => hR.mono
  | .range i j :: rs, hw, _ => by
    rw [itMTerms, iop, toks_some, List.cons_append]; exact next_op
  | .index i :: rs, hw, _ => by
    rw [itMTerms, iop, toks_some, List.cons_append]; exact next_op
  | .field n :: rs, hw, h => by simp [startsField] at h
  | .empty :: rs, hw, _ => hw.elim

theorem n_commaTs {R : List Tok} (hR : FolComma R) : ∀ {rs : List CCommaT}, wCommaTs num lim rs →
    FolAnd (toks (itCommaTs rs) ++ R) ∧ NS (toks (itCommaTs rs) ++ R)
  | [], _ => ⟨hR.mono, hR.mono⟩
  | .mk c1 c2 none :: rs, hw => by
    cases rs <;>
    · rw [itCommaTs, iop, toks_some, List.cons_append]; exact ⟨next_op, next_op⟩
  | .mk c1 c2 (some t) :: rs, hw => by
    rw [itCommaTs, iop, toks_some, List.cons_append]; exact ⟨next_op, next_op⟩

end

theorem start_next {x R : List Tok} (h : ∃ t ts, x = t :: ts ∧ St t) {ks : List TK} {ss : List Str}
    (hk : ∀ k ∈ ks, k ∉ TK.op :: TK.not_ :: valKs := by decide)
    (hs : ∀ s ∈ ss, s ∈ opTexts ∧ s ≠ bs "(" := by decide) : Next ks ss (x ++ R) := by
  obtain ⟨t, ts, rfl, h⟩ := h
  exact h.next _ hk hs

theorem startV_next {x R : List Tok} (h : ∃ t ts, x = t :: ts ∧ StV t) {ks : List TK} {ss : List Str}
    (hk : ∀ k ∈ ks, k ∉ TK.op :: valKs := by decide)
    (hs : ∀ s ∈ ss, s ∈ opTexts ∧ s ≠ bs "(" := by decide) : Next ks ss (x ++ R) := by
  obtain ⟨t, ts, rfl, h⟩ := h
  exact h.next _ hk hs

/-! ## The loops of the grammar -/

section
variable (lim : Str → Option Int)

abbrev bAnd (n : Nat) : P CAndT := (alt (tok .and_) (tok .altAnd)).bind fun op =>
  (need (pOr lim n)).bind fun t => ret (CAndT.mk op t)
abbrev bOr (n : Nat) : P COrT := (alt (tok .or_) (tok .altOr)).bind fun op =>
  (need (pCond lim n)).bind fun t => ret (COrT.mk op t)
abbrev bCmp (n : Nat) : P CCmpT := cmpOp.bind fun op => (need (pAdd lim n)).bind fun r => ret (CCmpT.mk op r)
abbrev bAdd (n : Nat) : P CAddT := (alt (lit (bs "+")) (lit (bs "-"))).bind fun op =>
  (need (pMul lim n)).bind fun t => ret (CAddT.mk op t)
abbrev bMul (n : Nat) : P CMulT := (alt (lit (bs "*")) (lit (bs "/"))).bind fun op =>
  (need (pVal lim n)).bind fun t => ret (CMulT.mk op t)
abbrev bMem (n : Nat) : P CMTerm := alt
  ((lit (bs "[")).bind fun _ => (many (pVal lim n) n).bind fun is =>
    (many (lit (bs ":")) n).bind fun cl => (many (pVal lim n) n).bind fun js =>
    (need (lit (bs "]"))).bind fun _ => ret
      (if cl.isEmpty then
        match is.getLast? with
        | some i => CMTerm.index i
        | none => CMTerm.empty
      else CMTerm.range is.getLast? js.getLast?))
  ((lit (bs ".")).bind fun _ => (need (tok .ident)).bind fun i => ret (CMTerm.field i))
abbrev bComma (n : Nat) : P CCommaT := optC.bind fun c1 => (need (lit (bs ","))).bind fun _ =>
  optC.bind fun c2 => (many (pAnd lim n) n).bind fun ts => ret (CCommaT.mk c1 c2 ts.getLast?)
abbrev bVal (n : Nat) : P CValB :=
  alt ((pSym lim n).map CValB.sym)
  (alt ((lit (bs "(")).bind fun _ => (need (pComma lim n)).bind fun c =>
    (need (lit (bs ")"))).bind fun _ => ret (CValB.sub c))
  (alt ((alt (tok .mlString) (tok .string)).map CValB.str)
  (alt ((tok .number).map CValB.num)
  (alt ((tok .bool).map CValB.bool)
  ((tok .null).map fun _ => CValB.null)))))
abbrev bCall (n : Nat) : P (List CArg) := (lit (bs "(")).bind fun _ => (opt (sepBy (pArg lim n) n)).bind fun as =>
  (need (lit (bs ")"))).bind fun _ => ret (as.getD [])
abbrev bArgV (n : Nat) : P CArgV :=
  alt ((lit (bs "{")).bind fun _ => (need (pSelect lim n)).bind fun q =>
    (need (lit (bs "}"))).bind fun _ => ret (CArgV.select q))
  (alt ((lit (bs "[")).bind fun _ => (opt (pComma lim n)).bind fun c =>
    (need (lit (bs "]"))).bind fun _ => ret (match c with
      | some c => CArgV.array c
      | none => CArgV.empty))
  ((pAnd lim n).map CArgV.expr))
abbrev bColB (n : Nat) : P CColB :=
  alt ((lit (bs "*")).map fun _ => CColB.star)
  (alt ((lit (bs "{")).bind fun _ => (need (pSelect lim n)).bind fun q =>
    (need (lit (bs "}"))).bind fun _ => ret (CColB.select q))
  ((pAnd lim n).map CColB.expr))
/-- `"," p` -/
abbrev bSep {α : Type} (p : P α) : P α := (lit (bs ",")).bind fun _ => need p

end

theorem and_op {op : Str} (h : IsTok .and_ op ∨ IsTok .altAnd op) (ts : List Tok) :
    alt (tok .and_) (tok .altAnd) (andTok op :: ts) = .ok op ts := by
  unfold andTok
  by_cases ha : IsTok .altAnd op
  · rw [if_pos ha]
    exact alt_skip (tok_fl ⟨by simp, by simp⟩) (tok_ok _ _ _)
  · rw [if_neg ha]
    exact alt_ok (tok_ok _ _ _)

theorem or_op {op : Str} (h : IsTok .or_ op ∨ IsTok .altOr op) (ts : List Tok) :
    alt (tok .or_) (tok .altOr) (orTok op :: ts) = .ok op ts := by
  unfold orTok
  by_cases ha : IsTok .altOr op
  · rw [if_pos ha]
    exact alt_skip (tok_fl ⟨by simp, by simp⟩) (tok_ok _ _ _)
  · rw [if_neg ha]
    exact alt_ok (tok_ok _ _ _)

theorem cmp_op {op : Str} (h : op ∈ cmpOps) (ts : List Tok) : cmpOp (cmpTok op :: ts) = .ok op ts := by
  simp only [cmpOps, List.mem_cons, List.not_mem_nil, or_false] at h
  rcases h with rfl | rfl | rfl | rfl | rfl | rfl | rfl | rfl | rfl <;> rfl

theorem cmp_fl {R : List Tok} (h : FolCond R) : Fl cmpOp R :=
  (lits_fl h.mono).alt ((tok_fl h.mono).alt (lit_fl h.mono))

theorem add_op {op : Str} (h : op ∈ [bs "+", bs "-"]) (ts : List Tok) :
    alt (lit (bs "+")) (lit (bs "-")) (⟨.op, op⟩ :: ts) = .ok op ts := by
  simp only [List.mem_cons, List.not_mem_nil, or_false] at h
  rcases h with rfl | rfl <;> rfl

theorem mul_op {op : Str} (h : op ∈ [bs "*", bs "/"]) (ts : List Tok) :
    alt (lit (bs "*")) (lit (bs "/")) (⟨.op, op⟩ :: ts) = .ok op ts := by
  simp only [List.mem_cons, List.not_mem_nil, or_false] at h
  rcases h with rfl | rfl <;> rfl

/-- The items behind the first argument. -/
def argsTail : List CArg → List Item
  | [] => []
  | a :: as => iop (bs ",") :: none :: (itArg a ++ argsTail as)

theorem itArgs_eq (a : CArg) (as : List CArg) : itArgs (a :: as) = itArg a ++ argsTail as := by
  induction as generalizing a with
  | nil => simp [itArgs, argsTail]
  | cons b bs' ih =>
    have := ih b
    show itArg a ++ [iop (bs ","), none] ++ itArgs (b :: bs') = _
    rw [this]
    simp [argsTail]

/-- The items behind the first column. -/
def colsTail : List CCol → List Item
  | [] => []
  | a :: as => iop (bs ",") :: none :: (itCol a ++ colsTail as)

theorem itCols_eq (a : CCol) (as : List CCol) : itCols (a :: as) = itCol a ++ colsTail as := by
  induction as generalizing a with
  | nil => simp [itCols, colsTail]
  | cons b bs' ih =>
    have := ih b
    show itCol a ++ [iop (bs ","), none] ++ itCols (b :: bs') = _
    rw [this]
    simp [colsTail]

theorem n_argsTail {R : List Tok} (hR : FolAnd R) (as : List CArg) : FolAnd (toks (argsTail as) ++ R) := by
  cases as with
  | nil => exact hR
  | cons a as => rw [argsTail, iop, toks_some, List.cons_append]; exact next_op

/-- Behind a column. -/
abbrev FolCol := Next [.in_, .or_, .altOr, .and_, .altAnd, .as_] goSs

theorem n_colsTail {R : List Tok} (hR : FolCol R) (as : List CCol) : FolCol (toks (colsTail as) ++ R) := by
  cases as with
  | nil => exact hR
  | cons a as => rw [colsTail, iop, toks_some, List.cons_append]; exact next_op

theorem toks_gap {g : List Item} (hg : g = [] ∨ g = [none]) : toks g = [] := by
  rcases hg with rfl | rfl <;> rfl

end Vfilter.Fmt
