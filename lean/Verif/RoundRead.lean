import Verif.RoundGood
/-!
# Every parsed statement is well formed

What the parser returns satisfies `wStmt`, up to the few shapes that are printed as something
else (`kStmt`).
-/

set_option linter.all false

namespace Vfilter.Fmt

/-! ## Tokens of a text -/

/-- The kinds whose text matters. -/
def textKs : List TK :=
  [.ident, .symIdent, .number, .mlString, .string, .bool, .and_, .or_, .altAnd, .altOr]

/-- A token as the lexer produces it, not a comment. -/
def GoodT (t : Tok) : Prop :=
  (t.kind ∈ textKs → IsTok t.kind t.text) ∧ (t.kind = .in_ → t.text = bs "IN") ∧ t.kind ∉ comKs

def Good (ts : List Tok) : Prop := ∀ t ∈ ts, GoodT t

theorem Good.tail {t : Tok} {ts : List Tok} (h : Good (t :: ts)) : Good ts := fun u hu => h u (by simp [hu])

theorem fold_upper : ∀ {w s m r : Str}, foldPrefix w s = some (m, r) → m.map upper = w
  | [], s, m, r, h => by
    simp only [foldPrefix, Option.some.injEq, Prod.mk.injEq] at h
    rw [← h.1]; rfl
  | w :: ws, [], m, r, h => by simp [foldPrefix] at h
  | w :: ws, c :: cs, m, r, h => by
    simp only [foldPrefix] at h
    split at h
    · rename_i hc
      simp only [Option.map_eq_some_iff, Prod.mk.injEq] at h
      obtain ⟨⟨a, b⟩, h1, h2, h3⟩ := h
      rw [← h2]
      simp [hc, fold_upper h1]
    · simp at h

theorem mkTok_good {k : TK} {s m r : Str} (h : firstRule rules s = some (k, m, r)) (hk : k ∉ comKs) :
    GoodT (mkTok k m) := by
  have hkind : (mkTok k m).kind = k := by unfold mkTok; split <;> rfl
  refine ⟨?_, ?_, by rw [hkind]; exact hk⟩
  · intro ht
    rw [hkind] at ht ⊢
    have htext : (mkTok k m).text = m := by
      unfold mkTok
      rw [if_neg]
      rintro (rfl | rfl) <;> simp [textKs] at ht
    rw [htext]
    simp only [textKs, List.mem_cons, List.not_mem_nil, or_false] at ht
    rcases ht with rfl | rfl | rfl | rfl | rfl | rfl | rfl | rfl | rfl | rfl
    · exact ident_tok h
    · exact sym_tok h
    · exact num_tok h
    · exact ml_tok h
    · exact str_tok h
    · exact bool_tok h
    · exact and_tok h
    · exact or_tok h
    · exact amp_tok h
    · exact bar_tok h
  · intro ht
    rw [hkind] at ht
    subst ht
    have h1 := rule_of h 14 (f := keyword (bs "IN")) (by simp [rules])
    simp [mkTok, fold_upper (keyword_some h1).1]

/-- The lexer produces good tokens and comments. -/
theorem lexN_good : ∀ (n : Nat) (s : Str) (ts : List Tok), lexN n s = some ts →
    ∀ t ∈ ts, t.kind ∉ comKs → GoodT t
  | n, [], ts, h => by
    have : ts = [] := by cases n <;> simpa [lexN] using h.symm
    subst this
    simp
  | 0, _ :: _, ts, h => by simp [lexN] at h
  | n + 1, c :: s, ts, h => by
    rw [lexN_succ] at h
    split at h
    · simp at h
    · rename_i k m r hf
      split at h
      · simp at h
      · split at h
        · exact lexN_good n r ts h
        · simp only [Option.map_eq_some_iff] at h
          obtain ⟨us, h1, rfl⟩ := h
          intro t ht hk
          rcases List.mem_cons.1 ht with rfl | ht
          · have hkind : (mkTok k m).kind = k := by unfold mkTok; split <;> rfl
            rw [hkind] at hk
            exact mkTok_good hf hk
          · exact lexN_good n r us h1 t ht hk

theorem lex_good {s : Str} {ts : List Tok} (h : lex s = some ts) : Good (dropComments ts) := by
  intro t ht
  unfold dropComments at ht
  obtain ⟨h1, h2⟩ := List.mem_filter.1 ht
  refine lexN_good _ _ _ h t h1 ?_
  intro hk
  simp only [comKs, List.mem_cons, List.not_mem_nil, or_false] at hk
  rcases hk with h | h | h <;> simp [h] at h2

/-! ## What a parser returns -/

section
variable {α β : Type}

/-- On good tokens the parser returns values with the property and leaves good tokens. -/
def Post (p : P α) (Q : α → Prop) : Prop :=
  ∀ ts a r, Good ts → p ts = .ok a r → Q a ∧ Good r

theorem bind_inv {p : P α} {f : α → P β} {ts r : List Tok} {b : β} (h : p.bind f ts = .ok b r) :
    ∃ a r1, p ts = .ok a r1 ∧ f a r1 = .ok b r := by
  unfold P.bind at h
  split at h
  · rename_i a r1 hp; exact ⟨a, r1, hp, h⟩
  · simp at h
  · simp at h
  · simp at h

theorem need_inv {p : P α} {ts r : List Tok} {a : α} (h : need p ts = .ok a r) : p ts = .ok a r := by
  unfold need at h
  split at h
  · simp at h
  · exact h

theorem opt_inv {p : P α} {ts r : List Tok} {a : Option α} (h : opt p ts = .ok a r) :
    (∃ x, a = some x ∧ p ts = .ok x r) ∨ (a = none ∧ r = ts ∧ ∀ x R, p ts ≠ .ok x R) := by
  unfold opt at h
  split at h
  · rename_i x r1 hp
    simp only [Res.ok.injEq] at h
    exact .inl ⟨x, h.1.symm, by rw [hp, h.2]⟩
  · rename_i hp
    simp only [Res.ok.injEq] at h
    exact .inr ⟨h.1.symm, h.2.symm, by simp [hp]⟩
  · rename_i r1 hp
    split at h
    · simp at h
    · simp only [Res.ok.injEq] at h
      exact .inr ⟨h.1.symm, h.2.symm, by simp [hp]⟩
  · simp at h

theorem alt_inv {p q : P α} {ts r : List Tok} {a : α} (h : alt p q ts = .ok a r) :
    p ts = .ok a r ∨ q ts = .ok a r := by
  unfold alt at h
  split at h
  · rename_i hp; rw [hp]; exact .inl h
  · exact .inr h
  · split at h
    · simp at h
    · split at h
      · simp at h
      · split at h <;> simp at h
      · exact .inr h
  · simp at h

theorem Post.bind {p : P α} {f : α → P β} {Q : α → Prop} {Q2 : β → Prop} (h : Post p Q)
    (hf : ∀ a, Q a → Post (f a) Q2) : Post (p.bind f) Q2 := fun ts b r hg hb => by
  obtain ⟨a, r1, h1, h2⟩ := bind_inv hb
  obtain ⟨hq, hg1⟩ := h ts a r1 hg h1
  exact hf a hq r1 b r hg1 h2

theorem Post.need {p : P α} {Q : α → Prop} (h : Post p Q) : Post (need p) Q := fun ts a r hg hb =>
  h ts a r hg (need_inv hb)

theorem Post.ret {a : α} {Q : α → Prop} (h : Q a) : Post (ret a) Q := fun ts b r hg hb => by
  simp only [Fmt.ret, Res.ok.injEq] at hb
  rw [← hb.1, ← hb.2]
  exact ⟨h, hg⟩

theorem Post.map {p : P α} {f : α → β} {Q : α → Prop} {Q2 : β → Prop} (h : Post p Q)
    (hf : ∀ a, Q a → Q2 (f a)) : Post (p.map f) Q2 := h.bind fun a ha => Post.ret (hf a ha)

theorem Post.alt {p q : P α} {Q : α → Prop} (hp : Post p Q) (hq : Post q Q) : Post (alt p q) Q :=
  fun ts a r hg hb => by
    rcases alt_inv hb with h | h
    · exact hp ts a r hg h
    · exact hq ts a r hg h

theorem Post.opt {p : P α} {Q : α → Prop} (h : Post p Q) : Post (opt p) (fun a => ∀ x, a = some x → Q x) :=
  fun ts a r hg hb => by
    rcases opt_inv hb with ⟨x, rfl, hp⟩ | ⟨rfl, rfl, _⟩
    · obtain ⟨h1, h2⟩ := h ts x r hg hp
      exact ⟨fun y hy => by simp at hy; rwa [← hy], h2⟩
    · exact ⟨fun y hy => by simp at hy, hg⟩

theorem Post.many {p : P α} {Q : α → Prop} (h : Post p Q) : ∀ n, Post (many p n) (fun as => ∀ a ∈ as, Q a)
  | 0, ts, a, r, hg, hb => by simp [Fmt.many] at hb
  | n + 1, ts, as, r, hg, hb => by
    simp only [Fmt.many] at hb
    split at hb
    · rename_i a r1 hp
      obtain ⟨bs, r2, h1, h2⟩ := bind_inv hb
      simp only [Fmt.ret, Res.ok.injEq] at h2
      obtain ⟨hq, hg1⟩ := h ts a r1 hg hp
      obtain ⟨hqs, hg2⟩ := Post.many h n r1 bs r2 hg1 h1
      rw [← h2.1, ← h2.2]
      refine ⟨?_, hg2⟩
      intro x hx
      rcases List.mem_cons.1 hx with rfl | hx
      · exact hq
      · exact hqs x hx
    · simp only [Res.ok.injEq] at hb
      rw [← hb.1, ← hb.2]
      exact ⟨by simp, hg⟩
    · split at hb
      · simp at hb
      · simp only [Res.ok.injEq] at hb
        rw [← hb.1, ← hb.2]
        exact ⟨by simp, hg⟩
    · simp at hb

theorem Post.sepBy {p : P α} {Q : α → Prop} (h : Post p Q) (n : Nat) :
    Post (sepBy p n) (fun as => as ≠ [] ∧ ∀ a ∈ as, Q a) := by
  unfold Fmt.sepBy
  refine h.bind fun a ha => ?_
  refine Post.bind (Post.many (Q := Q) ?_ n) fun as has => Post.ret ⟨by simp, ?_⟩
  · refine Post.bind (Q := fun _ => True) ?_ fun _ _ => h.need
    intro ts b r hg hb
    cases ts with
    | nil => simp [lit] at hb
    | cons t ts =>
      simp only [lit] at hb
      split at hb
      · simp only [Res.ok.injEq] at hb
        exact ⟨trivial, hb.2 ▸ hg.tail⟩
      · simp at hb
  · intro x hx
    rcases List.mem_cons.1 hx with rfl | hx
    · exact ha
    · exact has x hx

theorem Post.lit (s : Str) : Post (lit s) (fun x => x = s) := fun ts b r hg hb => by
  cases ts with
  | nil => simp [Fmt.lit] at hb
  | cons t ts =>
    simp only [Fmt.lit] at hb
    split at hb
    · rename_i ht
      simp only [Res.ok.injEq] at hb
      exact ⟨by rw [← hb.1, ht], hb.2 ▸ hg.tail⟩
    · simp at hb

theorem tok_inv {k : TK} {ts r : List Tok} {s : Str} (h : tok k ts = .ok s r) : ts = ⟨k, s⟩ :: r := by
  cases ts with
  | nil => simp [tok] at h
  | cons t ts =>
    simp only [tok] at h
    split at h
    · rename_i ht
      simp only [Res.ok.injEq] at h
      obtain ⟨k', s'⟩ := t
      simp only at ht h
      rw [ht, h.1, h.2]
    · simp at h

theorem Post.tok (k : TK) : Post (tok k) (fun s => GoodT ⟨k, s⟩) := fun ts b r hg hb => by
  have := tok_inv hb
  subst this
  exact ⟨hg _ (by simp), hg.tail⟩

theorem Post.textTok {k : TK} (hk : k ∈ textKs := by decide) : Post (Fmt.tok k) (fun s => IsTok k s) :=
  fun ts b r hg hb => ⟨((Post.tok k ts b r hg hb).1).1 hk, (Post.tok k ts b r hg hb).2⟩

theorem Post.mono {p : P α} {Q Q2 : α → Prop} (h : Post p Q) (hq : ∀ a, Q a → Q2 a) : Post p Q2 :=
  fun ts a r hg hb => ⟨hq a (h ts a r hg hb).1, (h ts a r hg hb).2⟩

theorem Post.lits : ∀ ss : List Str, Post (lits ss) (fun x => x ∈ ss)
  | [] => fun ts b r hg hb => by simp [Fmt.lits] at hb
  | s :: ss => by
    unfold Fmt.lits
    exact Post.alt ((Post.lit s).mono fun a h => by simp [h]) ((Post.lits ss).mono fun a h => by simp [h])
end

theorem good_next {R : List Tok} (h : Good R) : Next comKs [] R := by
  cases R with
  | nil => trivial
  | cons t R => exact ⟨(h t (by simp)).2.2, by simp⟩

theorem Post.optC : Post optC (fun cs => cs = []) := fun ts a r hg hb => by
  rw [optC_nil (good_next hg)] at hb
  simp only [Res.ok.injEq] at hb
  exact ⟨hb.1.symm, hb.2 ▸ hg⟩

theorem Post.comments (n : Nat) : Post (Fmt.many pComment n) (fun cs => cs = []) := fun ts a r hg hb => by
  cases n with
  | zero => simp [Fmt.many] at hb
  | succ n =>
    rw [many_stop (by omega) (com_fl (good_next hg))] at hb
    simp only [Res.ok.injEq] at hb
    exact ⟨hb.1.symm, hb.2 ▸ hg⟩

theorem Post.dotted {first : P Str} {ks : List TK} (h : Post first (fun a => ∃ k ∈ ks, IsTok k a)) (n : Nat) :
    Post (dotted first n) (DotName ks) := by
  unfold Fmt.dotted
  refine h.bind fun a ha => ?_
  refine Post.bind (Post.many (Q := fun x => ∃ i, x = 46 :: i ∧ IsTok .ident i) ?_ n) fun as has => Post.ret ?_
  · refine (Post.lit _).bind fun d hd => Post.bind (Post.textTok (k := .ident)).need fun i hi => Post.ret ⟨i, ?_, hi⟩
    rw [hd]; rfl
  · have : ∃ bs : List Str, as = bs.map (46 :: ·) ∧ ∀ b ∈ bs, IsTok .ident b := by
      clear ha
      induction as with
      | nil => exact ⟨[], rfl, by simp⟩
      | cons x xs ih =>
        obtain ⟨bs, h1, h2⟩ := ih (fun y hy => has y (by simp [hy]))
        obtain ⟨i, h3, h4⟩ := has x (by simp)
        refine ⟨i :: bs, by rw [h3, h1]; rfl, ?_⟩
        intro b hb
        rcases List.mem_cons.1 hb with rfl | hb
        · exact h4
        · exact h2 b hb
    obtain ⟨bs, h1, h2⟩ := this
    exact ⟨a, bs, ha, h2, by rw [h1]⟩

theorem Post.cmpOp : Post cmpOp (fun op => op ∈ cmpOps) := by
  unfold Fmt.cmpOp
  refine Post.alt ((Post.lits _).mono ?_) (Post.alt ((Post.tok .in_).mono ?_) ((Post.lit _).mono ?_))
  · intro a ha
    simp only [List.mem_cons, List.not_mem_nil, or_false] at ha
    rcases ha with rfl | rfl | rfl | rfl | rfl | rfl | rfl <;> decide
  · intro a ha
    have := ha.2.1 rfl
    simp only at this
    rw [this]; decide
  · intro a ha
    rw [ha]; decide

/-! ## Trees that are printed as themselves -/

section
variable (num : Str → Str)

mutual
/-- No `x[]`, no `* AS x`, and numbers whose printed form is a number that is printed as
itself. -/
def kAnd : CAnd → Prop
  | .mk _ l rs => kOr l ∧ kAndTs rs
def kAndTs : List CAndT → Prop
  | [] => True
  | .mk _ t :: rs => kOr t ∧ kAndTs rs
def kOr : COr → Prop
  | .mk _ l rs => kCond l ∧ kOrTs rs
def kOrTs : List COrT → Prop
  | [] => True
  | .mk _ t :: rs => kCond t ∧ kOrTs rs
def kCond : CCond → Prop
  | .not _ c => kCond c
  | .cmp _ l r => kAdd l ∧ kCmp r
def kCmp : Option CCmpT → Prop
  | none => True
  | some (.mk _ r) => kAdd r
def kAdd : CAdd → Prop
  | .mk _ l rs => kMul l ∧ kAddTs rs
def kAddTs : List CAddT → Prop
  | [] => True
  | .mk _ t :: rs => kMul t ∧ kAddTs rs
def kMul : CMul → Prop
  | .mk _ l rs => kMember l ∧ kMulTs rs
def kMulTs : List CMulT → Prop
  | [] => True
  | .mk _ t :: rs => kVal t ∧ kMulTs rs
def kMember : CMember → Prop
  | .mk _ l rs => kVal l ∧ kMTerms rs
def kMTerms : List CMTerm → Prop
  | [] => True
  | .range i j :: rs => kOptVal i ∧ kOptVal j ∧ kMTerms rs
  | .index i :: rs => kVal i ∧ kMTerms rs
  | .field _ :: rs => kMTerms rs
  | .empty :: _ => False
def kOptVal : Option CVal → Prop
  | none => True
  | some x => kVal x
def kComma : CComma → Prop
  | .mk _ l rs => kAnd l ∧ kCommaTs rs
def kCommaTs : List CCommaT → Prop
  | [] => True
  | .mk _ _ none :: rs => kCommaTs rs
  | .mk _ _ (some t) :: rs => kAnd t ∧ kCommaTs rs
def kVal : CVal → Prop
  | .mk _ b => kValB b
def kValB : CValB → Prop
  | .sym s => kSym s
  | .sub c => kComma c
  | .str _ => True
  | .num t => IsTok .number (num t) ∧ num (num t) = num t
  | .bool _ => True
  | .null => True
def kSym : CSym → Prop
  | .mk _ _ _ ps => kArgs ps
def kArgs : List CArg → Prop
  | [] => True
  | a :: as => kArg a ∧ kArgs as
def kArg : CArg → Prop
  | .mk _ _ r => kArgV r
def kArgV : CArgV → Prop
  | .expr e => kAnd e
  | .select q => kSelect q
  | .array c => kComma c
  | .empty => True
def kSelect : CSelect → Prop
  | .mk _ _ _ cols from_ wh gb _ _ => kCols cols ∧ kPlugin from_ ∧ kOptComma wh ∧ kOptComma gb
def kOptComma : Option CComma → Prop
  | none => True
  | some c => kComma c
def kCols : List CCol → Prop
  | [] => True
  | c :: cs => kCol c ∧ kCols cs
def kCol : CCol → Prop
  | .mk _ b a => kColB b a
def kColB : CColB → Str → Prop
  | .star, a => a = []
  | .expr e, _ => kAnd e
  | .select q, _ => kSelect q
def kPlugin : CPlugin → Prop
  | .mk _ _ args => kArgs args
end
end

/-! ## The parser returns such trees -/

section
variable {num : Str → Str} {lim : Str → Option Int}

theorem kw_args : ∀ {as : List CArg}, (∀ a ∈ as, kArg num a → wArg id lim a) → kArgs num as → wArgs id lim as
  | [], _, _ => trivial
  | a :: as, h, hk => ⟨h a (by simp) hk.1, kw_args (fun b hb => h b (by simp [hb])) hk.2⟩

theorem kw_cols : ∀ {as : List CCol}, (∀ a ∈ as, kCol num a → wCol id lim a) → kCols num as → wCols id lim as
  | [], _, _ => trivial
  | a :: as, h, hk => ⟨h a (by simp) hk.1, kw_cols (fun b hb => h b (by simp [hb])) hk.2⟩

theorem kw_ands : ∀ {rs : List CAndT}, (∀ r ∈ rs, kAndTs num [r] → wAndTs id lim [r]) → kAndTs num rs → wAndTs id lim rs
  | [], _, _ => trivial
  | .mk op t :: rs, h, hk => by
    have h1 := h (.mk op t) (by simp) ⟨hk.1, trivial⟩
    exact ⟨h1.1, h1.2.1, kw_ands (fun b hb => h b (by simp [hb])) hk.2⟩

theorem kw_ors : ∀ {rs : List COrT}, (∀ r ∈ rs, kOrTs num [r] → wOrTs id lim [r]) → kOrTs num rs → wOrTs id lim rs
  | [], _, _ => trivial
  | .mk op t :: rs, h, hk => by
    have h1 := h (.mk op t) (by simp) ⟨hk.1, trivial⟩
    exact ⟨h1.1, h1.2.1, kw_ors (fun b hb => h b (by simp [hb])) hk.2⟩

theorem kw_adds : ∀ {rs : List CAddT}, (∀ r ∈ rs, kAddTs num [r] → wAddTs id lim [r]) → kAddTs num rs → wAddTs id lim rs
  | [], _, _ => trivial
  | .mk op t :: rs, h, hk => by
    have h1 := h (.mk op t) (by simp) ⟨hk.1, trivial⟩
    exact ⟨h1.1, h1.2.1, kw_adds (fun b hb => h b (by simp [hb])) hk.2⟩

theorem kw_muls : ∀ {rs : List CMulT}, (∀ r ∈ rs, kMulTs num [r] → wMulTs id lim [r]) → kMulTs num rs → wMulTs id lim rs
  | [], _, _ => trivial
  | .mk op t :: rs, h, hk => by
    have h1 := h (.mk op t) (by simp) ⟨hk.1, trivial⟩
    exact ⟨h1.1, h1.2.1, kw_muls (fun b hb => h b (by simp [hb])) hk.2⟩

theorem kw_mterms : ∀ {rs : List CMTerm}, (∀ r ∈ rs, kMTerms num [r] → wMTerms id lim [r]) →
    kMTerms num rs → wMTerms id lim rs
  | [], _, _ => trivial
  | .range i j :: rs, h, hk => by
    have h1 := h (.range i j) (by simp) ⟨hk.1, hk.2.1, trivial⟩
    exact ⟨h1.1, h1.2.1, kw_mterms (fun b hb => h b (by simp [hb])) hk.2.2⟩
  | .index i :: rs, h, hk => by
    have h1 := h (.index i) (by simp) ⟨hk.1, trivial⟩
    exact ⟨h1.1, kw_mterms (fun b hb => h b (by simp [hb])) hk.2⟩
  | .field i :: rs, h, hk => by
    have h1 := h (.field i) (by simp) trivial
    exact ⟨h1.1, kw_mterms (fun b hb => h b (by simp [hb])) hk⟩
  | .empty :: rs, h, hk => hk.elim

theorem kw_commas : ∀ {rs : List CCommaT}, (∀ r ∈ rs, kCommaTs num [r] → wCommaTs id lim [r]) →
    kCommaTs num rs → wCommaTs id lim rs
  | [], _, _ => trivial
  | .mk c1 c2 none :: rs, h, hk => by
    have h1 := h (.mk c1 c2 none) (by simp) trivial
    exact ⟨h1.1, h1.2.1, kw_commas (fun b hb => h b (by simp [hb])) hk⟩
  | .mk c1 c2 (some t) :: rs, h, hk => by
    have h1 := h (.mk c1 c2 (some t)) (by simp) ⟨hk.1, trivial⟩
    exact ⟨h1.1, h1.2.1, h1.2.2.1, kw_commas (fun b hb => h b (by simp [hb])) hk.2⟩

/-- No field access is ahead. -/
def NoField (R : List Tok) : Prop := ∀ x i R', R = x :: i :: R' → x.text = bs "." → i.kind ≠ .ident

/-- The parser of one field. -/
abbrev fieldP : P Str := (lit (bs ".")).bind fun d => (need (tok .ident)).bind fun i => ret (d ++ i)

theorem lit_inv {s b : Str} {ts r : List Tok} (h : lit s ts = .ok b r) : ∃ t, ts = t :: r ∧ t.text = s ∧ b = s := by
  cases ts with
  | nil => simp [lit] at h
  | cons t ts =>
    simp only [lit] at h
    split at h
    · rename_i ht
      simp only [Res.ok.injEq] at h
      exact ⟨t, by rw [h.2], ht, by rw [← h.1, ht]⟩
    · simp at h

theorem many_end {α : Type} {p : P α} : ∀ {n : Nat} {ts R : List Tok} {as : List α}, many p n ts = .ok as R →
    ∀ x r, p R ≠ .ok x r
  | 0, ts, R, as, h => by simp [many] at h
  | n + 1, ts, R, as, h => by
    simp only [many] at h
    split at h
    · obtain ⟨bs, r2, h1, h2⟩ := bind_inv h
      simp only [ret, Res.ok.injEq] at h2
      rw [← h2.2]
      exact many_end h1
    · rename_i hp
      simp only [Res.ok.injEq] at h
      rw [← h.2, hp]; simp
    · rename_i r1 hp
      split at h
      · simp at h
      · simp only [Res.ok.injEq] at h
        rw [← h.2, hp]; simp
    · simp at h

theorem many_nil {α : Type} {p : P α} : ∀ {n : Nat} {ts R : List Tok}, many p n ts = .ok [] R → R = ts
  | 0, ts, R, h => by simp [many] at h
  | n + 1, ts, R, h => by
    simp only [many] at h
    split at h
    · obtain ⟨bs, r2, h1, h2⟩ := bind_inv h
      simp [ret] at h2
    · simp only [Res.ok.injEq] at h; exact h.2.symm
    · split at h
      · simp at h
      · simp only [Res.ok.injEq] at h; exact h.2.symm
    · simp at h

theorem many_first {α : Type} {p : P α} {n : Nat} {ts R : List Tok} {a : α} {as : List α}
    (h : many p n ts = .ok (a :: as) R) : ∃ r, p ts = .ok a r := by
  cases n with
  | zero => simp [many] at h
  | succ n =>
    simp only [many] at h
    split at h
    · rename_i b r1 hp
      obtain ⟨bs, r2, h1, h2⟩ := bind_inv h
      simp only [ret, Res.ok.injEq, List.cons.injEq] at h2
      exact ⟨r1, by rw [hp, h2.1.1]⟩
    · simp at h
    · split at h <;> simp at h
    · simp at h

theorem noField_of {R : List Tok} (h : ∀ x r, fieldP R ≠ .ok x r) : NoField R := by
  rintro x i R' rfl hx hi
  have h1 : lit (bs ".") (x :: i :: R') = .ok (bs ".") (i :: R') := by
    simp only [lit, hx, if_true]
  have h2 : need (tok .ident) (i :: R') = .ok i.text R' := need_ok (by simp [tok, hi])
  refine h (bs "." ++ i.text) R' ?_
  unfold fieldP
  rw [bind_ok h1, bind_ok h2]
  rfl

theorem dotted_noField {first : P Str} {n : Nat} {ts R : List Tok} {s : Str} (h : dotted first n ts = .ok s R) :
    NoField R := by
  unfold dotted at h
  obtain ⟨a, r1, h1, h2⟩ := bind_inv h
  obtain ⟨as, r2, h3, h4⟩ := bind_inv h2
  simp only [ret, Res.ok.injEq] at h4
  rw [← h4.2]
  exact noField_of (many_end h3)

theorem sym_noField {n : Nat} {ts R : List Tok} {cs : List Comment} {s : Str} {ps : List CArg}
    (h : pSym lim n ts = .ok (.mk cs s false ps) R) : NoField R := by
  cases n with
  | zero => simp [pSym] at h
  | succ n =>
    simp only [pSym] at h
    obtain ⟨c, r1, h1, h2⟩ := bind_inv h
    obtain ⟨d, r2, h3, h4⟩ := bind_inv h2
    obtain ⟨calls, r3, h5, h6⟩ := bind_inv h4
    simp only [ret, Res.ok.injEq, CSym.mk.injEq, Bool.not_eq_false', List.isEmpty_iff] at h6
    rw [h6.1.2.2.1] at h5
    rw [← h6.2, many_nil h5]
    exact dotted_noField (need_inv h3)

theorem val_noField {n : Nat} {ts R : List Tok} {v : CVal} (h : pVal lim n ts = .ok v R) (ho : openSym v = true) :
    NoField R := by
  cases n with
  | zero => simp [pVal] at h
  | succ n =>
    simp only [pVal] at h
    obtain ⟨c, r1, h1, h2⟩ := bind_inv h
    obtain ⟨b, r2, h3, h4⟩ := bind_inv h2
    simp only [ret, Res.ok.injEq] at h4
    obtain ⟨rfl, rfl⟩ := h4
    have hb : ∃ sy, b = .sym sy := by
      cases b with
      | sym sy => exact ⟨sy, rfl⟩
      | _ => simp [openSym] at ho
    obtain ⟨⟨cs, s, called, ps⟩, rfl⟩ := hb
    simp only [openSym, Bool.not_eq_true'] at ho
    subst ho
    have nomap : ∀ {α : Type} {p : P α} {f : α → CValB} {ts r : List Tok}, (∀ a, f a ≠ .sym (.mk cs s false ps)) →
        p.map f ts ≠ .ok (.sym (.mk cs s false ps)) r := by
      intro α p f ts r hf hh
      obtain ⟨a, r1, _, h2⟩ := bind_inv hh
      simp only [ret, Res.ok.injEq] at h2
      exact hf a h2.1
    rcases alt_inv (need_inv h3) with h | h
    · obtain ⟨sy, r3, h5, h6⟩ := bind_inv h
      simp only [ret, Res.ok.injEq, CValB.sym.injEq] at h6
      rw [← h6.2]
      exact sym_noField (h6.1 ▸ h5)
    · exfalso
      rcases alt_inv h with h | h
      · obtain ⟨_, _, _, h⟩ := bind_inv h
        obtain ⟨_, _, _, h⟩ := bind_inv h
        obtain ⟨_, _, _, h⟩ := bind_inv h
        simp [ret] at h
      · rcases alt_inv h with h | h
        · exact nomap (by simp) h
        · rcases alt_inv h with h | h
          · exact nomap (by simp) h
          · rcases alt_inv h with h | h
            · exact nomap (by simp) h
            · exact nomap (by simp) h

end

end Vfilter.Fmt
