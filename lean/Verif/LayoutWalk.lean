import Verif.LayoutText
/-!
# Every layout of a tree has the tokens of the tree
-/

set_option linter.all false

namespace Vfilter.Fmt.Lay

/-! ## Words and operators in front of a blank or a newline -/

theorem kw_blank {k : TK} (hk : k ∈ [TK.and_, .or_]) {t r : Str} (h : IsTok k t) (hr : Fo r) :
    firstRule rules (t ++ r) = some (k, t, r) := by
  obtain ⟨e, r, rfl, he⟩ := hr
  have hbd : atBoundary (e :: r) = true := by rcases he with rfl | rfl <;> rfl
  obtain ⟨c, s, rfl, hc, hs⟩ := caps_of_mem (by
    simp only [List.mem_cons, List.not_mem_nil, or_false] at hk ⊢
    rcases hk with rfl | rfl <;> simp) h
  have hlen : (c :: s).length < 5 := by
    obtain ⟨f, hf, hs⟩ := first_mem h
    simp only [List.mem_cons, List.not_mem_nil, or_false] at hk
    rcases hk with rfl | rfl
    all_goals
      simp [rules] at hf
      rw [hf] at hs
      unfold keyword at hs
      split at hs
      · rename_i a b hp
        have := fold_len hp
        split at hs
        · simp only [Option.some.injEq, Prod.mk.injEq] at hs
          rw [hs.1] at this
          rw [this]; decide
        · simp at hs
      · simp at hs
  rw [word_fol hc hs hbd, h]
  · rfl
  · intro v hv
    have h5 : v.length = 5 ∧ Caps v := by
      simp only [List.mem_cons, List.not_mem_nil, or_false] at hv
      rcases hv with rfl | rfl <;> decide
    have hn : foldPrefix v (c :: s) = none := by
      cases hp : foldPrefix v (c :: s) with
      | none => rfl
      | some p =>
        have h1 := fold_len (m := p.1) (x := p.2) hp
        have h2 := splits_fold _ _ p.1 p.2 hp
        have := congrArg List.length h2
        rw [List.length_append] at this
        omega
    have hn2 := fold_none (r := e :: r) hbd h5.2 hn
    apply app_none
    · simp [keyword2, hn]
    · simp only [keyword2, hn2]

theorem bar_blank {t r : Str} (h : IsTok .altOr t) (hr : Fo r) :
    firstRule rules (t ++ r) = some (.altOr, t, r) := by
  obtain ⟨e, r, rfl, he⟩ := hr
  obtain ⟨f, hf, hs⟩ := first_mem h
  simp [rules] at hf
  rw [hf] at hs
  have happ := app_many1 (p := fun x => x == 124) (r := e :: r) (by rcases he with rfl | rfl <;> rfl) t
  unfold App at happ
  rw [hs] at happ
  have h9 : firstRule (rules.take 9) (t ++ e :: r) = none := by
    cases t with
    | nil => exact absurd hs (by decide)
    | cons c s =>
      have : c = 124 := by
        rw [many1_eq] at hs
        split at hs
        · simp at hs
        · rename_i hne
          by_cases hc : c = 124
          · exact hc
          · simp [hc] at hne
      subst this
      rfl
  rw [rules_split 9, first_append, h9]
  show firstRule ((.altOr, many1 (fun x => x == 124)) :: rules.drop 10) _ = _
  simp [firstRule, happ]

theorem lx_one {t : Tok} {r : Str} (h : firstRule rules (t.text ++ r) = some (t.kind, t.text, r))
    (hne : t.text ≠ []) (hk : t.kind ≠ .space := by simp) (hm : mkTok t.kind t.text = t := by rfl) :
    Lx [some t] r := lx_tok (a := []) (by simpa [render] using h) hne (lx_nil r) hk hm

/-- A word or an operator, in front of a blank. -/
structure OpTok (t : Tok) : Prop where
  hard : Hard t.text
  noB : notB t.text
  reads : ∀ r, Fo r → Lx [some t] r

theorem optok_and {op : Str} (h : IsTok .and_ op ∨ IsTok .altAnd op) : OpTok (andTok op) := by
  refine ⟨?_, by rw [andTok_text]; exact and_notB h, ?_⟩
  · rw [andTok_text]
    rcases h with h | h
    · exact ⟨okay_hard (okay_kw (by simp) h), (solid_kw (by simp) h).1⟩
    · rw [amp_eq h]; exact ⟨⟨_, _, rfl, rfl⟩, _, rfl, rfl⟩
  · intro r hr
    unfold andTok
    by_cases ha : IsTok .altAnd op
    · rw [if_pos ha]
      have := amp_eq ha
      subst this
      refine lx_one ?_ (by decide)
      obtain ⟨e, r, rfl, rfl | rfl⟩ := hr <;> rfl
    · rw [if_neg ha]
      exact lx_one (kw_blank (by simp) (h.resolve_right ha) hr) (tok_ne (h.resolve_right ha))

theorem takeWhile_bar : ∀ (s : Str) (c : UInt8), c ∈ s.takeWhile (fun x => x == 124) → c = 124
  | [], c, h => by simp at h
  | d :: s, c, h => by
    by_cases hd : d = 124
    · rw [List.takeWhile_cons_of_pos (by simpa using hd)] at h
      rcases List.mem_cons.1 h with rfl | h
      · exact hd
      · exact takeWhile_bar s c h
    · rw [List.takeWhile_cons_of_neg (by simpa using hd)] at h
      simp at h

theorem optok_or {op : Str} (h : IsTok .or_ op ∨ IsTok .altOr op) : OpTok (orTok op) := by
  refine ⟨?_, by rw [orTok_text]; exact or_notB h, ?_⟩
  · rw [orTok_text]
    rcases h with h | h
    · exact ⟨okay_hard (okay_kw (by simp) h), (solid_kw (by simp) h).1⟩
    · obtain ⟨f, hf, hs⟩ := first_mem h
      simp [rules] at hf
      rw [hf] at hs
      rw [many1_eq] at hs
      split at hs
      · simp at hs
      · rename_i hne
        simp only [Option.some.injEq, Prod.mk.injEq] at hs
        have hall : ∀ c ∈ op, c = 124 := by
          intro c hc
          rw [← hs.1] at hc
          exact takeWhile_bar op c hc
        cases op with
        | nil => exact absurd rfl (tok_ne h)
        | cons c s =>
          refine ⟨⟨c, s, rfl, by rw [hall c (by simp)]; rfl⟩, ?_⟩
          cases hl : (c :: s).getLast? with
          | none => simp at hl
          | some d => exact ⟨d, rfl, by rw [hall d (List.mem_of_getLast? hl)]; rfl⟩
  · intro r hr
    unfold orTok
    by_cases ha : IsTok .altOr op
    · rw [if_pos ha]
      exact lx_one (bar_blank ha hr) (tok_ne ha)
    · rw [if_neg ha]
      exact lx_one (kw_blank (by simp) (h.resolve_right ha) hr) (tok_ne (h.resolve_right ha))

theorem optok_cmp {op : Str} (h : op ∈ cmpOps) : OpTok (cmpTok op) := by
  refine ⟨?_, by rw [cmpTok_text]; exact cmp_notB h, ?_⟩
  · rw [cmpTok_text]
    simp only [cmpOps, List.mem_cons, List.not_mem_nil, or_false] at h
    rcases h with rfl | rfl | rfl | rfl | rfl | rfl | rfl | rfl | rfl <;> exact ⟨⟨_, _, rfl, rfl⟩, _, rfl, rfl⟩
  · intro r hr
    simp only [cmpOps, List.mem_cons, List.not_mem_nil, or_false] at h
    obtain ⟨e, r, rfl, rfl | rfl⟩ := hr <;>
    rcases h with rfl | rfl | rfl | rfl | rfl | rfl | rfl | rfl | rfl <;>
      exact lx_one rfl (by decide) (by decide)

theorem optok_ar {op : Str} (h : op ∈ [bs "+", bs "-", bs "*", bs "/"]) : OpTok ⟨.op, op⟩ := by
  simp only [List.mem_cons, List.not_mem_nil, or_false] at h
  refine ⟨?_, ar_notB (by simpa using h), ?_⟩
  · rcases h with rfl | rfl | rfl | rfl <;> exact ⟨⟨_, _, rfl, rfl⟩, _, rfl, rfl⟩
  · intro r hr
    obtain ⟨e, r, rfl, rfl | rfl⟩ := hr <;>
    rcases h with rfl | rfl | rfl | rfl <;> exact lx_one rfl (by decide)

theorem optok_let {op : Str} (h : op = bs "=" ∨ op = bs "<=") : OpTok ⟨.op, op⟩ := by
  have := optok_cmp (op := op) (by rcases h with rfl | rfl <;> decide)
  rcases h with rfl | rfl <;> exact this

/-- The keywords of the grammar. -/
def kwToks : List Tok := [⟨.not_, bs "NOT"⟩, ⟨.explain, bs "EXPLAIN"⟩, ⟨.select, bs "SELECT"⟩, ⟨.from_, bs "FROM"⟩,
  ⟨.where_, bs "WHERE"⟩, ⟨.groupBy, bs "GROUP BY"⟩, ⟨.orderBy, bs "ORDER BY"⟩, ⟨.limit, bs "LIMIT"⟩, ⟨.as_, bs "AS"⟩,
  ⟨.let_, bs "LET"⟩]

theorem optok_kw {t : Tok} (h : t ∈ kwToks) : OpTok t ∧ Okay t.text ∧ ∀ c ∈ t.text, c ≠ 10 := by
  simp only [kwToks, List.mem_cons, List.not_mem_nil, or_false] at h
  refine ⟨⟨?_, ?_, ?_⟩, ?_, ?_⟩
  · rcases h with rfl | rfl | rfl | rfl | rfl | rfl | rfl | rfl | rfl | rfl <;> exact ⟨⟨_, _, rfl, rfl⟩, _, rfl, rfl⟩
  · rcases h with rfl | rfl | rfl | rfl | rfl | rfl | rfl | rfl | rfl | rfl <;> exact ⟨_, _, rfl, rfl, by decide⟩
  · intro r hr
    obtain ⟨e, r, rfl, rfl | rfl⟩ := hr <;>
    rcases h with rfl | rfl | rfl | rfl | rfl | rfl | rfl | rfl | rfl | rfl <;> exact lx_one rfl (by decide)
  · rcases h with rfl | rfl | rfl | rfl | rfl | rfl | rfl | rfl | rfl | rfl <;> exact ⟨_, _, rfl, rfl⟩
  · rcases h with rfl | rfl | rfl | rfl | rfl | rfl | rfl | rfl | rfl | rfl <;> decide

/-! ## Tokens that are not changed -/

/-- The texts of the tokens are `C`. -/
def CC (C : Str → Prop) (is : List Item) : Prop := ∀ t ∈ toks is, C t.text

theorem cc_append {C : Str → Prop} {a b : List Item} : CC C (a ++ b) ↔ CC C a ∧ CC C b := by
  unfold CC
  rw [toks_append]
  simp only [List.mem_append]
  exact ⟨fun h => ⟨fun t ht => h t (.inl ht), fun t ht => h t (.inr ht)⟩, fun h t ht => ht.elim (h.1 t) (h.2 t)⟩

theorem cc_some {C : Str → Prop} {t : Tok} {b : List Item} : CC C (some t :: b) ↔ C t.text ∧ CC C b := by
  unfold CC
  rw [toks_some]
  simp

theorem cc_none {C : Str → Prop} {b : List Item} : CC C (none :: b) ↔ CC C b := by
  unfold CC
  rw [toks_none]

theorem cc_nil {C : Str → Prop} : CC C [] ↔ True := by simp [CC, toks]

theorem cc_names {C : Str → Prop} (hd : ∀ a b : Str, C a → C b → C (a ++ 46 :: b)) : ∀ (as : List Str) (a : Str),
    C a → (∀ b ∈ as, C b) → C (a ++ (as.map (46 :: ·)).flatten)
  | [], a, ha, _ => by simpa using ha
  | b :: as, a, ha, h => by
    have := cc_names hd as (a ++ 46 :: b) (hd a b ha (h b (by simp))) (fun c hc => h c (by simp [hc]))
    simpa using this

theorem cc_name {C : Str → Prop} (hd : ∀ a b : Str, C a → C b → C (a ++ 46 :: b)) {ks : List TK}
    (hks : ∀ k ∈ ks, k ∈ [TK.symIdent, .ident]) {n : Str} (h : DotName ks n) (hc : CC C (nameItems n)) : C n := by
  obtain ⟨k, a, as, _, _, _, rfl, hi⟩ := name_items hks h
  rw [hi, cc_some] at hc
  refine cc_names hd as a hc.1 ?_
  have : ∀ as : List Str, CC C (restItems as) → ∀ b ∈ as, C b := by
    intro as
    induction as with
    | nil => simp
    | cons x as ih =>
      intro h b hb
      have h' : CC C (iop (bs ".") :: some ⟨.ident, x⟩ :: restItems as) := h
      rw [show iop (bs ".") = some ⟨.op, bs "."⟩ from rfl, cc_some, cc_some] at h'
      rcases List.mem_cons.1 hb with rfl | hb
      · exact h'.2.1
      · exact ih h'.2.2 b hb
  exact this as hc.2

/-! ## Steps -/

/-- What a query may start with. -/
def KS (r : Str) : Prop := Okay r ∧ notB r

section
variable {τ : Str → Str} {C : Str → Prop}

theorem At.any {fs : List Str} {ts : List Tok} {g : Bool} (h : At τ fs ts Fa g) (K : Str → Prop) : Beg τ K fs ts :=
  ⟨Fa, g, h, fun _ _ _ _ _ => trivial⟩

theorem fo_blk {b r : Str} (hb : Blk b) (hne : b ≠ []) : Fo (b ++ r) := by
  cases b with
  | nil => exact absurd rfl hne
  | cons c b => exact ⟨c, b ++ r, rfl, hb c (by simp)⟩

theorem At.after {fs : List Str} {ts : List Tok} (h : At τ fs ts Fo true) (K : Str → Prop) : Beg τ K fs ts :=
  ⟨Fo, true, h, fun b r hb hg _ => fo_blk hb (hg rfl)⟩

theorem At.eqn {fs : List Str} {ts : List Tok} {g : Bool} (h : At τ fs ts Fe g) : Beg τ Okay fs ts :=
  ⟨Fe, g, h, fun b r hb hg hr => by
    by_cases hne : b = []
    · subst hne; exact .inl hr
    · exact .inr (fo_blk hb hne)⟩

theorem At.stmt {fs : List Str} {ts : List Tok} (h : At τ fs ts Fv true) : Beg τ KS fs ts :=
  ⟨Fv, true, h, fun b r hb hg hr => blk_fol hb (hg rfl) (by
    have := noB_of hr.2 []
    rwa [List.append_nil] at this)⟩

theorem Beg.imp {K L : Str → Prop} {fs : List Str} {ts : List Tok} (h : Beg τ K fs ts) (i : ∀ r, L r → K r) :
    Beg τ L fs ts := by
  obtain ⟨F, g, h1, h2⟩ := h
  exact ⟨F, g, h1, fun b r hb hg hr => h2 b r hb hg (i r hr)⟩

theorem Beg.ks {fs : List Str} {ts : List Tok} (h : Beg τ Okay fs ts) : Beg τ KS fs ts := h.imp fun _ h => h.1

theorem Fin.at {fs : List Str} {ts : List Tok} (h : Fin τ fs ts) : ∃ g, At τ fs ts Fv g := by
  obtain ⟨g, h, _⟩ := h; exact ⟨g, h⟩

theorem fa_of : ∀ r : Str, Fv r → Fa r := fun _ _ => trivial

/-- Punctuation behind a value. -/
theorem At.punct (T : Tau τ C) {fs : List Str} {ts : List Tok} {g : Bool} (h : At τ fs ts Fv g) (c : UInt8)
    (hc : c ∈ ([40, 41, 91, 93, 125, 44, 58] : Str) := by decide) :
    At τ (fs ++ [[c]]) (ts ++ [⟨.op, [c]⟩]) Fa false := by
  have h' : At τ fs ts Fv false := by
    obtain ⟨x, b, h1, h2, h3, h4, h5⟩ := h
    exact ⟨x, b, h1, h2, h3, by simp, h5⟩
  have := h'.unit T (G := Fa) [iop [c]] (s := [c]) rfl (T.plain _ (by
    intro d hd
    simp at hd
    subst hd
    rintro rfl
    exact absurd hc (by decide))) ?_ ?_ ?_
  · exact this
  · simp only [List.mem_cons, List.not_mem_nil, or_false] at hc
    rcases hc with rfl | rfl | rfl | rfl | rfl | rfl | rfl <;> exact ⟨⟨_, _, rfl, rfl⟩, _, rfl, rfl⟩
  · intro b r hb hg _
    refine fv_any hb ?_ ?_
    · simp only [List.mem_cons, List.not_mem_nil, or_false] at hc
      rcases hc with rfl | rfl | rfl | rfl | rfl | rfl | rfl <;> exact ⟨_, _, rfl, rfl, by decide⟩
    · simp only [List.mem_cons, List.not_mem_nil, or_false] at hc
      rcases hc with rfl | rfl | rfl | rfl | rfl | rfl | rfl <;> rfl
  · intro r _
    refine lx_punct c (lx_nil r) ?_
    simp only [List.mem_cons, List.not_mem_nil, or_false] at hc ⊢
    rcases hc with rfl | rfl | rfl | rfl | rfl | rfl | rfl <;> simp

/-- A closing bracket behind a value. -/
theorem At.close (T : Tau τ C) {fs : List Str} {ts : List Tok} {g : Bool} (h : At τ fs ts Fv g) (c : UInt8)
    (hc : c ∈ ([41, 93, 125] : Str) := by decide) : Fin τ (fs ++ [[c]]) (ts ++ [⟨.op, [c]⟩]) := by
  refine (h.punct T c ?_).solid fa_of ?_
  · simp only [List.mem_cons, List.not_mem_nil, or_false] at hc ⊢
    rcases hc with rfl | rfl | rfl <;> simp
  · simp only [List.mem_cons, List.not_mem_nil, or_false] at hc
    rcases hc with rfl | rfl | rfl <;> decide

/-- A comma and a blank. -/
theorem Fin.comma (T : Tau τ C) {v : Vis} {ts : List Tok} (h : Fin τ v.frags ts) :
    At τ (pushes [bs ",", bs " "] v).frags (ts ++ [⟨.op, bs ","⟩]) Fa true := by
  obtain ⟨g, h⟩ := h.at
  exact (h.punct T 44).blank (s := [32]) (by intro c hc; simp at hc; exact .inl hc) (by simp)

theorem sp_blk : Blk [32] := by intro c hc; simp at hc; exact .inl hc
theorem sp2_blk : Blk [32, 32] := by intro c hc; simp at hc; exact .inl hc

/-- An operator between blanks. -/
theorem At.binop (T : Tau τ C) {v : Vis} {ts : List Tok} {g : Bool} (h : At τ v.frags ts Fv g) {t : Tok} {op : Str}
    (ht : OpTok t) (he : t.text = op) (hC : C op) :
    Beg τ Okay (pushes [bs " ", op, bs " "] v).frags (ts ++ [t]) := by
  subst he
  have h1 := h.blank (s := [32]) sp_blk (by simp)
  have h2 := h1.unit T (G := Fo) [some t] (s := t.text) (by simp [render]) hC ht.hard
    (fun b r hb hg _ => fv_gap hb (hg rfl) ht.noB) ht.reads
  have h3 := h2.blank (s := [32]) sp_blk (by simp)
  exact (h3.after Okay).toks (by simp [Fmt.toks])

/-- A keyword and a blank. -/
theorem At.kw (T : Tau τ C) {fs : List Str} {ts : List Tok} {F : Str → Prop} {g : Bool} (h : At τ fs ts F g) (t : Tok)
    (hF : ∀ b r, Blk b → (g = true → b ≠ []) → Fo r → F (b ++ (t.text ++ r)))
    (ht : t ∈ kwToks := by decide) : At τ (fs ++ [t.text ++ [32]]) (ts ++ [t]) Fo true := by
  obtain ⟨hk, _, hn⟩ := optok_kw ht
  have h2 := h.unit T (G := Fo) [some t] (s := t.text) (by simp [render]) (T.plain _ hn) hk.hard hF hk.reads
  have h3 := h2.blank (s := [32]) sp_blk (by simp)
  exact (h3.text (by simp)).toks (by simp [Fmt.toks])

theorem At.kw_gap (T : Tau τ C) {fs : List Str} {ts : List Tok} (h : At τ fs ts Fv true) (t : Tok)
    (ht : t ∈ kwToks := by decide) : At τ (fs ++ [t.text ++ [32]]) (ts ++ [t]) Fo true :=
  h.kw T t (fun b r hb hg _ => fv_gap hb (hg rfl) (optok_kw ht).1.noB) ht

theorem Beg.kw (T : Tau τ C) {K : Str → Prop} {fs : List Str} {ts : List Tok} (h : Beg τ K fs ts) (t : Tok)
    (hK : ∀ r, KS r → K r) (ht : t ∈ kwToks := by decide) : At τ (fs ++ [t.text ++ [32]]) (ts ++ [t]) Fo true := by
  obtain ⟨F, g, h1, h2⟩ := h
  obtain ⟨hk, ho, _⟩ := optok_kw ht
  refine h1.kw T t (fun b r hb hg _ => h2 b _ hb hg (hK _ ⟨ho.append r, ?_⟩)) ht
  obtain ⟨c, s, e, h3, h4⟩ := hk.noB
  exact ⟨c, s ++ r, by rw [e]; rfl, h3, h4⟩

/-- An opening bracket or a star where an expression starts. -/
theorem Beg.punct (T : Tau τ C) {fs : List Str} {ts : List Tok} (h : Beg τ Okay fs ts) (c : UInt8)
    (hc : c ∈ ([40, 123, 91, 42] : Str) := by decide) : At τ (fs ++ [[c]]) (ts ++ [⟨.op, [c]⟩]) Fa false := by
  have := h.unit T (G := Fa) [iop [c]] (s := [c]) rfl (T.plain _ (by
    intro d hd
    simp at hd
    subst hd
    rintro rfl
    exact absurd hc (by decide))) ?_ ?_ ?_
  · exact this
  · simp only [List.mem_cons, List.not_mem_nil, or_false] at hc
    rcases hc with rfl | rfl | rfl | rfl <;> exact ⟨⟨_, _, rfl, rfl⟩, _, rfl, rfl⟩
  · intro r _
    simp only [List.mem_cons, List.not_mem_nil, or_false] at hc
    rcases hc with rfl | rfl | rfl | rfl <;> exact ⟨_, _, rfl, rfl⟩
  · intro r _
    simp only [List.mem_cons, List.not_mem_nil, or_false] at hc
    rcases hc with rfl | rfl | rfl | rfl
    · exact lx_punct 40 (lx_nil r)
    · exact lx_punct 123 (lx_nil r)
    · exact lx_punct 91 (lx_nil r)
    · refine lx_op ?_ (lx_nil r)
      show firstRule rules (42 :: r) = some (.op, [42], r)
      cases r <;> rfl

/-- A token that is a value. -/
theorem Beg.value (T : Tau τ C) {fs : List Str} {ts : List Tok} (h : Beg τ Okay fs ts) (a : List Item) {s : Str}
    (hs : render a = s) (hC : C s) (hsol : Solid s) (ho : Okay s) (hL : ∀ r, folE r = true → Lx a r) :
    At τ (fs ++ [s]) (ts ++ Fmt.toks a) Fv false :=
  h.unit T a hs hC ⟨okay_hard ho, hsol.1⟩ (fun r _ => ho.append r) hL

theorem Beg.fin (T : Tau τ C) {fs : List Str} {ts : List Tok} (h : Beg τ Okay fs ts) (a : List Item) {s : Str}
    (hs : render a = s) (hC : C s) (hsol : Solid s) (ho : Okay s) (hL : ∀ r, folE r = true → Lx a r) :
    Fin τ (fs ++ [s]) (ts ++ Fmt.toks a) := (h.value T a hs hC hsol ho hL).solid (fun _ h => h) hsol.2

theorem ident_okay {n : Str} (h : IsTok .ident n) : Okay n := by
  rcases ident_shape (ident_rule h) with ⟨c, s, rfl, hc, hs⟩ | ⟨m, rfl, hm, hq⟩
  · exact ⟨c, s, rfl, okHead_name c (.inl hc)⟩
  · exact ⟨96, _, rfl, rfl⟩

/-- An identifier. -/
theorem Beg.ident (T : Tau τ C) {fs : List Str} {ts : List Tok} (h : Beg τ Okay fs ts) {n : Str}
    (hn : IsTok .ident n) (hC : C n) : Fin τ (fs ++ [n]) (ts ++ [⟨.ident, n⟩]) :=
  h.fin T [some ⟨.ident, n⟩] (by simp [render]) hC (solid_ident hn) (ident_okay hn)
    (fun r hr => lx_one (ident_fol hn hr) (tok_ne hn))

/-- `AS` and a name. -/
theorem Fin.as_ (T : Tau τ C) {v : Vis} {ts : List Tok} (h : Fin τ v.frags ts) {a : Str} (ha : IsTok .ident a)
    (hC : C a) : Fin τ (pushes [bs " AS ", a] v).frags (ts ++ [⟨.as_, bs "AS"⟩, ⟨.ident, a⟩]) := by
  obtain ⟨g, h⟩ := h.at
  have h1 := h.blank (s := [32]) sp_blk (by simp)
  have h2 := (h1.kw_gap T ⟨.as_, bs "AS"⟩).text (gs := v.frags ++ [bs " AS "]) (by
    simp [show bs " AS " = 32 :: (bs "AS" ++ [32]) from rfl])
  exact ((h2.after Okay).ident T ha hC).toks (by simp)

/-- The three layouts of an argument list. -/
theorem y_call (T : Tau τ C) {better : Vis → Vis → Bool} {one many : Vis → Vis} {v : Vis} {ts A : List Tok}
    (h1 : ∀ w us, Beg τ Okay w.frags us → Fin τ (one w).frags (us ++ A))
    (h2 : ∀ w us, Beg τ Okay w.frags us → Fin τ (many w).frags (us ++ A)) (h : Fin τ v.frags ts) :
    Fin τ (callLayouts better one many v).frags (ts ++ ⟨.op, bs "("⟩ :: (A ++ [⟨.op, bs ")"⟩])) := by
  obtain ⟨g, h⟩ := h.at
  have h0 := h.punct T 40
  unfold callLayouts
  refine ab_frags (P := fun fs => Fin τ fs _) (by simp) ?_
  intro cb hcb
  simp only [List.mem_cons, List.not_mem_nil, or_false] at hcb
  rcases hcb with rfl | rfl | rfl
  · obtain ⟨g', h3⟩ := (h1 (push (bs "(") { v.copy with breakLines := false }) _ (h0.any Okay)).at
    exact (h3.close T 41).toks (by simp [show bs "(" = [40] from rfl, show bs ")" = [41] from rfl])
  · obtain ⟨g', h3⟩ := (h2 (pushIndent (push (bs "(") v.copy)) _ (h0.any Okay)).at
    exact (h3.close T 41).toks (by simp [show bs "(" = [40] from rfl, show bs ")" = [41] from rfl])
  · have hb : Beg τ Okay (lineBreak (indentIn (push (bs "(") v.copy))).frags (ts ++ [⟨.op, [40]⟩]) :=
      Beg.lineBreak (v := indentIn (push (bs "(") v.copy)) (h0.any Okay)
    obtain ⟨g', h3⟩ := (h2 _ _ hb).at
    exact (h3.close T 41).toks (by simp [show bs "(" = [40] from rfl, show bs ")" = [41] from rfl])

theorem popIndents_frags : ∀ (n : Nat) (w : Vis), (popIndents n w).frags = w.frags
  | 0, _ => rfl
  | n + 1, w => popIndents_frags n (popIndent w)

theorem toks_iop (s : Str) (a : List Item) : toks (iop s :: a) = ⟨.op, s⟩ :: toks a := toks_some _ _

theorem cc_iop {C : Str → Prop} {s : Str} {b : List Item} : CC C (iop s :: b) ↔ C s ∧ CC C b := cc_some

theorem toks_colonGap (j : Option CVal) : toks (colonGap j) = [] := by
  unfold colonGap
  split <;> rfl

/-- `=` behind the name of an argument. -/
theorem y_eq (T : Tau τ C) {fs : List Str} {ts : List Tok} (h : Beg τ Okay fs ts) {n : Str} (hn : IsTok .ident n)
    (hC : C n) : At τ (fs ++ [n] ++ [bs "="]) (ts ++ [⟨.ident, n⟩, ⟨.op, bs "="⟩]) Fe false := by
  obtain ⟨g, h1⟩ := (h.ident T hn hC).at
  have h1' : At τ (fs ++ [n]) (ts ++ [⟨.ident, n⟩]) Fv false := by
    obtain ⟨x, b, k1, k2, k3, k4, k5⟩ := h1
    exact ⟨x, b, k1, k2, k3, by simp, k5⟩
  have h2 := h1'.unit T (G := Fe) [iop (bs "=")] (s := bs "=") rfl (T.plain _ (by decide))
    ⟨⟨_, _, rfl, rfl⟩, _, rfl, rfl⟩ (fun b r hb _ _ => fv_any hb ⟨_, _, rfl, rfl, by decide⟩ rfl) ?_
  · exact h2.toks (by simp [toks_iop, toks_nil])
  · intro r hr
    refine lx_op ?_ (lx_nil r)
    rcases hr with hr | ⟨e, r, rfl, rfl | rfl⟩
    · exact eq_first hr
    · rfl
    · rfl

theorem fin_gbEnd {w : Vis} {ts : List Tok} (h : Fin τ w.frags ts) (gb : Option CComma) :
    Fin τ (gbEnd gb w).frags ts := by cases gb <;> exact h

theorem y_ob (T : Tau τ C) (ob : Option (Str × Bool)) {w : Vis} {ts : List Tok}
    (hob : ∀ k, ob.map Prod.fst = some k → IsTok .ident k) (hC : CC C (obItems ob)) (h : Fin τ w.frags ts) :
    Fin τ (obStep ob w).frags (ts ++ toks (obItems ob)) := by
  rcases ob with _ | ⟨k, desc⟩
  · exact h.toks (by simp [obItems, toks])
  · have hk := hob k rfl
    have hCk : C k := by
      simp only [obItems, cc_none, cc_some] at hC
      exact hC.2.1
    have h1 := h.lineBreak.kw_gap T ⟨.orderBy, bs "ORDER BY"⟩
    have h2 := (h1.after Okay).ident T hk hCk
    cases desc with
    | false => exact h2.toks (by simp [obItems, toks])
    | true =>
      obtain ⟨g, h3⟩ := h2.at
      have h4 := h3.blank (s := [32]) sp_blk (by simp)
      have h5 := h4.unit T (G := Fv) [some ⟨.desc, bs "DESC"⟩] (s := bs "DESC") (by simp [render])
        (T.plain _ (by decide)) ⟨⟨_, _, rfl, rfl⟩, _, rfl, rfl⟩
        (fun b r hb hg _ => fv_gap hb (hg rfl) ⟨_, _, rfl, rfl, by decide⟩) (fun r hr => lx_one (by
          have := word_fol' (c := 68) (t := [69, 83, 67]) rfl (by decide) hr
          exact this) (by decide))
      have h6 := h5.blank (s := [32]) sp_blk (by simp)
      have h7 : Fin τ (obStep (some (k, true)) w).frags _ := (h6.text (by
        show ((lineBreak w).frags ++ [bs "ORDER BY "] ++ [k] ++ [bs " DESC "]).flatten = _
        simp [show bs "ORDER BY " = bs "ORDER BY" ++ [32] from rfl, show bs " DESC " = 32 :: (bs "DESC" ++ [32]) from rfl])).gap
      exact h7.toks (by simp [obItems, toks])

theorem y_lim (T : Tau τ C) (lim : Str → Option Int) (li : Option Int) {w : Vis} {ts : List Tok}
    (hl : ∀ n, li = some n → IsTok .number (intText n) ∧ lim (intText n) = some n) (hC : CC C (limItems li))
    (h : Fin τ w.frags ts) : Fin τ (limStep li w).frags (ts ++ toks (limItems li)) := by
  cases li with
  | none => exact h.toks (by simp [limItems, toks])
  | some n =>
    have hn := (hl n rfl).1
    have hCn : C (intText n) := by
      simp only [limItems, cc_none, cc_some] at hC
      exact hC.2.1
    have h1 := h.lineBreak.kw_gap T ⟨.limit, bs "LIMIT"⟩
    have h2 := (h1.after Okay).value T [some ⟨.number, intText n⟩] (s := intText n) (by simp [render]) hCn
      (solid_num hn) (okay_num hn) (fun r hr => lx_one (num_fol hn hr) (tok_ne hn))
    have h3 := h2.blank (s := [32]) sp_blk (by simp)
    have h4 : Fin τ (limStep (some n) w).frags _ := (h3.text (by
      show ((lineBreak w).frags ++ [bs "LIMIT " ++ intText n ++ bs " "]).flatten = _
      simp [show bs "LIMIT " = bs "LIMIT" ++ [32] from rfl, show bs " " = [32] from rfl])).gap
    exact h4.toks (by simp [limItems, toks])
end

end Vfilter.Fmt.Lay
