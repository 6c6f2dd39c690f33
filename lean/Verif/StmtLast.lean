import Verif.StmtStay
import Verif.RoundRead
/-!
# What a statement ends with

The last token of a statement that was read is a word, a literal, a closing bracket or, behind a
list, a comma.  Together with `StmtStay` this is what makes several statements in a row come apart
where they were put together.
-/

set_option linter.all false

namespace Vfilter.Fmt

/-! ## Only operators look like operators -/

/-- Only operators have the text of an operator. -/
def Kin (t : Tok) : Prop := t.kind ≠ .op → t.text ∉ opTexts

theorem kin_fold {w s m r : Str} (h : foldPrefix w s = some (m, r)) (hw : 2 < w.length) (x : Str) :
    m ++ x ∉ opTexts := by
  have h1 := fold_upper h
  have h2 : m.length = w.length := by rw [← h1, List.length_map]
  intro hm
  have : ∀ o ∈ opTexts, o.length ≤ 2 := by decide
  have := this _ hm
  simp only [List.length_append] at this
  omega

theorem kin_key {w s m r : Str} (h : keyword w s = some (m, r)) (hw : ∀ o ∈ opTexts, o.map upper ≠ w) :
    m ∉ opTexts := fun hm => hw m hm (fold_upper (keyword_some h).1)

theorem kin_line {c s m r} (h : lineFrom [c, c] s = some (m, r)) (hc : c ≠ 10)
    (ho : ∀ o ∈ opTexts, o.take 2 ≠ [c, c]) : m ∉ opTexts := by
  unfold lineFrom at h
  split at h
  · rename_i hp
    obtain ⟨x, rfl⟩ := List.isPrefixOf_iff_prefix.1 hp
    simp only [span_eq, Option.some.injEq, Prod.mk.injEq, List.cons_append, List.nil_append] at h
    have hc' : (c != 10) = true := by simpa using hc
    rw [List.takeWhile_cons_of_pos (p := fun x => x != 10) hc', List.takeWhile_cons_of_pos (p := fun x => x != 10) hc'] at h
    intro hm
    exact ho m hm (by rw [← h.1]; rfl)
  · simp at h

theorem kin_self {f : Str → Option (Str × Str)} (hf : Self f) {s m r : Str} (h : f s = some (m, r))
    (ho : ∀ o ∈ opTexts, f o = none) : m ∉ opTexts := fun hm => by
  have := hf s m r h
  rw [ho m hm] at this
  simp at this

theorem kin_rule {k : TK} {s m r : Str} (h : firstRule rules s = some (k, m, r)) (hk : k ≠ .op) :
    m ∉ opTexts := by
  obtain ⟨f, hf, hs⟩ := first_mem h
  simp only [rules, List.mem_cons, List.not_mem_nil, or_false, Prod.mk.injEq] at hf
  rcases hf with h1 | h1 | h1 | h1 | h1 | h1 | h1 | h1 | h1 | h1 | h1 | h1 | h1 | h1 | h1 | h1 | h1 | h1 | h1 | h1
    | h1 | h1 | h1 | h1 | h1 | h1 | h1 | h1 <;> obtain ⟨rfl, rfl⟩ := h1
  · exact kin_self (self_many1 _) hs (by decide)
  · exact kin_self (self_delimited _ _) hs (by decide)
  · exact kin_line (c := 45) hs (by decide) (by decide)
  · exact kin_line (c := 47) hs (by decide) (by decide)
  · exact kin_key hs (by decide)
  · exact kin_key hs (by decide)
  · exact kin_key hs (by decide)
  · exact kin_key hs (by decide)
  · exact kin_key hs (by decide)
  · exact kin_self (self_many1 _) hs (by decide)
  · exact not_op (amp_tok h) (by decide)
  · exact kin_key hs (by decide)
  · exact kin_key hs (by decide)
  · exact kin_key hs (by decide)
  · exact kin_key hs (by decide)
  · exact kin_key hs (by decide)
  · exact kin_key hs (by decide)
  · exact kin_key hs (by decide)
  · unfold keyword2 at hs
    split at hs
    · simp at hs
    · rename_i hfp
      split at hs
      · simp at hs
      · split at hs
        · simp at hs
        · simp only [Option.some.injEq, Prod.mk.injEq] at hs
          rw [← hs.1, List.append_assoc]
          exact kin_fold hfp (by decide) _
  · unfold keyword2 at hs
    split at hs
    · simp at hs
    · rename_i hfp
      split at hs
      · simp at hs
      · split at hs
        · simp at hs
        · simp only [Option.some.injEq, Prod.mk.injEq] at hs
          rw [← hs.1, List.append_assoc]
          exact kin_fold hfp (by decide) _
  · exact not_op (bool_tok h) (by decide)
  · exact kin_key hs (by decide)
  · exact not_op (num_tok h) (by decide)
  · exact not_op (ident_tok h) (by decide)
  · exact not_op (sym_tok h) (by decide)
  · exact absurd rfl hk
  · exact kin_self (self_delimited _ _) hs (by decide)
  · exact kin_self self_quoted hs (by decide)

theorem kin_mkTok {k : TK} {s m r : Str} (h : firstRule rules s = some (k, m, r)) : Kin (mkTok k m) := by
  intro hk
  unfold mkTok at hk ⊢
  split
  · rename_i hkk
    rcases hkk with rfl | rfl
    · have h1 := rule_of h 14 (f := keyword (bs "IN")) (by simp [rules])
      rw [fold_upper (keyword_some h1).1]; decide
    · have h1 := rule_of h 17 (f := keyword (bs "DESC")) (by simp [rules])
      rw [fold_upper (keyword_some h1).1]; decide
  · rename_i hkk
    rw [if_neg hkk] at hk
    exact kin_rule h hk

/-- Every token of the lexer is of this sort. -/
theorem lexN_kin : ∀ (n : Nat) (s : Str) (ts : List Tok), lexN n s = some ts → ∀ t ∈ ts, Kin t
  | n, [], ts, h => by
    have : ts = [] := by cases n <;> simpa [lexN] using h.symm
    subst this
    simp
  | 0, _ :: _, ts, h => by simp [lexN] at h
  | n + 1, c :: s, ts, h => by
    rw [lexN_succ] at h
    split at h
    · simp at h
    · rename_i k m r hf
      split at h
      · simp at h
      · split at h
        · exact lexN_kin n r ts h
        · simp only [Option.map_eq_some_iff] at h
          obtain ⟨us, h1, rfl⟩ := h
          intro t ht
          rcases List.mem_cons.1 ht with rfl | ht
          · exact kin_mkTok hf
          · exact lexN_kin n r us h1 t ht

theorem lex_kin {s : Str} {ts : List Tok} (h : lex s = some ts) : ∀ t ∈ ts, Kin t := lexN_kin _ _ _ h

/-! ## The last token of what was read -/

/-- Tokens without comments. -/
def Kins (ts : List Tok) : Prop := ∀ t ∈ ts, Kin t ∧ t.kind ∉ comKs

theorem Kins.suffix {r ts : List Tok} (h : Kins ts) (hs : r <:+ ts) : Kins r := fun t ht => h t (hs.subset ht)

/-- A word, a literal, a closing bracket or a comma. -/
def Ending (t : Tok) : Prop := Closing t ∨ t.text = bs ","

section
variable {α β : Type}

/-- A match reads nothing, or ends with such a token. -/
def Lst (p : P α) : Prop := ∀ ts a r, Kins ts → p ts = .ok a r →
  r = ts ∨ ∃ x u, ts = x ++ u :: r ∧ Ending u

theorem Lst.ret (a : α) : Lst (Fmt.ret a) := fun ts b r _ h => by
  simp only [Fmt.ret, Res.ok.injEq] at h
  exact .inl h.2.symm
theorem Lst.fail : Lst (fun ts => .err ts : P α) := fun ts b r _ h => by simp at h
theorem Lst.fuel : Lst (fun _ => .fuel : P α) := fun ts b r _ h => by simp at h

theorem Lst.tok {k : TK} (hk : k ∈ closeKs := by decide) : Lst (Fmt.tok k) := fun ts a r hg h => by
  cases ts with
  | nil => simp [Fmt.tok] at h
  | cons t ts =>
    simp only [Fmt.tok] at h
    split at h
    · rename_i htk
      simp only [Res.ok.injEq] at h
      obtain ⟨_, rfl⟩ := h
      refine .inr ⟨[], t, rfl, .inl (.inl ⟨htk ▸ hk, (hg t (by simp)).1 ?_⟩)⟩
      rw [htk]; intro e; subst e; revert hk; decide
    · simp at h

theorem Lst.lit {s : Str} (hs : s ∈ bs "," :: closeSs := by decide) : Lst (Fmt.lit s) := fun ts a r hg h => by
  cases ts with
  | nil => simp [Fmt.lit] at h
  | cons t ts =>
    simp only [Fmt.lit] at h
    split at h
    · rename_i htk
      simp only [Res.ok.injEq] at h
      obtain ⟨_, rfl⟩ := h
      rcases List.mem_cons.1 hs with rfl | hs
      · exact .inr ⟨[], t, rfl, .inr htk⟩
      · refine .inr ⟨[], t, rfl, .inl (.inr ⟨?_, htk ▸ hs⟩)⟩
        by_cases e : t.kind = .op
        · exact e
        · exfalso
          refine (hg t (by simp)).1 e ?_
          rw [htk]
          have : ∀ s ∈ closeSs, s ∈ opTexts := by decide
          exact this s hs
    · simp at h

theorem Lst.need {p : P α} (h : Lst p) : Lst (Fmt.need p) := fun ts a r hg hb => h ts a r hg (need_inv hb)

theorem lst_join {x : List Tok} {u : Tok} {ts r r2 : List Tok} (h1 : r = ts ∨ ∃ x u, ts = x ++ u :: r ∧ Ending u)
    (h2 : r2 = r ∨ ∃ x u, r = x ++ u :: r2 ∧ Ending u) : r2 = ts ∨ ∃ x u, ts = x ++ u :: r2 ∧ Ending u := by
  rcases h2 with rfl | ⟨y, v, rfl, hv⟩
  · exact h1
  · rcases h1 with rfl | ⟨z, w, rfl, _⟩
    · exact .inr ⟨y, v, rfl, hv⟩
    · exact .inr ⟨z ++ w :: y, v, by simp, hv⟩

theorem Lst.bind {p : P α} {f : α → P β} (h : Lst p) (hs : Sfx p) (hf : ∀ a, Lst (f a)) : Lst (p.bind f) :=
  fun ts b r hg hb => by
  obtain ⟨a, r1, h1, h2⟩ := bind_inv hb
  have g1 := hg.suffix ((hs ts).1 a r1 h1)
  rcases hf a r1 b r g1 h2 with rfl | ⟨y, v, rfl, hv⟩
  · exact h ts a _ hg h1
  · obtain ⟨z, hz⟩ := (hs ts).1 a _ h1
    exact .inr ⟨z ++ y, v, by rw [← hz]; simp, hv⟩

/-- What comes first does not matter when something is read behind it. -/
theorem Lst.bindPos {p : P α} {f : α → P β} (hs : Sfx p) (hp : ∀ a, Pos (f a)) (hf : ∀ a, Lst (f a)) :
    Lst (p.bind f) := fun ts b r hg hb => by
  obtain ⟨a, r1, h1, h2⟩ := bind_inv hb
  have g1 := hg.suffix ((hs ts).1 a r1 h1)
  rcases hf a r1 b r g1 h2 with rfl | ⟨y, v, rfl, hv⟩
  · have := hp a _ _ _ h2
    omega
  · obtain ⟨z, hz⟩ := (hs ts).1 a _ h1
    exact .inr ⟨z ++ y, v, by rw [← hz]; simp, hv⟩

theorem Lst.map {p : P α} (h : Lst p) (hs : Sfx p) (f : α → β) : Lst (p.map f) := h.bind hs fun _ => Lst.ret _

theorem Lst.opt {p : P α} (h : Lst p) : Lst (Fmt.opt p) := fun ts a r hg hb => by
  unfold Fmt.opt at hb
  cases hp : p ts with
  | no => rw [hp] at hb; simp only [Res.ok.injEq] at hb; exact .inl hb.2.symm
  | fuel => rw [hp] at hb; simp at hb
  | ok b r1 => rw [hp] at hb; simp only [Res.ok.injEq] at hb; rw [← hb.2]; exact h ts b r1 hg hp
  | err r1 =>
    rw [hp] at hb
    dsimp only at hb
    split at hb
    · simp at hb
    · simp only [Res.ok.injEq] at hb; exact .inl hb.2.symm

theorem Lst.alt {p q : P α} (h : Lst p) (hq : Lst q) : Lst (Fmt.alt p q) := fun ts a r hg hb => by
  unfold Fmt.alt at hb
  cases hp : p ts with
  | no => rw [hp] at hb; exact hq ts a r hg hb
  | fuel => rw [hp] at hb; simp at hb
  | ok b r1 => rw [hp] at hb; exact h ts a r hg (by rw [hp]; exact hb)
  | err r1 =>
    rw [hp] at hb
    dsimp only at hb
    split at hb
    · simp at hb
    · cases hq' : q ts with
      | no => rw [hq'] at hb; simp at hb
      | fuel => rw [hq'] at hb; simp at hb
      | ok b r1 => rw [hq'] at hb; exact hq ts a r hg (by rw [hq']; exact hb)
      | err r2 => rw [hq'] at hb; dsimp only at hb; split at hb <;> simp at hb

theorem Lst.many {p : P α} (h : Lst p) (hs : Sfx p) : ∀ n, Lst (Fmt.many p n)
  | 0 => Lst.fuel
  | n + 1 => fun ts a r hg hb => by
    simp only [Fmt.many] at hb
    cases hp : p ts with
    | no => rw [hp] at hb; simp only [Res.ok.injEq] at hb; exact .inl hb.2.symm
    | fuel => rw [hp] at hb; simp at hb
    | ok b r1 =>
      rw [hp] at hb
      have g1 := hg.suffix ((hs ts).1 b r1 hp)
      have h2 := (Lst.bind (Lst.many h hs n) (Sfx.many hs n) (fun as => Lst.ret (b :: as))) r1 a r g1 hb
      exact lst_join (x := []) (u := ⟨.op, []⟩) (h ts b r1 hg hp) h2
    | err r1 =>
      rw [hp] at hb
      dsimp only at hb
      split at hb
      · simp at hb
      · simp only [Res.ok.injEq] at hb; exact .inl hb.2.symm

theorem Lst.comment : Lst pComment := fun ts a r hg h => by
  exfalso
  have hk : ∀ k ∈ comKs, ∀ ts' : List Tok, Kins ts' → Fmt.tok k ts' = .no := by
    intro k hk ts' hg'
    cases ts' with
    | nil => rfl
    | cons t ts' =>
      simp only [Fmt.tok]
      rw [if_neg]
      intro e
      exact (hg' t (by simp)).2 (e ▸ hk)
  simp [pComment, Fmt.alt, P.map, P.bind, hk .vqlComment (by decide) ts hg, hk .comment (by decide) ts hg,
    hk .mlComment (by decide) ts hg] at h

theorem Lst.optC : Lst Fmt.optC := Lst.map (Lst.opt Lst.comment) (Sfx.opt Sfx.comment) _

theorem Lst.dotted {p : P Str} (h : Lst p) (hs : Sfx p) (n : Nat) : Lst (Fmt.dotted p n) :=
  Lst.bind h hs fun a => Lst.bind
    (Lst.many (Lst.bindPos (Sfx.lit _) (fun d => Pos.bind (Pos.tok _).need fun _ => Sfx.ret _)
        fun d => Lst.bind (Lst.tok).need (Sfx.tok _).need fun i => Lst.ret _)
      ((Sfx.lit _).bind fun d => (Sfx.tok _).need.bind fun i => Sfx.ret _) n)
    (Sfx.many ((Sfx.lit _).bind fun d => (Sfx.tok _).need.bind fun i => Sfx.ret _) n)
    fun as => Lst.ret _
end

section
variable (lim : Str → Option Int)

/-- The grammar functions a statement may end with. -/
structure LstAll (n : Nat) : Prop where
  and_ : Lst (pAnd lim n)
  or_ : Lst (pOr lim n)
  cond : Lst (pCond lim n)
  add : Lst (pAdd lim n)
  mul : Lst (pMul lim n)
  member : Lst (pMember lim n)
  comma : Lst (pComma lim n)
  val : Lst (pVal lim n)
  sym : Lst (pSym lim n)
  plugin : Lst (pPlugin lim n)
  select : Lst (pSelect lim n)

theorem lst : ∀ n, LstAll lim n
  | 0 => ⟨by simp only [pAnd]; exact Lst.fuel, by simp only [pOr]; exact Lst.fuel,
      by simp only [pCond]; exact Lst.fuel, by simp only [pAdd]; exact Lst.fuel,
      by simp only [pMul]; exact Lst.fuel, by simp only [pMember]; exact Lst.fuel,
      by simp only [pComma]; exact Lst.fuel, by simp only [pVal]; exact Lst.fuel,
      by simp only [pSym]; exact Lst.fuel, by simp only [pPlugin]; exact Lst.fuel,
      by simp only [pSelect]; exact Lst.fuel⟩
  | n + 1 =>
    have C := cuts lim n
    have L := lst n
    { and_ := by
        simp only [pAnd]
        refine Lst.optC.bind Sfx.optC fun _ => L.or_.need.bind C.or_.sfx.need fun _ =>
          Lst.bind (Lst.many (Lst.bindPos (by repeat' sfx_step C) (fun _ => Pos.bind C.or_.pos.need fun _ => Sfx.ret _)
            fun _ => L.or_.need.bind C.or_.sfx.need fun _ => Lst.ret _) (by repeat' sfx_step C) _)
            (by repeat' sfx_step C) fun _ => Lst.ret _
      or_ := by
        simp only [pOr]
        refine Lst.optC.bind Sfx.optC fun _ => L.cond.need.bind C.cond.sfx.need fun _ =>
          Lst.bind (Lst.many (Lst.bindPos (by repeat' sfx_step C) (fun _ => Pos.bind C.cond.pos.need fun _ => Sfx.ret _)
            fun _ => L.cond.need.bind C.cond.sfx.need fun _ => Lst.ret _) (by repeat' sfx_step C) _)
            (by repeat' sfx_step C) fun _ => Lst.ret _
      cond := by
        simp only [pCond]
        refine Lst.optC.bind Sfx.optC fun _ => Lst.need (Lst.alt
          (Lst.bindPos (Sfx.tok _) (fun _ => Pos.bind C.cond.pos.need fun _ => Sfx.ret _)
            fun _ => L.cond.need.bind C.cond.sfx.need fun _ => Lst.ret _)
          (L.add.bind C.add.sfx fun _ =>
            Lst.bind (Lst.many (Lst.bindPos (by repeat' sfx_step C) (fun _ => Pos.bind C.add.pos.need fun _ => Sfx.ret _)
              fun _ => L.add.need.bind C.add.sfx.need fun _ => Lst.ret _) (by repeat' sfx_step C) _)
              (by repeat' sfx_step C) fun _ => Lst.ret _))
      add := by
        simp only [pAdd]
        refine Lst.optC.bind Sfx.optC fun _ => L.mul.need.bind C.mul.sfx.need fun _ =>
          Lst.bind (Lst.many (Lst.bindPos (by repeat' sfx_step C) (fun _ => Pos.bind C.mul.pos.need fun _ => Sfx.ret _)
            fun _ => L.mul.need.bind C.mul.sfx.need fun _ => Lst.ret _) (by repeat' sfx_step C) _)
            (by repeat' sfx_step C) fun _ => Lst.ret _
      mul := by
        simp only [pMul]
        refine Lst.optC.bind Sfx.optC fun _ => L.member.need.bind C.member.sfx.need fun _ =>
          Lst.bind (Lst.many (Lst.bindPos (by repeat' sfx_step C) (fun _ => Pos.bind C.val.pos.need fun _ => Sfx.ret _)
            fun _ => L.val.need.bind C.val.sfx.need fun _ => Lst.ret _) (by repeat' sfx_step C) _)
            (by repeat' sfx_step C) fun _ => Lst.ret _
      member := by
        simp only [pMember]
        refine Lst.optC.bind Sfx.optC fun _ => L.val.need.bind C.val.sfx.need fun _ =>
          Lst.bind (Lst.many (Lst.alt
            (Lst.bindPos (Sfx.lit _) (fun _ => Pos.bind2 (by repeat' sfx_step C) fun _ =>
                Pos.bind2 (by repeat' sfx_step C) fun _ => Pos.bind2 (by repeat' sfx_step C) fun _ =>
                Pos.bind (Pos.lit _).need fun _ => Sfx.ret _)
              fun _ => Lst.bindPos (by repeat' sfx_step C) (fun _ =>
                Pos.bind2 (by repeat' sfx_step C) fun _ => Pos.bind2 (by repeat' sfx_step C) fun _ =>
                Pos.bind (Pos.lit _).need fun _ => Sfx.ret _)
              fun _ => Lst.bindPos (by repeat' sfx_step C) (fun _ => Pos.bind2 (by repeat' sfx_step C) fun _ =>
                Pos.bind (Pos.lit _).need fun _ => Sfx.ret _)
              fun _ => Lst.bindPos (by repeat' sfx_step C) (fun _ =>
                Pos.bind (Pos.lit _).need fun _ => Sfx.ret _)
              fun _ => Lst.bind (Lst.lit).need (Sfx.lit _).need fun _ => Lst.ret _)
            (Lst.bindPos (Sfx.lit _) (fun _ => Pos.bind (Pos.tok _).need fun _ => Sfx.ret _)
              fun _ => Lst.bind (Lst.tok).need (Sfx.tok _).need fun _ => Lst.ret _))
            (by repeat' sfx_step C) _) (by repeat' sfx_step C) fun _ => Lst.ret _
      comma := by
        simp only [pComma]
        refine Lst.optC.bind Sfx.optC fun _ => L.and_.need.bind C.and_.sfx.need fun _ =>
          Lst.bind (Lst.many (Lst.optC.bind Sfx.optC fun _ => (Lst.lit).need.bind (Sfx.lit _).need fun _ =>
            Lst.optC.bind Sfx.optC fun _ => (L.and_.many C.and_.sfx _).bind (C.and_.sfx.many _) fun _ => Lst.ret _)
            (by repeat' sfx_step C) _) (by repeat' sfx_step C) fun _ => Lst.ret _
      val := by
        simp only [pVal]
        refine Lst.optC.bind Sfx.optC fun _ => Lst.bind (Lst.need ?_) (by repeat' sfx_step C) fun _ => Lst.ret _
        exact Lst.alt (L.sym.map C.sym.sfx _) (Lst.alt
          (Lst.bindPos (Sfx.lit _) (fun _ => Pos.bind C.comma.pos.need fun _ => by repeat' sfx_step C)
            fun _ => Lst.bindPos C.comma.sfx.need (fun _ => Pos.bind (Pos.lit _).need fun _ => Sfx.ret _)
            fun _ => Lst.bind (Lst.lit).need (Sfx.lit _).need fun _ => Lst.ret _)
          (Lst.alt (Lst.map (Lst.alt Lst.tok Lst.tok) (by repeat' sfx_step C) _)
          (Lst.alt ((Lst.tok).map (Sfx.tok _) _) (Lst.alt ((Lst.tok).map (Sfx.tok _) _) ((Lst.tok).map (Sfx.tok _) _)))))
      sym := by
        simp only [pSym]
        refine Lst.optC.bind Sfx.optC fun _ => Lst.bind (Lst.need (Lst.dotted (Lst.alt Lst.tok Lst.tok)
          (by repeat' sfx_step C) _)) (by repeat' sfx_step C) fun _ => Lst.bind (Lst.many ?_ (by repeat' sfx_step C) _)
          (by repeat' sfx_step C) fun _ => Lst.ret _
        exact Lst.bindPos (Sfx.lit _) (fun _ => Pos.bind2 (by repeat' sfx_step C) fun _ =>
            Pos.bind (Pos.lit _).need fun _ => Sfx.ret _)
          fun _ => Lst.bindPos (by repeat' sfx_step C) (fun _ => Pos.bind (Pos.lit _).need fun _ => Sfx.ret _)
          fun _ => Lst.bind (Lst.lit).need (Sfx.lit _).need fun _ => Lst.ret _
      plugin := by
        simp only [pPlugin]
        refine Lst.bind (Lst.dotted Lst.tok (Sfx.tok _) _) (by repeat' sfx_step C) fun _ => Lst.bind (Lst.opt ?_)
          (by repeat' sfx_step C) fun _ => Lst.ret _
        exact Lst.bindPos (Sfx.lit _) (fun _ => Pos.bind2 (by repeat' sfx_step C) fun _ =>
            Pos.bind (Pos.lit _).need fun _ => Sfx.ret _)
          fun _ => Lst.bindPos (by repeat' sfx_step C) (fun _ => Pos.bind (Pos.lit _).need fun _ => Sfx.ret _)
          fun _ => Lst.bind (Lst.lit).need (Sfx.lit _).need fun _ => Lst.ret _
      select := by
        rw [select_eq]
        have hend : ∀ mk l, Lst (selEnd lim mk l) ∧ Sfx (selEnd lim mk l) := by
          intro mk l
          unfold selEnd
          split
          · exact ⟨Lst.ret _, Sfx.ret _⟩
          · split
            · exact ⟨Lst.fail, Sfx.fail⟩
            · exact ⟨Lst.ret _, Sfx.ret _⟩
        have so : Sfx (opt ((tok .orderBy).bind fun _ => (need (tok .ident)).bind fun k =>
            (opt (tok .desc)).bind fun d => ret (k, d.isSome))) := by repeat' sfx_step C
        have sl : Sfx (opt ((tok .limit).bind fun _ => need (tok .number))) := by repeat' sfx_step C
        have sc : ∀ k, Sfx (opt ((tok k).bind fun _ => need (pComma lim n))) := by intro k; repeat' sfx_step C
        have lc : ∀ k, Lst (opt ((tok k).bind fun _ => need (pComma lim n))) := fun k =>
          Lst.opt (Lst.bindPos (Sfx.tok _) (fun _ => C.comma.pos.need) fun _ => L.comma.need)
        have hord : ∀ mk, Lst (selOrder lim mk) ∧ Sfx (selOrder lim mk) := fun mk =>
          ⟨Lst.bind (Lst.opt (Lst.bindPos (Sfx.tok _) (fun _ => Pos.bind (Pos.tok _).need fun _ => by repeat' sfx_step C)
              fun _ => Lst.bind (Lst.tok).need (Sfx.tok _).need fun _ =>
                Lst.bind (Lst.opt Lst.tok) (Sfx.tok _).opt fun _ => Lst.ret _)) so
            fun _ => Lst.bind (Lst.opt (Lst.bindPos (Sfx.tok _) (fun _ => (Pos.tok _).need) fun _ => (Lst.tok).need)) sl
              fun _ => (hend _ _).1,
            so.bind fun _ => sl.bind fun _ => (hend _ _).2⟩
        have hgrp : ∀ mk, Lst (selGroup lim n mk) ∧ Sfx (selGroup lim n mk) := fun mk =>
          ⟨Lst.bind (lc _) (sc _) fun _ => (hord _).1, (sc _).bind fun _ => (hord _).2⟩
        have hwh : ∀ mk, Lst (selWhere lim n mk) ∧ Sfx (selWhere lim n mk) := fun mk =>
          ⟨Lst.bind (lc _) (sc _) fun _ => (hgrp _).1, (sc _).bind fun _ => (hgrp _).2⟩
        have hp : ∀ (x : Option (Option Str)) (y : Option (List CCol)) (k : CPlugin → P CSelect), (∀ f, Lst (k f)) →
            (∀ f, Sfx (k f)) →
            Lst (if x.isNone ∧ y.isNone then fun ts => .err ts else (need (tok .from_)).bind fun _ =>
              (need (pPlugin lim n)).bind k) ∧
            Pos (if x.isNone ∧ y.isNone then fun ts => .err ts else (need (tok .from_)).bind fun _ =>
              (need (pPlugin lim n)).bind k) := by
          intro x y k hk hks
          split
          · exact ⟨Lst.fail, Pos.fail⟩
          · exact ⟨Lst.bindPos (Sfx.tok _).need (fun _ => Pos.bind C.plugin.pos.need fun _ => hks _)
              fun _ => L.plugin.need.bind C.plugin.sfx.need hk,
              Pos.bind (Pos.tok _).need fun _ => C.plugin.sfx.need.bind hks⟩
        have s1 : Sfx (opt ((lit (bs "*")).bind fun _ => opt (lit (bs ",")))) := by repeat' sfx_step C
        have s2 : Sfx (opt (sepBy (pCol lim n) n)) := by repeat' sfx_step C
        have p1 := fun cs ex x y => (hp x y (fun f => selWhere lim n (CSelect.mk cs ex x.isSome (y.getD []) f))
          (fun f => (hwh _).1) (fun f => (hwh _).2))
        refine Lst.bindPos (Sfx.comment.many _) (fun _ => Pos.bind2 ((Sfx.tok _).many _) fun _ =>
          Pos.bind2 (Sfx.tok _).need fun _ => Pos.bind2 s1 fun _ => Pos.bind2 s2 fun _ => (p1 _ _ _ _).2) fun _ => ?_
        refine Lst.bindPos ((Sfx.tok _).many _) (fun _ =>
          Pos.bind2 (Sfx.tok _).need fun _ => Pos.bind2 s1 fun _ => Pos.bind2 s2 fun _ => (p1 _ _ _ _).2) fun _ => ?_
        exact Lst.bindPos (Sfx.tok _).need (fun _ => Pos.bind2 s1 fun _ => Pos.bind2 s2 fun _ => (p1 _ _ _ _).2)
          fun _ => Lst.bindPos s1 (fun _ => Pos.bind2 s2 fun _ => (p1 _ _ _ _).2)
          fun _ => Lst.bindPos s2 (fun _ => (p1 _ _ _ _).2) fun _ => (p1 _ _ _ _).1 }

theorem lst_stmt (n : Nat) : Lst (pStmt lim n) := by
  have C := cuts lim n
  have L := lst lim n
  have hp : Sfx (pLetParam lim n) := by unfold pLetParam; repeat' sfx_step C
  have s1 : Sfx (opt ((lit (bs "(")).bind fun _ => (opt (sepBy (pLetParam lim n) n)).bind fun ps =>
        (need (lit (bs ")"))).bind fun _ => ret (ps.getD []))) := by
    repeat' first | exact hp | sfx_step C
  unfold pStmt
  refine Lst.alt ?_ (L.select.map C.select.sfx _)
  have hb : Pos (need (alt (P.map CLetBody.select (pSelect lim n)) (P.map CLetBody.expr (pAnd lim n)))) :=
    Pos.need (Pos.alt (C.select.pos.map _) (C.and_.pos.map _))
  have hl : Lst (need (alt (P.map CLetBody.select (pSelect lim n)) (P.map CLetBody.expr (pAnd lim n)))) :=
    Lst.need (Lst.alt (L.select.map C.select.sfx _) (L.and_.map C.and_.sfx _))
  refine Lst.bindPos (Sfx.tok _) (fun _ => Pos.bind2 (Sfx.tok _).need fun _ => Pos.bind2 s1 fun _ =>
    Pos.bind2 (by repeat' sfx_step C) fun _ => Pos.bind hb fun _ => Sfx.ret _) fun _ => ?_
  refine Lst.bindPos (Sfx.tok _).need (fun _ => Pos.bind2 s1 fun _ =>
    Pos.bind2 (by repeat' sfx_step C) fun _ => Pos.bind hb fun _ => Sfx.ret _) fun _ => ?_
  refine Lst.bindPos s1 (fun _ => Pos.bind2 (by repeat' sfx_step C) fun _ => Pos.bind hb fun _ => Sfx.ret _) fun _ => ?_
  exact Lst.bindPos (by repeat' sfx_step C) (fun _ => Pos.bind hb fun _ => Sfx.ret _)
    fun _ => hl.bind (by repeat' sfx_step C) fun _ => Lst.ret _
end

end Vfilter.Fmt
