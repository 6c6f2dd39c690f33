import Verif.LayoutWalk
/-!
# Every layout of a tree has the tokens of the tree: the trees
-/

set_option linter.all false

namespace Vfilter.Fmt.Lay

section
variable {τ : Str → Str} {C : Str → Prop} (T : Tau τ C)
variable (better : Vis → Vis → Bool) (num : Str → Str) (lim : Str → Option Int)
include T

omit T in
theorem cc_args {a : CArg} {as : List CArg} (h : CC C (itArgs (a :: as))) : CC C (itArg a) ∧ CC C (itArgs as) := by
  cases as <;> simp only [itArgs, cc_append] at h ⊢
  · exact ⟨h.1.1, h.2⟩
  · exact ⟨h.1.1, h.2⟩

omit T in
theorem cc_cols {a : CCol} {as : List CCol} (h : CC C (itCols (a :: as))) : CC C (itCol a) ∧ CC C (itCols as) := by
  cases as <;> simp only [itCols, cc_append] at h ⊢
  · exact ⟨h.1.1, h.2⟩
  · exact ⟨h.1.1, h.2⟩

omit T in
theorem y_layouts {f : Vis → Vis} {A us : List Tok} (key : ∀ w us, Beg τ Okay w.frags us → Fin τ (f w).frags (us ++ A))
    {x : Vis} (h : Beg τ Okay x.frags us) : Fin τ (selectLayouts better f x).frags (us ++ A) := by
  unfold selectLayouts
  refine ab_frags (P := fun fs => Fin τ fs _) (by simp) ?_
  intro cb hcb
  simp only [List.mem_cons, List.not_mem_nil, or_false] at hcb
  rcases hcb with rfl | rfl
  · exact key (pushIndent x.copy) _ h
  · refine key (push (bs "  ") (indentIn (newLine 2 x.copy))) _ ?_
    exact (Beg.newLine (v := x.copy) h 2).blank sp2_blk

mutual
theorem y_and : ∀ (e : CAnd) (v : Vis) (ts : List Tok), wAnd num lim e → CC C (itAnd e) → Beg τ Okay v.frags ts →
    Fin τ (fAnd better num e v).frags (ts ++ toks (itAnd e))
  | .mk cs l rs, v, ts, hw, hC, h => by
    obtain ⟨_, hl, hrs⟩ := hw
    rw [itAnd, cc_append] at hC
    have h1 := y_or l v ts hl hC.1 h
    have h2 := y_andTs rs _ _ hrs hC.2 h1
    rw [fAnd, popIndents_frags]
    exact h2.toks (by rw [itAnd, toks_append, List.append_assoc])
theorem y_andTs : ∀ (rs : List CAndT) (v : Vis) (ts : List Tok), wAndTs num lim rs → CC C (itAndTs rs) →
    Fin τ v.frags ts → Fin τ (fAndTs better num rs v).frags (ts ++ toks (itAndTs rs))
  | [], v, ts, _, _, h => h.toks (by simp [itAndTs, toks])
  | .mk op t :: rs, v, ts, hw, hC, h => by
    obtain ⟨hop, ht, hrs⟩ := hw
    simp only [itAndTs, cc_none, cc_some, cc_append, andTok_text] at hC
    have h1 : Beg τ Okay (andStep op v).frags (ts ++ [andTok op]) :=
      h.lineBreak.binop T (optok_and hop) (andTok_text op) hC.1
    have h2 := y_or t _ _ ht hC.2.1 h1
    have h3 := y_andTs rs _ _ hrs hC.2.2 h2
    rw [fAndTs]
    exact h3.toks (by simp [itAndTs, toks_none, toks_some, toks_append])
theorem y_or : ∀ (e : COr) (v : Vis) (ts : List Tok), wOr num lim e → CC C (itOr e) → Beg τ Okay v.frags ts →
    Fin τ (fOr better num e v).frags (ts ++ toks (itOr e))
  | .mk cs l rs, v, ts, hw, hC, h => by
    obtain ⟨rfl, hl, hrs⟩ := hw
    rw [itOr, cc_append] at hC
    have h2 := y_orTs rs _ _ hrs hC.2 (y_cond l v ts hl hC.1 h)
    rw [fOr]
    exact h2.toks (by rw [itOr, toks_append, List.append_assoc])
theorem y_orTs : ∀ (rs : List COrT) (v : Vis) (ts : List Tok), wOrTs num lim rs → CC C (itOrTs rs) →
    Fin τ v.frags ts → Fin τ (fOrTs better num rs v).frags (ts ++ toks (itOrTs rs))
  | [], v, ts, _, _, h => h.toks (by simp [itOrTs, toks])
  | .mk op t :: rs, v, ts, hw, hC, h => by
    obtain ⟨hop, ht, hrs⟩ := hw
    simp only [itOrTs, cc_none, cc_some, cc_append, orTok_text] at hC
    obtain ⟨g, h⟩ := h.at
    have h1 := h.binop T (optok_or hop) (orTok_text op) hC.1
    have h3 := y_orTs rs _ _ hrs hC.2.2 (y_condC t _ _ ht hC.2.1 h1)
    rw [fOrTs]
    exact h3.toks (by simp [itOrTs, toks_none, toks_some, toks_append])
theorem y_condC : ∀ (c : CCond) (v : Vis) (ts : List Tok), wCond num lim c → CC C (itCond c) →
    Beg τ Okay v.frags ts → Fin τ (fCondC better num c v).frags (ts ++ toks (itCond c))
  | .not cs c, v, ts, hw, hC, h => by
    obtain ⟨rfl, hc⟩ := hw
    simp only [itCond, cc_none, cc_some] at hC
    have h1 := h.kw T ⟨.not_, bs "NOT"⟩ (fun r hr => hr.1)
    have h2 := y_cond c (push (bs "NOT ") v) _ hc hC.2 (h1.after Okay)
    rw [fCondC]
    exact h2.toks (by simp [itCond, toks_none, toks_some])
  | .cmp cs l r, v, ts, hw, hC, h => by
    obtain ⟨rfl, hl, hr⟩ := hw
    rw [itCond, cc_append] at hC
    have h2 := y_cmp r _ _ hr hC.2 (y_add l v ts hl hC.1 h)
    rw [fCondC]
    exact h2.toks (by rw [itCond, toks_append, List.append_assoc])
theorem y_cond : ∀ (c : CCond) (v : Vis) (ts : List Tok), wCond num lim c → CC C (itCond c) →
    Beg τ Okay v.frags ts → Fin τ (fCond better num c v).frags (ts ++ toks (itCond c))
  | .not cs c, v, ts, hw, hC, h => by
    obtain ⟨rfl, hc⟩ := hw
    simp only [itCond, cc_none, cc_some] at hC
    have h1 := h.kw T ⟨.not_, bs "NOT"⟩ (fun r hr => hr.1)
    have h2 := y_cond c (push (bs "NOT ") v) _ hc hC.2 (h1.after Okay)
    rw [fCond]
    exact h2.toks (by simp [itCond, toks_none, toks_some])
  | .cmp cs l r, v, ts, hw, hC, h => by
    obtain ⟨rfl, hl, hr⟩ := hw
    rw [itCond, cc_append] at hC
    have h2 := y_cmp r _ _ hr hC.2 (y_add l v ts hl hC.1 h)
    rw [fCond]
    exact h2.toks (by rw [itCond, toks_append, List.append_assoc])
theorem y_cmp : ∀ (r : Option CCmpT) (v : Vis) (ts : List Tok), wCmp num lim r → CC C (itCmp r) →
    Fin τ v.frags ts → Fin τ (fCmp better num r v).frags (ts ++ toks (itCmp r))
  | none, v, ts, _, _, h => h.toks (by simp [itCmp, toks])
  | some (.mk op r), v, ts, hw, hC, h => by
    obtain ⟨hop, hr⟩ := hw
    simp only [itCmp, cc_none, cc_some, cmpTok_text] at hC
    obtain ⟨g, h⟩ := h.at
    have h1 := h.binop T (optok_cmp hop) (cmpTok_text op) hC.1
    have h2 := y_add r _ _ hr hC.2 h1
    rw [fCmp]
    exact h2.toks (by simp [itCmp, toks_none, toks_some])
theorem y_add : ∀ (e : CAdd) (v : Vis) (ts : List Tok), wAdd num lim e → CC C (itAdd e) → Beg τ Okay v.frags ts →
    Fin τ (fAdd better num e v).frags (ts ++ toks (itAdd e))
  | .mk cs l rs, v, ts, hw, hC, h => by
    obtain ⟨rfl, hl, hrs⟩ := hw
    rw [itAdd, cc_append] at hC
    have h2 := y_addTs rs _ _ hrs hC.2 (y_mul l v ts hl hC.1 h)
    rw [fAdd]
    exact h2.toks (by rw [itAdd, toks_append, List.append_assoc])
theorem y_addTs : ∀ (rs : List CAddT) (v : Vis) (ts : List Tok), wAddTs num lim rs → CC C (itAddTs rs) →
    Fin τ v.frags ts → Fin τ (fAddTs better num rs v).frags (ts ++ toks (itAddTs rs))
  | [], v, ts, _, _, h => h.toks (by simp [itAddTs, toks])
  | .mk op t :: rs, v, ts, hw, hC, h => by
    obtain ⟨hop, ht, hrs⟩ := hw
    simp only [itAddTs, cc_none, cc_iop, cc_append] at hC
    obtain ⟨g, h⟩ := h.at
    have h1 := h.binop T (optok_ar (ar_add hop)) rfl hC.1
    have h3 := y_addTs rs _ _ hrs hC.2.2 (y_mul t _ _ ht hC.2.1 h1)
    rw [fAddTs]
    exact h3.toks (by simp [itAddTs, toks_none, toks_iop, toks_append])
theorem y_mul : ∀ (e : CMul) (v : Vis) (ts : List Tok), wMul num lim e → CC C (itMul e) → Beg τ Okay v.frags ts →
    Fin τ (fMul better num e v).frags (ts ++ toks (itMul e))
  | .mk cs l rs, v, ts, hw, hC, h => by
    obtain ⟨rfl, hl, hrs⟩ := hw
    rw [itMul, cc_append] at hC
    have h2 := y_mulTs rs _ _ hrs hC.2 (y_member l v ts hl hC.1 h)
    rw [fMul]
    exact h2.toks (by rw [itMul, toks_append, List.append_assoc])
theorem y_mulTs : ∀ (rs : List CMulT) (v : Vis) (ts : List Tok), wMulTs num lim rs → CC C (itMulTs rs) →
    Fin τ v.frags ts → Fin τ (fMulTs better num rs v).frags (ts ++ toks (itMulTs rs))
  | [], v, ts, _, _, h => h.toks (by simp [itMulTs, toks])
  | .mk op t :: rs, v, ts, hw, hC, h => by
    obtain ⟨hop, ht, hrs⟩ := hw
    simp only [itMulTs, cc_none, cc_iop, cc_append] at hC
    obtain ⟨g, h⟩ := h.at
    have h1 := h.binop T (optok_ar (ar_mul hop)) rfl hC.1
    have h3 := y_mulTs rs _ _ hrs hC.2.2 (y_val t _ _ ht hC.2.1 h1)
    rw [fMulTs]
    exact h3.toks (by simp [itMulTs, toks_none, toks_iop, toks_append])
theorem y_member : ∀ (e : CMember) (v : Vis) (ts : List Tok), wMember num lim e → CC C (itMember e) →
    Beg τ Okay v.frags ts → Fin τ (fMember better num e v).frags (ts ++ toks (itMember e))
  | .mk cs l rs, v, ts, hw, hC, h => by
    obtain ⟨rfl, hl, hrs, _⟩ := hw
    rw [itMember, cc_append] at hC
    have h2 := y_mTerms rs _ _ hrs hC.2 (y_val l v ts hl hC.1 h)
    rw [fMember]
    exact h2.toks (by rw [itMember, toks_append, List.append_assoc])
theorem y_mTerms : ∀ (rs : List CMTerm) (v : Vis) (ts : List Tok), wMTerms num lim rs → CC C (itMTerms rs) →
    Fin τ v.frags ts → Fin τ (fMTerms better num rs v).frags (ts ++ toks (itMTerms rs))
  | [], v, ts, _, _, h => h.toks (by simp [itMTerms, toks])
  | .range i j :: rs, v, ts, hw, hC, h => by
    obtain ⟨hi, hj, hrs⟩ := hw
    simp only [itMTerms, cc_iop, cc_append] at hC
    obtain ⟨_, hCi, _, _, hCj, _, hCr⟩ := hC
    obtain ⟨g, h⟩ := h.at
    obtain ⟨g2, h2⟩ := y_optVal i (push (bs "[") v) _ _ hi hCi (h.punct T 91)
    obtain ⟨g3, h3⟩ := y_optVal j (push (bs ":") _) _ _ hj hCj (h2.punct T 58)
    have h4 := y_mTerms rs (push (bs "]") _) _ hrs hCr (h3.close T 93)
    rw [fMTerms]
    exact h4.toks (by
      simp [itMTerms, toks_iop, toks_append, toks_colonGap, show bs "[" = [91] from rfl, show bs ":" = [58] from rfl,
        show bs "]" = [93] from rfl])
  | .index i :: rs, v, ts, hw, hC, h => by
    obtain ⟨hi, hrs⟩ := hw
    simp only [itMTerms, cc_iop, cc_append] at hC
    obtain ⟨_, hCi, _, hCr⟩ := hC
    obtain ⟨g, h⟩ := h.at
    obtain ⟨g3, h3⟩ := (y_val i (push (bs "[") v) _ hi hCi ((h.punct T 91).any Okay)).at
    have h4 := y_mTerms rs (push (bs "]") _) _ hrs hCr (h3.close T 93)
    rw [fMTerms]
    exact h4.toks (by
      simp [itMTerms, toks_iop, toks_append, show bs "[" = [91] from rfl, show bs "]" = [93] from rfl])
  | .field n :: rs, v, ts, hw, hC, h => by
    obtain ⟨hn, hrs⟩ := hw
    simp only [itMTerms, cc_iop, cc_some] at hC
    obtain ⟨_, hCn, hCr⟩ := hC
    obtain ⟨g, h⟩ := h.at
    have h' : At τ v.frags ts Fv false := by
      obtain ⟨x, b, k1, k2, k3, k4, k5⟩ := h
      exact ⟨x, b, k1, k2, k3, by simp, k5⟩
    have hst := fun r => ident_start hn r
    have h1 := h'.unit T (G := Fv) [iop (bs "."), some ⟨.ident, n⟩] (s := bs "." ++ n) (by simp [render, iop])
      (by
        have := T.dot [] n (T.plain [] (by simp)) hCn
        simpa [show bs "." = [46] from rfl] using this)
      ⟨⟨46, n, rfl, rfl⟩, by
        obtain ⟨⟨c, h1, h2⟩, _⟩ := solid_ident hn
        exact ⟨c, by rw [List.getLast?_append, h1]; rfl, h2⟩⟩
      (fun b r hb _ _ => fv_any hb ⟨46, n, rfl, rfl, by decide⟩ (by
        show folE (46 :: (n ++ r)) = true
        simp [folE, hst r]))
      (fun r hr => by
        refine lx_op ?_ (lx_one (ident_fol hn hr) (tok_ne hn))
        have := dot_first (hst r)
        simpa [render, show bs "." = [46] from rfl] using this)
    have h2 : Fin τ (push n (push (bs ".") v)).frags (ts ++ [⟨.op, bs "."⟩, ⟨.ident, n⟩]) :=
      At.solid (fs := v.frags ++ [bs "."]) (s := n) ((h1.text (by simp [push])).toks (by simp [toks, iop]))
        (fun _ h => h) (solid_ident hn).2
    have h4 := y_mTerms rs _ _ hrs hCr h2
    rw [fMTerms]
    exact h4.toks (by simp [itMTerms, toks_iop, toks_some])
  | .empty :: rs, v, ts, hw, _, _ => hw.elim
theorem y_optVal : ∀ (x : Option CVal) (v : Vis) (ts : List Tok) (g : Bool), wOptVal num lim x →
    CC C (itOptVal x) → At τ v.frags ts Fa g →
    ∃ g', At τ (fOptVal better num x v).frags (ts ++ toks (itOptVal x)) Fv g'
  | none, v, ts, g, _, _, h => ⟨g, (h.weak fa_of).toks (by simp [itOptVal, toks])⟩
  | some x, v, ts, g, hw, hC, h => (y_val x v ts hw hC (h.any Okay)).at
theorem y_comma : ∀ (e : CComma) (v : Vis) (ts : List Tok), wComma num lim e → CC C (itComma e) →
    Beg τ Okay v.frags ts → Fin τ (fComma better num e v).frags (ts ++ toks (itComma e))
  | .mk cs l rs, v, ts, hw, hC, h => by
    obtain ⟨rfl, hl, hrs⟩ := hw
    rw [itComma, cc_append] at hC
    have h2 := y_commaTs rs _ _ hrs hC.2 (y_and l v ts hl hC.1 h)
    rw [fComma]
    exact h2.toks (by rw [itComma, toks_append, List.append_assoc])
theorem y_commaTs : ∀ (rs : List CCommaT) (v : Vis) (ts : List Tok), wCommaTs num lim rs → CC C (itCommaTs rs) →
    Fin τ v.frags ts → Fin τ (fCommaTs better num rs v).frags (ts ++ toks (itCommaTs rs))
  | [], v, ts, _, _, h => h.toks (by simp [itCommaTs, toks])
  | .mk c1 c2 none :: rs, v, ts, hw, hC, h => by
    obtain ⟨rfl, rfl, hrs⟩ := hw
    have hC' : CC C (itCommaTs rs) := by
      cases rs with
      | nil => simp [itCommaTs, cc_nil]
      | cons x rs =>
        rw [itCommaTs] at hC
        exact (cc_append.1 (cc_iop.1 hC).2).2
    have h1 := (h.comma T).weak fa_of
    have h2 := y_commaTs rs _ _ hrs hC' h1.gap
    rw [fCommaTs]
    refine h2.toks ?_
    cases rs <;> simp [itCommaTs, toks_iop, toks_append, toks, iop]
  | .mk c1 c2 (some t) :: rs, v, ts, hw, hC, h => by
    obtain ⟨rfl, rfl, ht, hrs⟩ := hw
    simp only [itCommaTs, cc_iop, cc_none, cc_append] at hC
    have h1 := y_and t _ _ ht hC.2.1 ((h.comma T).any Okay)
    have h2 := y_commaTs rs _ _ hrs hC.2.2 h1
    rw [fCommaTs]
    exact h2.toks (by simp [itCommaTs, toks_iop, toks_none, toks_append])
theorem y_val : ∀ (x : CVal) (v : Vis) (ts : List Tok), wVal num lim x → CC C (itVal x) → Beg τ Okay v.frags ts →
    Fin τ (fVal better num x v).frags (ts ++ toks (itVal x))
  | .mk cs b, v, ts, hw, hC, h => by
    obtain ⟨rfl, hb⟩ := hw
    exact y_valB b v ts hb hC h
theorem y_valB : ∀ (x : CValB) (v : Vis) (ts : List Tok), wValB num lim x → CC C (itValB x) → Beg τ Okay v.frags ts →
    Fin τ (fValB better num x v).frags (ts ++ toks (itValB x))
  | .sym s, v, ts, hw, hC, h => y_sym s v ts hw hC h
  | .sub c, v, ts, hw, hC, h => by
    simp only [itValB, cc_iop, cc_append] at hC
    obtain ⟨g, h2⟩ := (y_comma c (indentIn (push (bs "(") v)) _ hw hC.2.1 ((h.punct T 40).any Okay)).at
    have h3 := h2.close T 41
    rw [fValB]
    exact h3.toks (by
      simp [itValB, toks_iop, toks_append, toks_gap (commaGap_cases c), toks_nil, show bs "(" = [40] from rfl,
        show bs ")" = [41] from rfl])
  | .str t, v, ts, hw, hC, h => by
    simp only [itValB, cc_some, strTok_text] at hC
    refine h.fin T [some (strTok t)] (s := t) (by simp [render, strTok_text]) hC.1 (hw.elim solid_ml solid_str)
      (okay_str hw) ?_
    intro r hr
    unfold strTok
    by_cases hm : IsTok .mlString t
    · rw [if_pos hm]; exact lx_one (ml_fol r hm) (tok_ne hm)
    · rw [if_neg hm]
      have h' := hw.resolve_left hm
      exact lx_one (str_fol h' hr) (tok_ne h')
  | .num t, v, ts, hw, hC, h => by
    simp only [itValB, cc_some] at hC
    have he : fValB better num (.num t) v = push t v := by
      show push (num t) v = _
      rw [hw.2]
    rw [he]
    exact h.fin T [some ⟨.number, t⟩] (s := t) (by simp [render]) hC.1 (solid_num hw.1) (okay_num hw.1)
      (fun r hr => lx_one (num_fol hw.1 hr) (tok_ne hw.1))
  | .bool t, v, ts, hw, hC, h => by
    simp only [itValB, cc_some] at hC
    exact h.fin T [some ⟨.bool, t⟩] (s := t) (by simp [render]) hC.1 (solid_kw (by simp) hw) (okay_kw (by simp) hw)
      (fun r hr => lx_one (kw_fol (by simp) hw hr) (tok_ne hw))
  | .null, v, ts, hw, hC, h => by
    have hn : IsTok .null (bs "NULL") := by decide
    exact h.fin T [some ⟨.null, bs "NULL"⟩] (s := bs "NULL") (by simp [render]) (T.plain _ (by decide))
      (solid_kw (by simp) hn) (okay_kw (by simp) hn) (fun r hr => lx_one (kw_fol (by simp) hn hr) (tok_ne hn))
theorem y_sym : ∀ (s : CSym) (v : Vis) (ts : List Tok), wSym num lim s → CC C (itSym s) → Beg τ Okay v.frags ts →
    Fin τ (fSym better num s v).frags (ts ++ toks (itSym s))
  | .mk cs n called ps, v, ts, hw, hC, h => by
    obtain ⟨rfl, hn, hps, hc⟩ := hw
    rw [itSym, cc_append] at hC
    have hpop : ∀ (w : Vis) (us : List Tok), Fin τ w.frags us →
        Fin τ (if v.pos > v.opts.indentWidth then popIndent w else w).frags us := by
      intro w us h
      split
      · exact h
      · exact h
    simp only [fSym, show visitComments [] v = v from rfl]
    refine hpop _ _ ?_
    obtain ⟨v1, hv1, h1⟩ : ∃ v1, (if v.pos > v.opts.indentWidth then lineBreak (indentIn v) else v) = v1 ∧
        Beg τ Okay v1.frags ts := by
      refine ⟨_, rfl, ?_⟩
      split
      · exact Beg.lineBreak (v := indentIn v) h
      · exact h
    rw [hv1]
    have h2 := h1.fin T (nameItems n) (s := n) (name_render names_ok hn) (cc_name T.dot names_ok hn hC.1)
      (solid_name names_ok hn) (okay_name names_ok hn) (fun r hr => lx_name names_ok hn hr)
    cases called with
    | false =>
      have : ps = [] := hc rfl
      subst this
      simp only [List.isEmpty_nil, and_self, if_true]
      exact Fin.toks h2 (by simp [itSym])
    | true =>
      have hsite : ∀ c, Fin τ (if (push n v1).opts.collectCallSites = true then
          site c (push n v1) else push n v1).frags (ts ++ toks (nameItems n)) := by
        intro c
        split
        · exact h2
        · exact h2
      have hs := hsite ⟨bs "function", n, ps.map argName⟩
      simp only [Bool.true_eq_false, false_and, if_false, true_and]
      cases ps with
      | nil =>
        simp only [List.isEmpty_nil, if_true]
        obtain ⟨g, h3⟩ := hs.at
        have h4 := ((h3.punct T 40).weak fa_of).close T 41
        obtain ⟨g', h5⟩ := h4.at
        refine Fin.toks ((h5.text (by simp [push, show bs "()" = [40, 41] from rfl])).solid (fs := (if
          (push n v1).opts.collectCallSites = true then site _ (push n v1) else push n v1).frags) (s := bs "()")
          (fun _ h => h) (by decide)) (by
          simp [itSym, itArgs, toks_append, toks_iop, toks_nil, show bs "(" = [40] from rfl, show bs ")" = [41] from rfl])
      | cons a as =>
        simp only [List.isEmpty_cons, Bool.false_eq_true, if_false]
        simp only [if_true, cc_iop, cc_append] at hC
        have h3 := y_call T (better := better) (one := fArgs1 better num (a :: as))
          (many := fArgs2 better num true (a :: as)) (A := toks (itArgs (a :: as)))
          (fun w us hb => y_args1 (a :: as) w us hps hC.2.2.1 hb (by simp))
          (fun w us hb => y_args2 (a :: as) true w us hps hC.2.2.1 hb (by simp)) hs
        exact h3.toks (by simp [itSym, toks_append, toks_iop, toks_nil])
theorem y_args1 : ∀ (as : List CArg) (v : Vis) (ts : List Tok), wArgs num lim as → CC C (itArgs as) →
    Beg τ Okay v.frags ts → as ≠ [] → Fin τ (fArgs1 better num as v).frags (ts ++ toks (itArgs as))
  | [], v, ts, _, _, _, h => absurd rfl h
  | a :: as, v, ts, hw, hC, h, _ => by
    obtain ⟨ha, has⟩ := hw
    have hC := cc_args hC
    have h1 := y_arg a v ts ha hC.1 h
    cases as with
    | nil => exact h1.toks (by simp [itArgs, toks_append])
    | cons b bs' =>
      have h3 := y_args1 (b :: bs') _ _ has hC.2 ((h1.comma T).any Okay) (by simp)
      rw [fArgs1]
      exact h3.toks (by simp [itArgs, toks_iop, toks_none, toks_append, toks_nil])
theorem y_args2 : ∀ (as : List CArg) (f : Bool) (v : Vis) (ts : List Tok), wArgs num lim as → CC C (itArgs as) →
    Beg τ Okay v.frags ts → as ≠ [] → Fin τ (fArgs2 better num f as v).frags (ts ++ toks (itArgs as))
  | [], f, v, ts, _, _, _, h => absurd rfl h
  | a :: as, f, v, ts, hw, hC, h, _ => by
    obtain ⟨ha, has⟩ := hw
    have hC := cc_args hC
    have h0 : Beg τ Okay (if f then v else lineBreak v).frags ts := by
      cases f with
      | true => exact h
      | false => exact h.lineBreak
    have h1 := y_arg a _ ts ha hC.1 h0
    cases as with
    | nil =>
      rw [fArgs2]
      exact h1.toks (by simp [itArgs, toks_append])
    | cons b bs' =>
      have h3 := y_args2 (b :: bs') false _ _ has hC.2 ((h1.comma T).any Okay) (by simp)
      rw [fArgs2]
      exact h3.toks (by simp [itArgs, toks_iop, toks_none, toks_append, toks_nil])
theorem y_arg : ∀ (a : CArg) (v : Vis) (ts : List Tok), wArg num lim a → CC C (itArg a) → Beg τ Okay v.frags ts →
    Fin τ (fArg better num a v).frags (ts ++ toks (itArg a))
  | .mk cs n r, v, ts, hw, hC, h => by
    obtain ⟨rfl, hn, hr⟩ := hw
    simp only [itArg, cc_some, cc_iop] at hC
    exact (y_argV r n (breakIfFar v) ts hr hn hC.1 hC.2.2 h.far).toks (by simp [itArg])
theorem y_argV : ∀ (r : CArgV) (n : Str) (v : Vis) (ts : List Tok), wArgV num lim r → IsTok .ident n → C n →
    CC C (itArgV r) → Beg τ Okay v.frags ts →
    Fin τ (fArgV better num n r v).frags (ts ++ toks (some ⟨.ident, n⟩ :: iop (bs "=") :: itArgV r))
  | .expr e, n, v, ts, hw, hn, hCn, hC, h => by
    have h2 := y_and e (pushes [n, bs "="] v) _ hw hC (y_eq T h hn hCn).eqn
    rw [fArgV]
    exact h2.toks (by simp [itArgV, toks_some, toks_iop])
  | .select q, n, v, ts, hw, hn, hCn, hC, h => by
    simp only [itArgV, cc_iop, cc_none, cc_append] at hC
    have h1 : At τ (pushes [n, bs "={"] v).frags (ts ++ [⟨.ident, n⟩, ⟨.op, bs "="⟩] ++ [⟨.op, [123]⟩]) Fa false :=
      ((y_eq T h hn hCn).eqn.punct T 123).text (by
        simp [pushes, push, show bs "={" = [61, 123] from rfl, show bs "=" = [61] from rfl])
    rw [fArgV]
    by_cases hb : (pushes [n, bs "={"] v).breakLines = true
    · rw [if_pos hb]
      have h2 : Beg τ KS (push (bs "  ") (indentIn (newLine 2 (pushes [n, bs "={"] v)))).frags _ :=
        (Beg.newLine (h1.any KS) 2).blank sp2_blk
      have h3 := y_select q _ _ hw hC.2.1 h2
      have h4 := (Fin.lineBreak (v := popIndent _) h3).close T 125
      exact h4.toks (by
        simp [itArgV, toks_some, toks_iop, toks_none, toks_append, toks_gap (selectGap_cases q), toks_nil,
          show bs "{" = [123] from rfl, show bs "}" = [125] from rfl])
    · rw [if_neg hb]
      have h3 := y_select q (push (bs " ") (pushes [n, bs "={"] v)) _ hw hC.2.1 ((h1.any KS).blank sp_blk)
      obtain ⟨g, h4⟩ := h3.at
      obtain ⟨g', h5⟩ := ((h4.blank (s := [32]) sp_blk (by simp)).close T 125).at
      refine Fin.toks ((h5.text (by simp [push, show bs " }" = [32, 125] from rfl])).solid (fs := (fSelect better num q
        (push (bs " ") (pushes [n, bs "={"] v))).frags) (s := bs " }") (fun _ h => h) (by decide)) (by
        simp [itArgV, toks_some, toks_iop, toks_none, toks_append, toks_gap (selectGap_cases q), toks_nil,
          show bs "{" = [123] from rfl, show bs "}" = [125] from rfl])
  | .array c, n, v, ts, hw, hn, hCn, hC, h => by
    simp only [itArgV, cc_iop, cc_none, cc_append] at hC
    have h1 : At τ (pushes [n, bs "=["] v).frags (ts ++ [⟨.ident, n⟩, ⟨.op, bs "="⟩] ++ [⟨.op, [91]⟩]) Fa false :=
      ((y_eq T h hn hCn).eqn.punct T 91).text (by
        simp [pushes, push, show bs "=[" = [61, 91] from rfl, show bs "=" = [61] from rfl])
    obtain ⟨g, h2⟩ := (y_comma c _ _ hw hC.2.1 (h1.any Okay)).at
    rw [fArgV]
    exact (h2.close T 93).toks (by
      simp [itArgV, toks_some, toks_iop, toks_append, toks_gap (commaGap_cases c), toks_nil,
        show bs "[" = [91] from rfl, show bs "]" = [93] from rfl])
  | .empty, n, v, ts, hw, hn, hCn, hC, h => by
    have h1 := (((y_eq T h hn hCn).eqn.punct T 91).weak fa_of).close T 93
    obtain ⟨g, h2⟩ := h1.at
    rw [fArgV]
    exact Fin.toks ((h2.text (by
      simp [push, show bs "=[]" = [61, 91, 93] from rfl, show bs "=" = [61] from rfl])).solid (fs := v.frags ++ [n])
        (s := bs "=[]") (fun _ h => h) (by decide)) (by
      simp [itArgV, toks_some, toks_iop, toks_nil, show bs "[" = [91] from rfl, show bs "]" = [93] from rfl])
theorem y_select : ∀ (q : CSelect) (v : Vis) (ts : List Tok), wSelect num lim q → CC C (itSelect q) →
    Beg τ KS v.frags ts → Fin τ (fSelect better num q v).frags (ts ++ toks (itSelect q))
  | .mk cs ex all cols from_ wh gb ob li, v, ts, hw, hC, h => by
    obtain ⟨rfl, hcols, hall, hfrom, hwh, hgb, hob, hlim⟩ := hw
    rw [itSelect_eq] at hC
    simp only [cc_append, cc_some, cc_none] at hC
    obtain ⟨_, _, _, hCc, _, hCf, hCw, hCg, hCo, hCl⟩ := hC
    have h1 : Beg τ KS (if ex then push (bs "EXPLAIN ") v else v).frags
        (ts ++ toks (if ex then [some ⟨.explain, bs "EXPLAIN"⟩, none] else [])) := by
      cases ex with
      | true => exact ((h.kw T ⟨.explain, bs "EXPLAIN"⟩ (fun _ h => h)).after KS)
      | false => exact h.toks (by simp [toks])
    have h2 : Beg τ Okay (push (bs "SELECT ") (if ex then push (bs "EXPLAIN ") v else v)).frags _ :=
      (h1.kw T ⟨.select, bs "SELECT"⟩ (fun _ h => h)).after Okay
    generalize hx : push (bs "SELECT ") (if ex then push (bs "EXPLAIN ") v else v) = x at h2
    have key : ∀ w us, Beg τ Okay w.frags us → Fin τ (starThen all cols.isEmpty (fColList better num 0 cols) w).frags
        (us ++ toks ((if all then iop (bs "*") :: (if cols.isEmpty then [] else [iop (bs ","), none]) else []) ++
          itCols cols)) := by
      intro w us hb
      unfold starThen
      cases all with
      | false =>
        simp only [Bool.false_eq_true, if_false]
        exact y_cols cols 0 w us hcols hCc hb (hall rfl).1
      | true =>
        simp only [if_true]
        have h3 := hb.punct T 42
        cases cols with
        | nil =>
          simp only [List.isEmpty_nil, if_true]
          exact (h3.solid fa_of (by decide)).toks (by
            simp [toks_iop, itCols, toks_append, toks_nil, show bs "*" = [42] from rfl])
        | cons c cs =>
          simp only [List.isEmpty_cons, Bool.false_eq_true, if_false]
          have h4 : Fin τ (push (bs "*") w).frags _ := h3.solid fa_of (by decide)
          have h5 := y_cols (c :: cs) 0 _ _ hcols hCc ((h4.comma T).any Okay) (by simp)
          exact h5.toks (by
            simp [toks_iop, toks_append, toks_none, toks_nil, show bs "*" = [42] from rfl])
    have h3 := y_layouts better key h2
    have h4 : Beg τ Okay (push (bs "FROM ") (lineBreak
        (selectLayouts better (starThen all cols.isEmpty (fColList better num 0 cols)) x))).frags _ :=
      (h3.lineBreak.kw_gap T ⟨.from_, bs "FROM"⟩).after Okay
    have h5 := y_plugin from_ _ _ hfrom hCf h4
    have h6 := y_clause (bs "WHERE ") ⟨.where_, bs "WHERE"⟩ wh rfl (by decide) _ _ hwh hCw h5
    have h7 := y_group gb _ _ hgb hCg h6
    have h8 := y_lim T lim li hlim hCl (y_ob T ob hob hCo h7)
    rw [fSelect_eq, hx]
    refine (fin_gbEnd h8 gb).toks ?_
    rw [itSelect_eq]
    simp [toks_append, toks_some, toks_none]
theorem y_clause (kw : Str) (t : Tok) : ∀ (c : Option CComma), kw = t.text ++ [32] → t ∈ kwToks →
    ∀ (v : Vis) (ts : List Tok), wOptComma num lim c → CC C (itClause t c) → Fin τ v.frags ts →
    Fin τ (fClause better num kw c v).frags (ts ++ toks (itClause t c))
  | none, hkw, ht, v, ts, _, _, h => h.toks (by simp [itClause, toks])
  | some c, hkw, ht, v, ts, hw, hC, h => by
    subst hkw
    simp only [itClause, cc_none, cc_some] at hC
    have h1 := (h.lineBreak.kw_gap T t ht).after Okay
    have h2 := y_comma c (push (t.text ++ [32]) (lineBreak v)) _ hw hC.2 h1
    rw [fClause]
    exact h2.toks (by simp [itClause, toks_none, toks_some])
theorem y_group : ∀ (c : Option CComma) (v : Vis) (ts : List Tok), wOptComma num lim c →
    CC C (itClause ⟨.groupBy, bs "GROUP BY"⟩ c) → Fin τ v.frags ts →
    Fin τ (fGroup better num c v).frags (ts ++ toks (itClause ⟨.groupBy, bs "GROUP BY"⟩ c))
  | none, v, ts, _, _, h => h.toks (by simp [itClause, toks])
  | some c, v, ts, hw, hC, h => by
    simp only [itClause, cc_none, cc_some] at hC
    have h1 := (h.lineBreak.kw_gap T ⟨.groupBy, bs "GROUP BY"⟩).after Okay
    have h2 := y_comma c (pushIndent (push (bs "GROUP BY ") (lineBreak v))) _ hw hC.2 h1
    rw [fGroup]
    exact h2.toks (by simp [itClause, toks_none, toks_some])
theorem y_cols : ∀ (cs : List CCol) (i : Nat) (v : Vis) (ts : List Tok), wCols num lim cs → CC C (itCols cs) →
    Beg τ Okay v.frags ts → cs ≠ [] → Fin τ (fColList better num i cs v).frags (ts ++ toks (itCols cs))
  | [], i, v, ts, _, _, _, h => absurd rfl h
  | c :: cs, i, v, ts, hw, hC, h, _ => by
    obtain ⟨hc, hcs⟩ := hw
    have hC := cc_cols hC
    have h1 := y_col c i v ts hc hC.1 h
    cases cs with
    | nil => exact h1.toks (by simp [itCols, toks_append])
    | cons b bs' =>
      have h3 := y_cols (b :: bs') (i + 1) _ _ hcs hC.2 (((h1.comma T).any Okay).lineBreak) (by simp)
      rw [fColList]
      exact h3.toks (by simp [itCols, toks_iop, toks_none, toks_append, toks_nil])
theorem y_col : ∀ (c : CCol) (i : Nat) (v : Vis) (ts : List Tok), wCol num lim c → CC C (itCol c) →
    Beg τ Okay v.frags ts → Fin τ (fCol better num i c v).frags (ts ++ toks (itCol c))
  | .mk cs b a, i, v, ts, hw, hC, h => by
    obtain ⟨rfl, hb, ha⟩ := hw
    exact y_colB b i a v ts hb ha hC h
theorem y_colB : ∀ (b : CColB) (i : Nat) (a : Str) (v : Vis) (ts : List Tok), wColB num lim b a →
    (a = [] ∨ IsTok .ident a) →
    CC C (itColB b ++ if a = [] then [] else [none, some ⟨.as_, bs "AS"⟩, none, some ⟨.ident, a⟩]) →
    Beg τ Okay v.frags ts →
    Fin τ (fColB better num i a b v).frags (ts ++ toks (itColB b ++
      if a = [] then [] else [none, some ⟨.as_, bs "AS"⟩, none, some ⟨.ident, a⟩]))
  | .star, i, a, v, ts, hw, ha, hC, h => by
    have hw' : a = [] := hw
    subst hw'
    exact ((h.punct T 42).solid fa_of (by decide)).toks (by simp [itColB, toks, iop, show bs "*" = [42] from rfl])
  | .expr e, i, a, v, ts, hw, ha, hC, h => by
    rw [cc_append] at hC
    have key : ∀ w : Vis, Beg τ Okay w.frags ts → Fin τ (fAnd better num e w).frags (ts ++ toks (itAnd e)) :=
      fun w hb => y_and e w ts hw hC.1 hb
    by_cases hn : a = []
    · subst hn
      simp only [fColB, ne_eq, not_true_eq_false, if_false, if_true, List.append_nil]
      refine ab_frags (P := fun fs => Fin τ fs _) (by simp) ?_
      intro cb hcb
      simp only [List.mem_cons, List.not_mem_nil, or_false] at hcb
      rcases hcb with rfl | rfl
      · exact key _ h
      · refine key _ ?_
        split
        · exact Beg.lineBreak (v := v.copy) h
        · exact h
    · have ha' := ha.resolve_left hn
      simp only [fColB, ne_eq, hn, not_false_eq_true, if_true]
      simp only [hn, if_false, cc_none, cc_some] at hC
      have e0 : toks (itColB (.expr e)) = toks (itAnd e) := by simp [itColB]
      refine Fin.toks (ts := ts ++ toks (itAnd e) ++ [⟨.as_, bs "AS"⟩, ⟨.ident, a⟩]) ?_
        (by simp [toks_append, e0, toks_none, toks_some, toks_nil])
      refine ab_frags (P := fun fs => Fin τ fs (ts ++ toks (itAnd e) ++ [⟨.as_, bs "AS"⟩, ⟨.ident, a⟩])) ?_ ?_
      · simp
      intro cb hcb
      simp only [List.mem_cons, List.not_mem_nil, or_false] at hcb
      rcases hcb with rfl | rfl
      · refine Fin.as_ T (key _ ?_) ha' hC.2.2.1
        exact h
      · refine Fin.as_ T (key _ ?_) ha' hC.2.2.1
        split
        · exact Beg.lineBreak (v := v.copy) h
        · exact h
  | .select q, i, a, v, ts, hw, ha, hC, h => by
    rw [cc_append] at hC
    simp only [itColB, cc_iop, cc_none, cc_append] at hC
    have h1 : At τ (pushes [bs "{", bs " "] v).frags (ts ++ [⟨.op, [123]⟩]) Fa true :=
      (h.punct T 123).blank (s := [32]) sp_blk (by simp)
    simp only [fColB]
    generalize hv1 : pushes [bs "{", bs " "] v = v1 at h1
    have hq : Fin τ (if v1.breakLines = true then
        push (bs "}") (lineBreak (fSelect better num q (push (bs "  ") (indentIn (newLine 2 v1)))))
      else push (bs " }") (fSelect better num q v1)).frags
        (ts ++ toks (itColB (.select q))) := by
      by_cases hb : v1.breakLines = true
      · rw [if_pos hb]
        have h2 : Beg τ KS (push (bs "  ") (indentIn (newLine 2 v1))).frags _ :=
          (Beg.newLine (h1.any KS) 2).blank sp2_blk
        have h3 := y_select q _ _ hw hC.1.2.1 h2
        have h4 := h3.lineBreak.close T 125
        exact h4.toks (by
          simp [itColB, toks_iop, toks_none, toks_append, toks_gap (selectGap_cases q), toks_nil,
            show bs "{" = [123] from rfl, show bs "}" = [125] from rfl])
      · rw [if_neg hb]
        have h3 := y_select q v1 _ hw hC.1.2.1 (h1.any KS)
        obtain ⟨g, h4⟩ := h3.at
        obtain ⟨g', h5⟩ := ((h4.blank (s := [32]) sp_blk (by simp)).close T 125).at
        refine Fin.toks ((h5.text (by simp [push, show bs " }" = [32, 125] from rfl])).solid (fs := (fSelect better num q
          v1).frags) (s := bs " }") (fun _ h => h) (by decide)) (by
          simp [itColB, toks_iop, toks_none, toks_append, toks_gap (selectGap_cases q), toks_nil,
            show bs "{" = [123] from rfl, show bs "}" = [125] from rfl])
    generalize (if v1.breakLines = true then
        push (bs "}") (lineBreak (fSelect better num q (push (bs "  ") (indentIn (newLine 2 v1)))))
      else push (bs " }") (fSelect better num q v1)) = v2 at hq
    have hpop : ∀ (w : Vis) (us : List Tok), Fin τ w.frags us →
        Fin τ (if v1.breakLines = true then popIndent (popIndent w) else w).frags us := by
      intro w us h
      split
      · exact h
      · exact h
    refine hpop _ _ ?_
    by_cases hn : a = []
    · subst hn
      simp only [ne_eq, not_true_eq_false, if_false]
      exact hq.toks (by simp)
    · have ha' := ha.resolve_left hn
      simp only [ne_eq, hn, not_false_eq_true, if_true]
      have hCa : C a := by
        have := hC.2
        simp only [hn, if_false, cc_none, cc_some] at this
        exact this.2.1
      exact (hq.as_ T ha' hCa).toks (by simp [hn, toks_append, toks_none, toks_some, toks_nil])
theorem y_plugin : ∀ (p : CPlugin) (v : Vis) (ts : List Tok), wPlugin num lim p → CC C (itPlugin p) →
    Beg τ Okay v.frags ts → Fin τ (fPlugin better num p v).frags (ts ++ toks (itPlugin p))
  | .mk n call args, v, ts, hw, hC, h => by
    obtain ⟨hn, has, hc⟩ := hw
    rw [itPlugin, cc_append] at hC
    have h2 := h.fin T (nameItems n) (s := n) (name_render name_ok hn) (cc_name T.dot name_ok hn hC.1)
      (solid_name name_ok hn) (okay_name name_ok hn) (fun r hr => lx_name name_ok hn hr)
    have hsite : ∀ c, Fin τ (if (push n v).opts.collectCallSites = true then
        site c (push n v) else push n v).frags (ts ++ toks (nameItems n)) := by
      intro c
      split
      · exact h2
      · exact h2
    simp only [fPlugin]
    cases call with
    | false =>
      simp only [Bool.false_eq_true, if_false]
      exact (hsite _).toks (by simp [itPlugin])
    | true =>
      simp only [if_true]
      have hs := hsite ⟨bs "plugin", n, args.map argName⟩
      cases args with
      | nil =>
        simp only [List.isEmpty_nil, if_true]
        obtain ⟨g, h3⟩ := hs.at
        have h4 := ((h3.punct T 40).weak fa_of).close T 41
        obtain ⟨g', h5⟩ := h4.at
        refine Fin.toks ((h5.text (by simp [push, show bs "()" = [40, 41] from rfl])).solid (fs := (if
          (push n v).opts.collectCallSites = true then site _ (push n v) else push n v).frags) (s := bs "()")
          (fun _ h => h) (by decide)) (by
          simp [itPlugin, itArgs, toks_append, toks_iop, toks_nil, show bs "(" = [40] from rfl, show bs ")" = [41] from rfl])
      | cons a as =>
        simp only [List.isEmpty_cons, Bool.false_eq_true, if_false]
        simp only [if_true, cc_iop, cc_append] at hC
        have h3 := y_call T (better := better) (one := fArgs1 better num (a :: as))
          (many := fArgs2 better num true (a :: as)) (A := toks (itArgs (a :: as)))
          (fun w us hb => y_args1 (a :: as) w us has hC.2.2.1 hb (by simp))
          (fun w us hb => y_args2 (a :: as) true w us has hC.2.2.1 hb (by simp)) hs
        exact h3.toks (by simp [itPlugin, toks_append, toks_iop, toks_nil])
end

/-! ## Statements -/

theorem y_params (all : List CLetParam) : ∀ (ps : List CLetParam) (v : Vis) (ts : List Tok),
    (∀ p ∈ ps, wParam num lim all p) → CC C (itParams ps) → Beg τ Okay v.frags ts → ps ≠ [] →
    Fin τ (fParams better num all ps v).frags (ts ++ toks (itParams ps))
  | [], v, ts, _, _, _, h => absurd rfl h
  | p :: ps, v, ts, hw, hC, h, _ => by
    have hp := hw p (by simp)
    rw [itParams, cc_append] at hC
    have h1 : Fin τ (match paramDefault all (paramName p) with
        | some a => fArg better num a v
        | none => push (paramName p) v).frags (ts ++ toks (itParam p)) := by
      cases p with
      | name n =>
        obtain ⟨hi, hn, hd⟩ := hp
        rw [hn, hd]
        exact (h.ident T hi (cc_some.1 hC.1).1).toks (by simp [itParam, toks])
      | dflt a =>
        obtain ⟨ha, hd⟩ := hp
        rw [show paramName (.dflt a) = argName a from rfl, hd]
        exact y_arg T better num lim a v ts ha hC.1 h
    rw [fParams]
    cases ps with
    | nil => exact h1.toks (by simp [itParams, paramsTail])
    | cons p2 ps =>
      simp only [List.isEmpty_cons, Bool.false_eq_true, if_false]
      have hC2 : CC C (itParams (p2 :: ps)) := by
        have := hC.2
        rw [paramsTail, cc_iop, cc_none] at this
        exact this.2
      have h3 := y_params all (p2 :: ps) _ _ (fun p hp => hw p (by simp [hp])) hC2 ((h1.comma T).any Okay) (by simp)
      exact h3.toks (by simp [itParams, paramsTail, toks_append, toks_iop, toks_none])

theorem y_stmt (t : CStmt) (v : Vis) (ts : List Tok) (hw : wStmt num lim t) (hC : CC C (itStmt t))
    (h : Beg τ KS v.frags ts) : At τ (fStmt better num t v).frags (ts ++ toks (itStmt t)) Fv true := by
  cases t with
  | query cs q =>
    obtain ⟨rfl, hq⟩ := hw
    exact (y_select T better num lim q v ts hq hC h).lineBreak
  | let_ cs n called ps op b =>
    obtain ⟨rfl, hn, hcl, hps, hop, hb⟩ := hw
    simp only [itStmt, cc_some, cc_none, cc_append, cc_iop] at hC
    obtain ⟨_, hCn, hCp, hCop, hCb⟩ := hC
    have h1 := (h.kw T ⟨.let_, bs "LET"⟩ (fun _ h => h)).after Okay
    have h2 : Fin τ (pushes [bs "LET ", n] v).frags _ := h1.ident T hn hCn
    have h3 : Fin τ (if ps.isEmpty then pushes [bs "LET ", n] v
        else push (bs ")") (fParams better num ps ps (push (bs "(") (pushes [bs "LET ", n] v)))).frags
        (ts ++ toks (some ⟨.let_, bs "LET"⟩ :: none :: some ⟨.ident, n⟩ ::
          (if ps.isEmpty then [] else iop (bs "(") :: (itParams ps ++ [iop (bs ")")])))) := by
      cases hps' : ps with
      | nil =>
        simp only [List.isEmpty_nil, if_true]
        exact h2.toks (by simp [toks])
      | cons p ps' =>
        subst hps'
        simp only [List.isEmpty_cons, Bool.false_eq_true, if_false, cc_iop, cc_append] at hCp ⊢
        obtain ⟨g, h3⟩ := h2.at
        obtain ⟨g', h4⟩ := (y_params T better num lim (p :: ps') (p :: ps') (push (bs "(") (pushes [bs "LET ", n] v)) _ hps
          hCp.2.1 ((h3.punct T 40).any Okay) (by simp)).at
        exact (h4.close T 41).toks (by
          simp [toks_some, toks_none, toks_append, toks_iop, toks_nil, show bs "(" = [40] from rfl,
            show bs ")" = [41] from rfl])
    obtain ⟨g, h4⟩ := h3.at
    have h5 := h4.binop T (optok_let hop) rfl hCop
    generalize hw0 : (if ps.isEmpty then pushes [bs "LET ", n] v
        else push (bs ")") (fParams better num ps ps (push (bs "(") (pushes [bs "LET ", n] v)))) = w at h5
    generalize hus : ts ++ toks (some ⟨.let_, bs "LET"⟩ :: none :: some ⟨.ident, n⟩ ::
          (if ps.isEmpty then [] else iop (bs "(") :: (itParams ps ++ [iop (bs ")")]))) = us at h5
    have h6 : Fin τ (match b with
        | .expr e => fAnd better num e (indentIn (pushes [bs " ", op, bs " "] w))
        | .select q => fSelect better num q (indentIn (pushes [bs " ", op, bs " "] w))).frags
        (us ++ [⟨.op, op⟩] ++ toks (itBody b)) := by
      cases b with
      | expr e => exact y_and T better num lim e (indentIn _) _ hb hCb h5
      | select q => exact y_select T better num lim q (indentIn _) _ hb hCb h5.ks
    have h7 := Fin.lineBreak (v := popIndent _) h6
    have h8 : At τ (fStmt better num (.let_ [] n called ps op b) v).frags (us ++ [⟨.op, op⟩] ++ toks (itBody b)) Fv true := by
      subst hw0
      cases b <;> exact h7
    exact At.toks h8 (by simp [← hus, itStmt, toks_some, toks_none, toks_append, toks_iop])

theorem y_stmts : ∀ (ss : List CStmt) (v : Vis) (ts : List Tok), (∀ t ∈ ss, wStmt num lim t) →
    (∀ t ∈ ss, CC C (itStmt t)) → At τ v.frags ts Fv true →
    At τ (fStmts better num ss v).frags (ts ++ ss.flatMap fun t => toks (itStmt t)) Fv true
  | [], v, ts, _, _, h => h.toks (by simp)
  | t :: ss, v, ts, hw, hC, h => by
    have h1 := (y_stmt T better num lim t v ts (hw t (by simp)) (hC t (by simp)) h.stmt).lineBreak
    have h2 := y_stmts ss _ _ (fun t ht => hw t (by simp [ht])) (fun t ht => hC t (by simp [ht])) h1
    exact h2.toks (by simp)

/-- **Whatever layout is chosen, the text of the statements is read as their tokens.** -/
theorem lex_layout (ss : List CStmt) (o : Opts) (brk : Bool) (hw : ∀ t ∈ ss, wStmt num lim t)
    (hC : ∀ t ∈ ss, CC C (itStmt t)) :
    lex (τ (fStmts better num ss (Vis.new o brk)).text) = some (ss.flatMap fun t => toks (itStmt t)) := by
  cases ss with
  | nil =>
    show lex (τ []) = _
    rw [T.nil]
    rfl
  | cons t ss =>
    have h0 : Beg τ KS (Vis.new o brk).frags [] := (at_nil T).any KS
    have h1 := (y_stmt T better num lim t _ _ (hw t (by simp)) (hC t (by simp)) h0).lineBreak
    have h2 := y_stmts T better num lim ss _ _ (fun t ht => hw t (by simp [ht])) (fun t ht => hC t (by simp [ht])) h1
    have h3 := h2.whole T
    refine Eq.trans h3 ?_
    simp
end

end Vfilter.Fmt.Lay
