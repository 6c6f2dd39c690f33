import Verif.RoundParse
/-!
# The grammar reads the printed tokens
-/

set_option linter.all false

namespace Vfilter.Fmt

/-- What may follow a value: no call, and no field behind a bare name. -/
def FolVal (x : CVal) (R : List Tok) : Prop :=
  Next [] [bs "("] R ∧ (openSym x = true → Next [] [bs "."] R)

section
variable (num : Str → Str) (lim : Str → Option Int)

theorem name_pos {ks : List TK} (hks : ∀ k ∈ ks, k ∈ [TK.symIdent, .ident]) {nm : Str} (h : DotName ks nm) :
    1 ≤ (toks (nameItems nm)).length := by
  obtain ⟨k, a, as, hk, ha, has, he, hi⟩ := name_items hks h
  rw [hi, toks_some]
  simp

theorem succ_of {n k : Nat} (h : k + 1 ≤ n) : ∃ m, n = m + 1 := ⟨n - 1, by omega⟩

theorem n_lim {R : List Tok} (hR : FolSel R) (li : Option Int) : Next
    [.in_, .or_, .altOr, .and_, .altAnd, .symIdent, .ident, .mlString, .string, .number, .bool, .null, .not_,
    .vqlComment, .comment, .mlComment, .where_, .groupBy, .orderBy, .desc] (bs "," :: goSs)
    (toks (limItems li) ++ R) := by
  cases li with
  | none => exact Next.mono hR
  | some i => exact ⟨by decide, by decide⟩

theorem n_ob {R : List Tok} (hR : Next
    [.in_, .or_, .altOr, .and_, .altAnd, .symIdent, .ident, .mlString, .string, .number, .bool, .null, .not_,
    .vqlComment, .comment, .mlComment, .where_, .groupBy, .orderBy, .desc] (bs "," :: goSs) R)
    (ob : Option (Str × Bool)) : Next
    [.in_, .or_, .altOr, .and_, .altAnd, .symIdent, .ident, .mlString, .string, .number, .bool, .null, .not_,
    .vqlComment, .comment, .mlComment, .where_, .groupBy] (bs "," :: goSs)
    (toks (obItems ob) ++ R) := by
  rcases ob with _ | ⟨k, d⟩
  · exact Next.mono hR
  · exact ⟨by decide, by decide⟩

theorem n_clause {k : TK} {s : Str} {R : List Tok} {ks : List TK} {ss : List Str} (hR : Next (k :: ks) ss R)
    (c : Option CComma) (hk : k ∉ ks := by decide) (hs : s ∉ ss := by decide) :
    Next ks ss (toks (itClause ⟨k, s⟩ c) ++ R) := by
  cases c with
  | none =>
    cases R with
    | nil => trivial
    | cons t R => exact ⟨fun h => hR.1 (by simp [h]), hR.2⟩
  | some c => exact ⟨hk, hs⟩

theorem p_lim {R : List Tok} (hR : FolSel R) (li : Option Int)
    (h : ∀ n, li = some n → IsTok .number (intText n) ∧ lim (intText n) = some n) :
    opt ((tok .limit).bind fun _ => need (tok .number)) (toks (limItems li) ++ R) =
      .ok (li.map intText) R := by
  cases li with
  | none => exact opt_fl ((tok_fl (Next.mono hR)).bind _)
  | some i =>
    refine opt_ok ?_
    show ((tok .limit).bind fun _ => need (tok .number)) (⟨.limit, bs "LIMIT"⟩ :: ⟨.number, intText i⟩ :: R) = _
    rw [bind_ok (tok_ok _ _ _), need_ok (tok_ok _ _ _)]

theorem p_ob {R : List Tok} (hR : Next
    [.in_, .or_, .altOr, .and_, .altAnd, .symIdent, .ident, .mlString, .string, .number, .bool, .null, .not_,
    .vqlComment, .comment, .mlComment, .where_, .groupBy, .orderBy, .desc] (bs "," :: goSs) R)
    (ob : Option (Str × Bool)) (h : ∀ k, (ob.map Prod.fst) = some k → IsTok .ident k) :
    opt ((tok .orderBy).bind fun _ => (need (tok .ident)).bind fun k =>
        (opt (tok .desc)).bind fun d => ret (k, d.isSome)) (toks (obItems ob) ++ R) = .ok ob R := by
  rcases ob with _ | ⟨k, d⟩
  · exact opt_fl ((tok_fl (Next.mono hR)).bind _)
  · refine opt_ok ?_
    cases d with
    | false =>
      show P.bind _ _ (⟨.orderBy, bs "ORDER BY"⟩ :: ⟨.ident, k⟩ :: R) = _
      rw [bind_ok (tok_ok _ _ _), bind_ok (need_ok (tok_ok _ _ _)), bind_ok (opt_fl (tok_fl (Next.mono hR)))]
      rfl
    | true =>
      show P.bind _ _ (⟨.orderBy, bs "ORDER BY"⟩ :: ⟨.ident, k⟩ :: ⟨.desc, bs "DESC"⟩ :: R) = _
      rw [bind_ok (tok_ok _ _ _), bind_ok (need_ok (tok_ok _ _ _)), bind_ok (opt_ok (tok_ok _ _ _))]
      rfl

theorem col_pos (c : CCol) (h : wCol num lim c) : 1 ≤ (toks (itCol c)).length := by
  obtain ⟨cs, b, a⟩ := c
  rw [itCol, toks_append, List.length_append]
  have : 1 ≤ (toks (itColB b)).length := by
    cases b with
    | star => exact Nat.le_refl _
    | expr e =>
      obtain ⟨t, ts, h1, _⟩ := s_and num lim e h.2.1
      rw [itColB, h1]
      simp
    | select q => rw [itColB, iop, toks_some]; simp
  omega

theorem n_cols {cs : List CCol} (hw : wCols num lim cs) (hne : cs ≠ []) (hs : startsStar cs = false)
    {R : List Tok} : Next [] [bs "*"] (toks (itCols cs) ++ R) := by
  cases cs with
  | nil => exact absurd rfl hne
  | cons c cs =>
    obtain ⟨cm, b, a⟩ := c
    rw [itCols_eq, toks_append, List.append_assoc, itCol, toks_append, List.append_assoc]
    cases b with
    | star => simp [startsStar] at hs
    | expr e => exact start_next (s_and num lim e hw.1.2.1)
    | select q => rw [itColB, iop, toks_some, List.cons_append]; exact next_op

mutual
theorem p_and : ∀ (e : CAnd) (n : Nat) (R : List Tok), wAnd num lim e →
    10 * (toks (itAnd e)).length + 8 ≤ n → FolAnd R → pAnd lim n (toks (itAnd e) ++ R) = .ok e R
  | .mk cs l rs, n, R, hw, hn, hR => by
    obtain ⟨rfl, hl, hrs⟩ := hw
    obtain ⟨n, rfl⟩ := succ_of hn
    rw [itAnd, toks_append, List.length_append] at hn
    have h1 := p_or l n (toks (itAndTs rs) ++ R) hl (by omega) (n_andTs hR hrs)
    have h2 := p_andTs rs n n R hrs (by omega) (by omega) hR
    rw [pAnd, itAnd, toks_append, List.append_assoc,
      bind_ok (optC_nil (start_next (s_or num lim l hl))), bind_ok (need_ok h1), bind_ok h2]
    rfl
theorem p_andTs : ∀ (rs : List CAndT) (n m : Nat) (R : List Tok), wAndTs num lim rs →
    10 * (toks (itAndTs rs)).length ≤ n → (toks (itAndTs rs)).length + 1 ≤ m → FolAnd R →
    many (bAnd lim n) m (toks (itAndTs rs) ++ R) = .ok rs R
  | [], n, m, R, _, _, hm, hR =>
    many_stop (by omega) (((tok_fl hR.mono).alt (tok_fl hR.mono)).bind _)
  | .mk op t :: rs, n, m, R, hw, hn, hm, hR => by
    obtain ⟨hop, ht, hrs⟩ := hw
    obtain ⟨m, rfl⟩ := succ_of hm
    rw [itAndTs, toks_none, toks_none, toks_some, toks_none, toks_append] at hn hm ⊢
    simp only [List.length_cons, List.length_append] at hn hm
    have h1 := p_or t n (toks (itAndTs rs) ++ R) ht (by omega) (n_andTs hR hrs)
    have h2 := p_andTs rs n m R hrs (by omega) (by omega) hR
    refine many_cons (r := toks (itAndTs rs) ++ R) ?_ h2
    unfold bAnd
    rw [List.cons_append, List.append_assoc, bind_ok (and_op hop _), bind_ok (need_ok h1)]
    rfl
theorem p_or : ∀ (e : COr) (n : Nat) (R : List Tok), wOr num lim e →
    10 * (toks (itOr e)).length + 7 ≤ n → FolOr R → pOr lim n (toks (itOr e) ++ R) = .ok e R
  | .mk cs l rs, n, R, hw, hn, hR => by
    obtain ⟨rfl, hl, hrs⟩ := hw
    obtain ⟨n, rfl⟩ := succ_of hn
    rw [itOr, toks_append, List.length_append] at hn
    have h1 := p_cond l n (toks (itOrTs rs) ++ R) hl (by omega) (n_orTs hR hrs)
    have h2 := p_orTs rs n n R hrs (by omega) (by omega) hR
    rw [pOr, itOr, toks_append, List.append_assoc,
      bind_ok (optC_nil (start_next (s_cond num lim l hl))), bind_ok (need_ok h1), bind_ok h2]
    rfl
theorem p_orTs : ∀ (rs : List COrT) (n m : Nat) (R : List Tok), wOrTs num lim rs →
    10 * (toks (itOrTs rs)).length ≤ n → (toks (itOrTs rs)).length + 1 ≤ m → FolOr R →
    many (bOr lim n) m (toks (itOrTs rs) ++ R) = .ok rs R
  | [], n, m, R, _, _, hm, hR =>
    many_stop (by omega) (((tok_fl hR.mono).alt (tok_fl hR.mono)).bind _)
  | .mk op t :: rs, n, m, R, hw, hn, hm, hR => by
    obtain ⟨hop, ht, hrs⟩ := hw
    obtain ⟨m, rfl⟩ := succ_of hm
    rw [itOrTs, toks_none, toks_some, toks_none, toks_append] at hn hm ⊢
    simp only [List.length_cons, List.length_append] at hn hm
    have h1 := p_cond t n (toks (itOrTs rs) ++ R) ht (by omega) (n_orTs hR hrs)
    have h2 := p_orTs rs n m R hrs (by omega) (by omega) hR
    refine many_cons (r := toks (itOrTs rs) ++ R) ?_ h2
    unfold bOr
    rw [List.cons_append, List.append_assoc, bind_ok (or_op hop _), bind_ok (need_ok h1)]
    rfl
theorem p_cond : ∀ (e : CCond) (n : Nat) (R : List Tok), wCond num lim e →
    10 * (toks (itCond e)).length + 6 ≤ n → FolCond R → pCond lim n (toks (itCond e) ++ R) = .ok e R
  | .not cs c, n, R, hw, hn, hR => by
    obtain ⟨rfl, hc⟩ := hw
    obtain ⟨n, rfl⟩ := succ_of hn
    rw [itCond, toks_some, toks_none] at hn ⊢
    simp only [List.length_cons] at hn
    have h1 := p_cond c n R hc (by omega) hR
    rw [pCond, List.cons_append, bind_ok (optC_nil (by exact ⟨by decide, by simp⟩))]
    refine need_ok (alt_ok ?_)
    rw [bind_ok (tok_ok _ _ _), bind_ok (need_ok h1)]
    rfl
  | .cmp cs l r, n, R, hw, hn, hR => by
    obtain ⟨rfl, hl, hr⟩ := hw
    obtain ⟨n, rfl⟩ := succ_of hn
    rw [itCond, toks_append, List.length_append] at hn
    have h1 := p_add l n (toks (itCmp r) ++ R) hl (by omega) (n_cmp hR hr)
    have h2 := p_cmp r n n R hr (by omega) (by omega) hR
    rw [pCond, itCond, toks_append, List.append_assoc,
      bind_ok (optC_nil (startV_next (s_add num lim l hl)))]
    refine need_ok (alt_skip ((tok_fl (startV_next (s_add num lim l hl))).bind _) ?_)
    rw [bind_ok h1, bind_ok h2]
    cases r <;> rfl
theorem p_cmp : ∀ (r : Option CCmpT) (n m : Nat) (R : List Tok), wCmp num lim r →
    10 * (toks (itCmp r)).length ≤ n → (toks (itCmp r)).length + 1 ≤ m → FolCond R →
    many (bCmp lim n) m (toks (itCmp r) ++ R) = .ok r.toList R
  | none, n, m, R, _, _, hm, hR => many_stop (by omega) ((cmp_fl hR).bind _)
  | some (.mk op t), n, m, R, hw, hn, hm, hR => by
    obtain ⟨hop, ht⟩ := hw
    rw [itCmp, toks_none, toks_some, toks_none] at hn hm ⊢
    simp only [List.length_cons] at hn hm
    have h1 := p_add t n R ht (by omega) hR.mono
    refine many_one (by omega) ?_ ((cmp_fl hR).bind _)
    unfold bCmp
    rw [List.cons_append, bind_ok (cmp_op hop _), bind_ok (need_ok h1)]
    rfl
theorem p_add : ∀ (e : CAdd) (n : Nat) (R : List Tok), wAdd num lim e →
    10 * (toks (itAdd e)).length + 5 ≤ n → FolAdd R → pAdd lim n (toks (itAdd e) ++ R) = .ok e R
  | .mk cs l rs, n, R, hw, hn, hR => by
    obtain ⟨rfl, hl, hrs⟩ := hw
    obtain ⟨n, rfl⟩ := succ_of hn
    rw [itAdd, toks_append, List.length_append] at hn
    have h1 := p_mul l n (toks (itAddTs rs) ++ R) hl (by omega) (n_addTs hR hrs)
    have h2 := p_addTs rs n n R hrs (by omega) (by omega) hR
    rw [pAdd, itAdd, toks_append, List.append_assoc,
      bind_ok (optC_nil (startV_next (s_mul num lim l hl))), bind_ok (need_ok h1), bind_ok h2]
    rfl
theorem p_addTs : ∀ (rs : List CAddT) (n m : Nat) (R : List Tok), wAddTs num lim rs →
    10 * (toks (itAddTs rs)).length ≤ n → (toks (itAddTs rs)).length + 1 ≤ m → FolAdd R →
    many (bAdd lim n) m (toks (itAddTs rs) ++ R) = .ok rs R
  | [], n, m, R, _, _, hm, hR =>
    many_stop (by omega) (((lit_fl hR.mono).alt (lit_fl hR.mono)).bind _)
  | .mk op t :: rs, n, m, R, hw, hn, hm, hR => by
    obtain ⟨hop, ht, hrs⟩ := hw
    obtain ⟨m, rfl⟩ := succ_of hm
    rw [itAddTs, toks_none, iop, toks_some, toks_none, toks_append] at hn hm ⊢
    simp only [List.length_cons, List.length_append] at hn hm
    have h1 := p_mul t n (toks (itAddTs rs) ++ R) ht (by omega) (n_addTs hR hrs)
    have h2 := p_addTs rs n m R hrs (by omega) (by omega) hR
    refine many_cons (r := toks (itAddTs rs) ++ R) ?_ h2
    unfold bAdd
    rw [List.cons_append, List.append_assoc, bind_ok (add_op hop _), bind_ok (need_ok h1)]
    rfl
theorem p_mul : ∀ (e : CMul) (n : Nat) (R : List Tok), wMul num lim e →
    10 * (toks (itMul e)).length + 4 ≤ n → FolMul R → pMul lim n (toks (itMul e) ++ R) = .ok e R
  | .mk cs l rs, n, R, hw, hn, hR => by
    obtain ⟨rfl, hl, hrs⟩ := hw
    obtain ⟨n, rfl⟩ := succ_of hn
    rw [itMul, toks_append, List.length_append] at hn
    have h1 := p_member l n (toks (itMulTs rs) ++ R) hl (by omega) (n_mulTs hR hrs)
    have h2 := p_mulTs rs n n R hrs (by omega) (by omega) hR
    rw [pMul, itMul, toks_append, List.append_assoc,
      bind_ok (optC_nil (startV_next (s_member num lim l hl))), bind_ok (need_ok h1), bind_ok h2]
    rfl
theorem p_mulTs : ∀ (rs : List CMulT) (n m : Nat) (R : List Tok), wMulTs num lim rs →
    10 * (toks (itMulTs rs)).length ≤ n → (toks (itMulTs rs)).length + 1 ≤ m → FolMul R →
    many (bMul lim n) m (toks (itMulTs rs) ++ R) = .ok rs R
  | [], n, m, R, _, _, hm, hR =>
    many_stop (by omega) (((lit_fl hR.mono).alt (lit_fl hR.mono)).bind _)
  | .mk op t :: rs, n, m, R, hw, hn, hm, hR => by
    obtain ⟨hop, ht, hrs⟩ := hw
    obtain ⟨m, rfl⟩ := succ_of hm
    rw [itMulTs, toks_none, iop, toks_some, toks_none, toks_append] at hn hm ⊢
    simp only [List.length_cons, List.length_append] at hn hm
    have hf := n_mulTs hR hrs
    have h1 := p_val t n (toks (itMulTs rs) ++ R) ht (by omega) ⟨hf.mono, fun _ => hf.mono⟩
    have h2 := p_mulTs rs n m R hrs (by omega) (by omega) hR
    refine many_cons (r := toks (itMulTs rs) ++ R) ?_ h2
    unfold bMul
    rw [List.cons_append, List.append_assoc, bind_ok (mul_op hop _), bind_ok (need_ok h1)]
    rfl
theorem p_member : ∀ (e : CMember) (n : Nat) (R : List Tok), wMember num lim e →
    10 * (toks (itMember e)).length + 3 ≤ n → FolMember R →
    pMember lim n (toks (itMember e) ++ R) = .ok e R
  | .mk cs l rs, n, R, hw, hn, hR => by
    obtain ⟨rfl, hl, hrs, hsf⟩ := hw
    obtain ⟨n, rfl⟩ := succ_of hn
    rw [itMember, toks_append, List.length_append] at hn
    have h1 := p_val l n (toks (itMTerms rs) ++ R) hl (by omega)
      ⟨n_mTerms hR hrs, fun ho => n_mTerms_dot hR hrs (hsf ho)⟩
    have h2 := p_mTerms rs n n R hrs (by omega) (by omega) hR
    have key : (optC.bind fun cs => (need (pVal lim n)).bind fun l => (many (bMem lim n) n).bind fun rs =>
        ret (CMember.mk cs l rs)) (toks (itVal l) ++ (toks (itMTerms rs) ++ R)) = .ok (.mk [] l rs) R := by
      rw [bind_ok (optC_nil (startV_next (s_val num lim l hl))), bind_ok (need_ok h1), bind_ok h2]
      rfl
    rw [pMember, itMember, toks_append, List.append_assoc]
    exact key
theorem p_mTerms : ∀ (rs : List CMTerm) (n m : Nat) (R : List Tok), wMTerms num lim rs →
    10 * (toks (itMTerms rs)).length ≤ n → (toks (itMTerms rs)).length + 1 ≤ m → FolMember R →
    many (bMem lim n) m (toks (itMTerms rs) ++ R) = .ok rs R
  | [], n, m, R, _, _, hm, hR =>
    many_stop (by omega) (((lit_fl hR.mono).bind _).alt ((lit_fl hR.mono).bind _))
  | .range i j :: rs, n, m, R, hw, hn, hm, hR => by
    obtain ⟨hi, hj, hrs⟩ := hw
    obtain ⟨m, rfl⟩ := succ_of hm
    have hg : toks (colonGap j) = [] := by
      cases j with
      | none => rfl
      | some x => obtain ⟨cs, b⟩ := x; cases b <;> rfl
    simp only [itMTerms, iop, toks_some, toks_append, hg, List.nil_append, List.cons_append,
      List.append_assoc] at hn hm ⊢
    simp only [List.length_cons, List.length_append] at hn hm
    have h2 := p_mTerms rs n m R hrs (by omega) (by omega) hR
    have hj1 := p_optVal j n n (⟨.op, bs "]"⟩ :: (toks (itMTerms rs) ++ R)) hj (by omega) (by omega)
      next_op next_op
    have hjc : Next [] [bs ":"] (toks (itOptVal j) ++ ⟨.op, bs "]"⟩ :: (toks (itMTerms rs) ++ R)) := by
      cases j with
      | none => exact next_op
      | some x => exact startV_next (s_val num lim x hj)
    have hi1 := p_optVal i n n (⟨.op, bs ":"⟩ :: (toks (itOptVal j) ++ ⟨.op, bs "]"⟩ ::
      (toks (itMTerms rs) ++ R))) hi (by omega) (by omega) next_op next_op
    refine many_cons (r := toks (itMTerms rs) ++ R) (alt_ok ?_) h2
    rw [bind_ok (lit_ok _ _ _), bind_ok hi1,
      bind_ok (many_one (by omega) (lit_ok _ _ _) (lit_fl hjc)), bind_ok hj1,
      bind_ok (need_ok (lit_ok _ _ _))]
    cases i <;> cases j <;> rfl
  | .index i :: rs, n, m, R, hw, hn, hm, hR => by
    obtain ⟨hi, hrs⟩ := hw
    obtain ⟨m, rfl⟩ := succ_of hm
    simp only [itMTerms, iop, toks_some, toks_append, List.cons_append, List.append_assoc] at hn hm ⊢
    simp only [List.length_cons, List.length_append] at hn hm
    have h2 := p_mTerms rs n m R hrs (by omega) (by omega) hR
    have hi1 := p_val i n (⟨.op, bs "]"⟩ :: (toks (itMTerms rs) ++ R)) hi (by omega)
      ⟨next_op, fun _ => next_op⟩
    refine many_cons (r := toks (itMTerms rs) ++ R) (alt_ok ?_) h2
    rw [bind_ok (lit_ok _ _ _), bind_ok (many_one (by omega) hi1 (val_fl next_op (by omega))),
      bind_ok (many_stop (by omega) (lit_fl next_op)),
      bind_ok (many_stop (by omega) (val_fl next_op (by omega))), bind_ok (need_ok (lit_ok _ _ _))]
    rfl
  | .field nm :: rs, n, m, R, hw, hn, hm, hR => by
    obtain ⟨hnm, hrs⟩ := hw
    obtain ⟨m, rfl⟩ := succ_of hm
    simp only [itMTerms, iop, toks_some, List.cons_append] at hn hm ⊢
    simp only [List.length_cons] at hn hm
    have h2 := p_mTerms rs n m R hrs (by omega) (by omega) hR
    refine many_cons (r := toks (itMTerms rs) ++ R) (alt_skip ((lit_fl next_op).bind _) ?_) h2
    rw [bind_ok (lit_ok _ _ _), bind_ok (need_ok (tok_ok _ _ _))]
    rfl
  | .empty :: rs, _, _, _, hw, _, _, _ => hw.elim
theorem p_optVal : ∀ (x : Option CVal) (n m : Nat) (R : List Tok), wOptVal num lim x →
    10 * (toks (itOptVal x)).length + 2 ≤ n → (toks (itOptVal x)).length + 2 ≤ m → NS R →
    Next [] [bs "(", bs "."] R → many (pVal lim n) m (toks (itOptVal x) ++ R) = .ok x.toList R
  | none, n, m, R, _, hn, hm, hR, _ => many_stop (by omega) (val_fl hR (by omega))
  | some x, n, m, R, hw, hn, hm, hR, hR2 =>
    many_one (by omega) (p_val x n R hw hn ⟨hR2.mono, fun _ => hR2.mono⟩) (val_fl hR (by omega))
theorem p_comma : ∀ (e : CComma) (n : Nat) (R : List Tok), wComma num lim e →
    10 * (toks (itComma e)).length + 9 ≤ n → FolComma R → pComma lim n (toks (itComma e) ++ R) = .ok e R
  | .mk cs l rs, n, R, hw, hn, hR => by
    obtain ⟨rfl, hl, hrs⟩ := hw
    obtain ⟨n, rfl⟩ := succ_of hn
    rw [itComma, toks_append, List.length_append] at hn
    have h1 := p_and l n (toks (itCommaTs rs) ++ R) hl (by omega) (n_commaTs hR hrs).1
    have h2 := p_commaTs rs n n R hrs (by omega) (by omega) (by omega) hR
    rw [pComma, itComma, toks_append, List.append_assoc,
      bind_ok (optC_nil (start_next (s_and num lim l hl))), bind_ok (need_ok h1), bind_ok h2]
    rfl
theorem p_commaTs : ∀ (rs : List CCommaT) (n m : Nat) (R : List Tok), wCommaTs num lim rs →
    10 * (toks (itCommaTs rs)).length ≤ n → 8 ≤ n → (toks (itCommaTs rs)).length + 1 ≤ m → FolComma R →
    many (bComma lim n) m (toks (itCommaTs rs) ++ R) = .ok rs R
  | [], n, m, R, _, _, _, hm, hR => by
    refine many_stop (by omega) (.inr ?_)
    show bComma lim n R = _
    unfold bComma
    rw [bind_ok (optC_nil hR.mono)]
    simp only [P.bind, (lit_fl (s := bs ",") hR.mono).need]
    rfl
  | .mk c1 c2 none :: rs, n, m, R, hw, hn, h8, hm, hR => by
    obtain ⟨rfl, rfl, hrs⟩ := hw
    obtain ⟨m, rfl⟩ := succ_of hm
    have e : toks (itCommaTs (.mk [] [] none :: rs)) = ⟨.op, bs ","⟩ :: toks (itCommaTs rs) := by
      cases rs <;> rfl
    rw [e] at hn hm ⊢
    simp only [List.length_cons] at hn hm
    have hf := n_commaTs hR hrs
    have h2 := p_commaTs rs n m R hrs (by omega) h8 (by omega) hR
    refine many_cons (r := toks (itCommaTs rs) ++ R) ?_ h2
    unfold bComma
    rw [List.cons_append, bind_ok (optC_nil (by exact ⟨by decide, by simp⟩)),
      bind_ok (need_ok (lit_ok _ _ _)), bind_ok (optC_nil (Next.mono hf.2)),
      bind_ok (many_stop (by omega) (and_fl hf.2 h8))]
    rfl
  | .mk c1 c2 (some t) :: rs, n, m, R, hw, hn, h8, hm, hR => by
    obtain ⟨rfl, rfl, ht, hrs⟩ := hw
    obtain ⟨m, rfl⟩ := succ_of hm
    rw [itCommaTs, iop, toks_some, toks_none, toks_append] at hn hm ⊢
    simp only [List.length_cons, List.length_append] at hn hm
    have hf := n_commaTs hR hrs
    have h1 := p_and t n (toks (itCommaTs rs) ++ R) ht (by omega) hf.1
    have h2 := p_commaTs rs n m R hrs (by omega) h8 (by omega) hR
    refine many_cons (r := toks (itCommaTs rs) ++ R) ?_ h2
    unfold bComma
    rw [List.cons_append, List.append_assoc, bind_ok (optC_nil (by exact ⟨by decide, by simp⟩)),
      bind_ok (need_ok (lit_ok _ _ _)), bind_ok (optC_nil (start_next (s_and num lim t ht))),
      bind_ok (many_one (by omega) h1 (and_fl hf.2 h8))]
    rfl
theorem p_val : ∀ (e : CVal) (n : Nat) (R : List Tok), wVal num lim e →
    10 * (toks (itVal e)).length + 2 ≤ n → FolVal e R → pVal lim n (toks (itVal e) ++ R) = .ok e R
  | .mk cs b, n, R, hw, hn, hR => by
    obtain ⟨rfl, hb⟩ := hw
    obtain ⟨n, rfl⟩ := succ_of hn
    have h1 := p_valB b n R hb (by rw [itVal] at hn; omega) hR.1 (fun s hs hc => hR.2 (by
      subst hs; obtain ⟨_, _, c, _⟩ := s; simpa [openSym] using hc))
    rw [pVal, itVal, bind_ok (optC_nil (startV_next (s_valB num lim b hb))), bind_ok (need_ok h1)]
    rfl
theorem p_valB : ∀ (b : CValB) (n : Nat) (R : List Tok), wValB num lim b →
    10 * (toks (itValB b)).length + 1 ≤ n → Next [] [bs "("] R →
    (∀ s, b = .sym s → (match s with | .mk _ _ called _ => called = false) → Next [] [bs "."] R) →
    bVal lim n (toks (itValB b) ++ R) = .ok b R
  | .sym s, n, R, hw, hn, hR, hR2 => by
    exact alt_ok (map_ok (p_sym s n R hw hn hR (hR2 s rfl)))
  | .sub c, n, R, hw, hn, hR, _ => by
    simp only [itValB, iop, toks_some, toks_append, toks_gap (commaGap_cases c), toks_nil, List.nil_append,
      List.cons_append, List.append_assoc] at hn ⊢
    simp only [List.length_cons, List.length_append, List.length_nil] at hn
    have h1 := p_comma c n (⟨.op, bs ")"⟩ :: R) hw (by omega) next_op
    refine alt_skip ((sym_fl next_op (by omega)).map _) (alt_ok ?_)
    rw [bind_ok (lit_ok _ _ _), bind_ok (need_ok h1), bind_ok (need_ok (lit_ok _ _ _))]
    rfl
  | .str t, n, R, hw, hn, hR, _ => by
    rw [itValB, toks_some, toks_nil, List.cons_append, List.nil_append]
    rw [itValB, toks_some, toks_nil] at hn
    simp only [List.length_cons, List.length_nil] at hn
    unfold strTok
    by_cases h : IsTok .mlString t
    · rw [if_pos h]
      exact alt_skip ((sym_fl (next_tok h (by simp) (by simp)) (by omega)).map _)
        (alt_skip ((lit_fl (next_tok h (by simp) (by simp))).bind _)
        (alt_ok (map_ok (alt_ok (tok_ok _ _ _)))))
    · rw [if_neg h]
      have h' := hw.resolve_left h
      exact alt_skip ((sym_fl (next_tok h' (by simp) (by simp)) (by omega)).map _)
        (alt_skip ((lit_fl (next_tok h' (by simp) (by simp))).bind _)
        (alt_ok (map_ok (alt_skip (tok_fl (next_tok h' (by simp) (by simp))) (tok_ok _ _ _)))))
  | .num t, n, R, hw, hn, hR, _ => by
    rw [itValB, toks_some, toks_nil, List.cons_append, List.nil_append]
    rw [itValB, toks_some, toks_nil] at hn
    simp only [List.length_cons, List.length_nil] at hn
    have h := hw.1
    exact alt_skip ((sym_fl (next_tok h (by simp) (by simp)) (by omega)).map _)
      (alt_skip ((lit_fl (next_tok h (by simp) (by simp))).bind _)
      (alt_skip (((tok_fl (next_tok h (by simp) (by simp))).alt (tok_fl (next_tok h (by simp) (by simp)))).map _)
      (alt_ok (map_ok (tok_ok _ _ _)))))
  | .bool t, n, R, hw, hn, hR, _ => by
    rw [itValB, toks_some, toks_nil, List.cons_append, List.nil_append]
    rw [itValB, toks_some, toks_nil] at hn
    simp only [List.length_cons, List.length_nil] at hn
    have h : IsTok .bool t := hw
    exact alt_skip ((sym_fl (next_tok h (by simp) (by simp)) (by omega)).map _)
      (alt_skip ((lit_fl (next_tok h (by simp) (by simp))).bind _)
      (alt_skip (((tok_fl (next_tok h (by simp) (by simp))).alt (tok_fl (next_tok h (by simp) (by simp)))).map _)
      (alt_skip ((tok_fl (next_tok h (by simp) (by simp))).map _)
      (alt_ok (map_ok (tok_ok _ _ _))))))
  | .null, n, R, hw, hn, hR, _ => by
    rw [itValB, toks_some, toks_nil, List.cons_append, List.nil_append]
    rw [itValB, toks_some, toks_nil] at hn
    simp only [List.length_cons, List.length_nil] at hn
    have h : IsTok .null (bs "NULL") := by decide
    exact alt_skip ((sym_fl (next_tok h (by simp) (by simp)) (by omega)).map _)
      (alt_skip ((lit_fl (next_tok h (by simp) (by simp))).bind _)
      (alt_skip (((tok_fl (next_tok h (by simp) (by simp))).alt (tok_fl (next_tok h (by simp) (by simp)))).map _)
      (alt_skip ((tok_fl (next_tok h (by simp) (by simp))).map _)
      (alt_skip ((tok_fl (next_tok h (by simp) (by simp))).map _)
      (map_ok (tok_ok _ _ _))))))
theorem p_sym : ∀ (s : CSym) (n : Nat) (R : List Tok), wSym num lim s →
    10 * (toks (itSym s)).length + 1 ≤ n → Next [] [bs "("] R →
    ((match s with | .mk _ _ called _ => called = false) → Next [] [bs "."] R) →
    pSym lim n (toks (itSym s) ++ R) = .ok s R
  | .mk cs nm called ps, n, R, hw, hn, hR, hR2 => by
    obtain ⟨rfl, hnm, hps, hc⟩ := hw
    have hpos := name_pos names_ok hnm
    obtain ⟨n, rfl⟩ := succ_of hn
    rw [itSym, toks_append, List.length_append] at hn
    rw [pSym, itSym, toks_append, List.append_assoc,
      bind_ok (optC_nil (startV_next (name_stV names_ok hnm)))]
    have hfirst : ∀ k ∈ [TK.symIdent, .ident], ∀ (t : Str) (ts : List Tok),
        alt (tok .symIdent) (tok .ident) (⟨k, t⟩ :: ts) = .ok t ts := by
      intro k hk t ts
      simp only [List.mem_cons, List.not_mem_nil, or_false] at hk
      rcases hk with rfl | rfl
      · exact alt_ok (tok_ok _ _ _)
      · exact alt_skip (tok_fl ⟨by simp, by simp⟩) (tok_ok _ _ _)
    cases called with
    | false =>
      have : ps = [] := hc rfl
      subst this
      simp only [Bool.false_eq_true, if_false, toks_nil, List.length_nil, List.nil_append] at hn ⊢
      rw [bind_ok (need_ok (p_name names_ok hnm hfirst (hR2 rfl) (by omega))),
        bind_ok (many_stop (by omega) ((lit_fl hR).bind _))]
      rfl
    | true =>
      simp only [if_true, iop, toks_some, toks_append, toks_nil, List.length_cons, List.length_append,
        List.length_nil, List.cons_append, List.append_assoc, List.nil_append] at hn ⊢
      rw [bind_ok (need_ok (p_name names_ok hnm hfirst next_op (by omega)))]
      have h1 : bCall lim n (⟨.op, bs "("⟩ :: (toks (itArgs ps) ++ ⟨.op, bs ")"⟩ :: R)) = .ok ps R :=
        p_call ps n R hps (by omega)
      rw [bind_ok (many_one (by omega) h1 ((lit_fl hR).bind _))]
      simp [ret]
theorem p_call : ∀ (ps : List CArg) (n : Nat) (R : List Tok), wArgs num lim ps →
    10 * (toks (itArgs ps)).length + 1 ≤ n →
    bCall lim n (⟨.op, bs "("⟩ :: (toks (itArgs ps) ++ ⟨.op, bs ")"⟩ :: R)) = .ok ps R
  | [], n, R, _, hn => by
    unfold bCall
    rw [bind_ok (lit_ok _ _ _), itArgs, toks_nil, List.nil_append,
      bind_ok (opt_fl (p := sepBy (pArg lim n) n) ((arg_fl next_op (by omega)).bind _)), bind_ok (need_ok (lit_ok _ _ _))]
    rfl
  | a :: as, n, R, hw, hn => by
    rw [itArgs_eq, toks_append, List.length_append] at hn
    have h1 := p_arg a n (toks (argsTail as) ++ ⟨.op, bs ")"⟩ :: R) hw.1 (by omega)
      (n_argsTail next_op as)
    have h2 := p_argsTail as n n (⟨.op, bs ")"⟩ :: R) hw.2 (by omega) (by omega) next_op next_op
    unfold bCall
    rw [bind_ok (lit_ok _ _ _), itArgs_eq, toks_append, List.append_assoc]
    have h3 : sepBy (pArg lim n) n (toks (itArg a) ++ (toks (argsTail as) ++ ⟨.op, bs ")"⟩ :: R)) =
        .ok (a :: as) (⟨.op, bs ")"⟩ :: R) := by
      unfold sepBy
      rw [bind_ok h1, bind_ok h2]
      rfl
    rw [bind_ok (opt_ok h3), bind_ok (need_ok (lit_ok _ _ _))]
    rfl
theorem p_argsTail : ∀ (as : List CArg) (n m : Nat) (R : List Tok), wArgs num lim as →
    10 * (toks (argsTail as)).length ≤ n → (toks (argsTail as)).length + 1 ≤ m → FolAnd R →
    Next [] [bs ","] R → many (bSep (pArg lim n)) m (toks (argsTail as) ++ R) = .ok as R
  | [], n, m, R, _, _, hm, _, hR => many_stop (by omega) ((lit_fl hR).bind _)
  | a :: as, n, m, R, hw, hn, hm, hR, hR2 => by
    obtain ⟨m, rfl⟩ := succ_of hm
    simp only [argsTail, iop, toks_some, toks_none, toks_append, List.cons_append, List.append_assoc,
      List.length_cons, List.length_append] at hn hm ⊢
    have h1 := p_arg a n (toks (argsTail as) ++ R) hw.1 (by omega) (n_argsTail hR as)
    have h2 := p_argsTail as n m R hw.2 (by omega) (by omega) hR hR2
    refine many_cons (r := toks (argsTail as) ++ R) ?_ h2
    unfold bSep
    rw [bind_ok (lit_ok _ _ _), need_ok h1]
theorem p_arg : ∀ (a : CArg) (n : Nat) (R : List Tok), wArg num lim a →
    10 * (toks (itArg a)).length ≤ n + 10 → FolAnd R → pArg lim n (toks (itArg a) ++ R) = .ok a R
  | .mk cs nm v, n, R, hw, hn, hR => by
    obtain ⟨rfl, hnm, hv⟩ := hw
    simp only [itArg, iop, toks_some, List.length_cons, List.cons_append] at hn ⊢
    obtain ⟨n, rfl⟩ : ∃ k, n = k + 1 := ⟨n - 1, by omega⟩
    have h1 := p_argV v n R hv (by omega) hR
    rw [pArg, bind_ok (optC_nil (by exact ⟨by simp [comKs], by simp⟩)), bind_ok (need_ok (tok_ok _ _ _)),
      bind_ok (need_ok (lit_ok _ _ _))]
    have key : ((need (bArgV lim n)).bind fun v => ret (CArg.mk [] nm v)) (toks (itArgV v) ++ R) =
        .ok (CArg.mk [] nm v) R := by
      rw [bind_ok (need_ok h1)]
      rfl
    exact key
theorem p_argV : ∀ (v : CArgV) (n : Nat) (R : List Tok), wArgV num lim v →
    10 * (toks (itArgV v)).length + 8 ≤ n → FolAnd R → bArgV lim n (toks (itArgV v) ++ R) = .ok v R
  | .expr e, n, R, hw, hn, hR => by
    have hs := s_and num lim e hw
    have h1 := p_and e n R hw hn hR
    exact alt_skip ((lit_fl (start_next hs)).bind _) (alt_skip ((lit_fl (start_next hs)).bind _) (map_ok h1))
  | .select q, n, R, hw, hn, hR => by
    simp only [itArgV, iop, toks_some, toks_none, toks_append, toks_gap (selectGap_cases q), toks_nil,
      List.nil_append, List.cons_append, List.append_assoc, List.length_cons, List.length_append,
      List.length_nil] at hn ⊢
    have h1 := p_select q n (⟨.op, bs "}"⟩ :: R) hw (by omega) next_op
    refine alt_ok ?_
    rw [bind_ok (lit_ok _ _ _), bind_ok (need_ok h1), bind_ok (need_ok (lit_ok _ _ _))]
    rfl
  | .array c, n, R, hw, hn, hR => by
    simp only [itArgV, iop, toks_some, toks_append, toks_gap (commaGap_cases c), toks_nil,
      List.nil_append, List.cons_append, List.append_assoc, List.length_cons, List.length_append,
      List.length_nil] at hn ⊢
    have h1 := p_comma c n (⟨.op, bs "]"⟩ :: R) hw (by omega) next_op
    refine alt_skip ((lit_fl next_op).bind _) (alt_ok ?_)
    rw [bind_ok (lit_ok _ _ _), bind_ok (opt_ok h1), bind_ok (need_ok (lit_ok _ _ _))]
    rfl
  | .empty, n, R, hw, hn, hR => by
    simp only [itArgV, iop, toks_some, toks_nil, List.nil_append, List.cons_append,
      List.length_cons, List.length_nil] at hn ⊢
    refine alt_skip ((lit_fl next_op).bind _) (alt_ok ?_)
    rw [bind_ok (lit_ok _ _ _), bind_ok (opt_fl (comma_fl next_op (by omega))),
      bind_ok (need_ok (lit_ok _ _ _))]
    rfl
theorem p_select : ∀ (q : CSelect) (n : Nat) (R : List Tok), wSelect num lim q →
    10 * (toks (itSelect q)).length + 1 ≤ n → FolSel R → pSelect lim n (toks (itSelect q) ++ R) = .ok q R
  | .mk cs ex all cols from_ wh gb ob li, n, R, hw, hn, hR => by
    obtain ⟨rfl, hcols, hall, hfrom, hwh, hgb, hob, hlim⟩ := hw
    obtain ⟨n, rfl⟩ := succ_of hn
    rw [itSelect_eq] at hn ⊢
    simp only [toks_append, toks_some, toks_none, List.length_append, List.length_cons, List.cons_append,
      List.append_assoc] at hn ⊢
    -- what follows each clause
    have fL := n_lim hR li
    have fO := n_ob fL ob
    have fG : Next [.in_, .or_, .altOr, .and_, .altAnd, .symIdent, .ident, .mlString, .string, .number, .bool,
        .null, .not_, .vqlComment, .comment, .mlComment, .where_] (bs "," :: goSs)
        (toks (itClause ⟨.groupBy, bs "GROUP BY"⟩ gb) ++ (toks (obItems ob) ++ (toks (limItems li) ++ R))) :=
      n_clause (Next.mono fO) gb
    have fW : Next [] (bs "," :: goSs) (toks (itClause ⟨.where_, bs "WHERE"⟩ wh) ++
        (toks (itClause ⟨.groupBy, bs "GROUP BY"⟩ gb) ++ (toks (obItems ob) ++ (toks (limItems li) ++ R)))) :=
      n_clause (Next.mono fG) wh
    have hl := p_lim lim hR li hlim
    have ho := p_ob fL ob hob
    have hg := p_clause .groupBy (bs "GROUP BY") gb n _ hgb (by omega) (Next.mono fO) (Next.mono fO)
    have hwh' := p_clause .where_ (bs "WHERE") wh n _ hwh (by omega) (Next.mono fG) (Next.mono fG)
    have hf := p_plugin from_ n _ hfrom (by omega) (Next.mono fW)
    have hex : (many (tok .explain) n) (toks (if ex then [some ⟨.explain, bs "EXPLAIN"⟩, none] else []) ++
        ⟨.select, bs "SELECT"⟩ :: (toks (if all then iop (bs "*") :: (if cols.isEmpty then [] else
          [iop (bs ","), none]) else []) ++ (toks (itCols cols) ++ ⟨.from_, bs "FROM"⟩ ::
        (toks (itPlugin from_) ++ (toks (itClause ⟨.where_, bs "WHERE"⟩ wh) ++
        (toks (itClause ⟨.groupBy, bs "GROUP BY"⟩ gb) ++ (toks (obItems ob) ++ (toks (limItems li) ++ R)))))))) =
        .ok (if ex then [bs "EXPLAIN"] else []) (⟨.select, bs "SELECT"⟩ ::
        (toks (if all then iop (bs "*") :: (if cols.isEmpty then [] else
          [iop (bs ","), none]) else []) ++ (toks (itCols cols) ++ ⟨.from_, bs "FROM"⟩ ::
        (toks (itPlugin from_) ++ (toks (itClause ⟨.where_, bs "WHERE"⟩ wh) ++
        (toks (itClause ⟨.groupBy, bs "GROUP BY"⟩ gb) ++ (toks (obItems ob) ++ (toks (limItems li) ++ R)))))))) := by
      cases ex with
      | false => exact many_stop (by omega) (tok_fl ⟨by decide, by simp⟩)
      | true => exact many_one (by omega) (tok_ok _ _ _) (tok_fl ⟨by decide, by simp⟩)
    have hcm : Next comKs [] (toks (if ex then [some ⟨.explain, bs "EXPLAIN"⟩, none] else []) ++
        ⟨.select, bs "SELECT"⟩ :: (toks (if all then iop (bs "*") :: (if cols.isEmpty then [] else
          [iop (bs ","), none]) else []) ++ (toks (itCols cols) ++ ⟨.from_, bs "FROM"⟩ ::
        (toks (itPlugin from_) ++ (toks (itClause ⟨.where_, bs "WHERE"⟩ wh) ++
        (toks (itClause ⟨.groupBy, bs "GROUP BY"⟩ gb) ++ (toks (obItems ob) ++ (toks (limItems li) ++ R)))))))) := by
      cases ex <;> exact ⟨by decide, by simp⟩
    generalize hT : toks (itPlugin from_) ++ (toks (itClause ⟨.where_, bs "WHERE"⟩ wh) ++
        (toks (itClause ⟨.groupBy, bs "GROUP BY"⟩ gb) ++ (toks (obItems ob) ++ (toks (limItems li) ++ R)))) = T
        at hex hcm hf ⊢
    have hF : FolCol (⟨.from_, bs "FROM"⟩ :: T) := ⟨by decide, by decide⟩
    have hc := p_cols cols n (⟨.from_, bs "FROM"⟩ :: T) hcols (by omega) (by omega) hF
      ⟨by decide, by decide⟩ ⟨by decide, by decide⟩
    have hstar : (opt ((lit (bs "*")).bind fun _ => opt (lit (bs ","))))
        (toks (if all then iop (bs "*") :: (if cols.isEmpty then [] else
          [iop (bs ","), none]) else []) ++ (toks (itCols cols) ++ ⟨.from_, bs "FROM"⟩ :: T)) =
        .ok (if all then some (if cols.isEmpty then none else some (bs ",")) else none)
          (toks (itCols cols) ++ ⟨.from_, bs "FROM"⟩ :: T) := by
      cases all with
      | false =>
        obtain ⟨hne, hs⟩ := hall rfl
        refine opt_fl ((lit_fl ?_).bind _)
        exact n_cols num lim hcols hne hs
      | true =>
        cases cols with
        | nil =>
          refine opt_ok ?_
          rw [show toks (if true = true then iop (bs "*") :: (if ([] : List CCol).isEmpty = true then [] else
            [iop (bs ","), none]) else []) = [⟨.op, bs "*"⟩] from rfl, List.cons_append, List.nil_append,
            bind_ok (lit_ok _ _ _)]
          exact opt_fl (lit_fl ⟨by decide, by decide⟩)
        | cons c cs =>
          refine opt_ok ?_
          rw [show toks (if true = true then iop (bs "*") :: (if (c :: cs).isEmpty = true then [] else
            [iop (bs ","), none]) else []) = [⟨.op, bs "*"⟩, ⟨.op, bs ","⟩] from rfl, List.cons_append,
            List.cons_append, List.nil_append, bind_ok (lit_ok _ _ _)]
          exact opt_ok (lit_ok _ _ _)
    rw [pSelect, bind_ok (many_stop (by omega) (com_fl hcm)), bind_ok hex, bind_ok (need_ok (tok_ok _ _ _)),
      bind_ok hstar, bind_ok hc, if_neg, bind_ok (need_ok (tok_ok _ _ _)), bind_ok (need_ok hf), bind_ok hwh',
      bind_ok hg, bind_ok ho, bind_ok hl]
    · cases li with
      | none => cases ex <;> cases all <;> cases cols <;> rfl
      | some i =>
        simp only [Option.map_some, (hlim i rfl).2]
        cases ex <;> cases all <;> cases cols <;> rfl
    · intro h
      cases all with
      | false =>
        have := (hall rfl).1
        cases cols with
        | nil => exact this rfl
        | cons c cs => simp at h
      | true => simp at h
theorem p_clause (k : TK) (s : Str) : ∀ (c : Option CComma) (n : Nat) (R : List Tok), wOptComma num lim c →
    10 * (toks (itClause ⟨k, s⟩ c)).length ≤ n → FolComma R → Next [k] [] R →
    opt ((tok k).bind fun _ => need (pComma lim n)) (toks (itClause ⟨k, s⟩ c) ++ R) = .ok c R
  | none, n, R, _, _, _, hR => opt_fl ((tok_fl hR).bind _)
  | some c, n, R, hw, hn, hR, _ => by
    simp only [itClause, toks_none, toks_some, List.length_cons, List.cons_append] at hn ⊢
    refine opt_ok ?_
    rw [bind_ok (tok_ok _ _ _), need_ok (p_comma c n R hw (by omega) hR)]
theorem p_cols : ∀ (cs : List CCol) (n : Nat) (R : List Tok), wCols num lim cs →
    10 * (toks (itCols cs)).length + 9 ≤ n → 9 ≤ n → FolCol R → NS R → Next [] [bs "*", bs "{", bs ","] R →
    opt (sepBy (pCol lim n) n) (toks (itCols cs) ++ R) = .ok (if cs.isEmpty then none else some cs) R
  | [], n, R, _, _, hn, _, hR, hR2 => by
    rw [itCols, toks_nil, List.nil_append]
    exact opt_fl ((col_fl hR hR2.mono hn).bind _)
  | c :: cs, n, R, hw, hn, _, hF, _, hR2 => by
    rw [itCols_eq, toks_append, List.length_append] at hn
    rw [itCols_eq, toks_append, List.append_assoc]
    have h1 := p_col c n (toks (colsTail cs) ++ R) hw.1 (by omega) (n_colsTail hF cs)
    have h2 := p_colsTail cs n n R hw.2 (by omega) (by
      have := col_pos num lim c hw.1
      omega) hF hR2.mono
    refine opt_ok ?_
    unfold sepBy
    rw [bind_ok h1, bind_ok h2]
    rfl
theorem p_colsTail : ∀ (as : List CCol) (n m : Nat) (R : List Tok), wCols num lim as →
    10 * (toks (colsTail as)).length ≤ n → (toks (colsTail as)).length + 1 ≤ m → FolCol R →
    Next [] [bs ","] R → many (bSep (pCol lim n)) m (toks (colsTail as) ++ R) = .ok as R
  | [], n, m, R, _, _, hm, _, hR => many_stop (by omega) ((lit_fl hR).bind _)
  | a :: as, n, m, R, hw, hn, hm, hR, hR2 => by
    obtain ⟨m, rfl⟩ := succ_of hm
    simp only [colsTail, iop, toks_some, toks_none, toks_append, List.cons_append, List.append_assoc,
      List.length_cons, List.length_append] at hn hm ⊢
    have h1 := p_col a n (toks (colsTail as) ++ R) hw.1 (by omega) (n_colsTail hR as)
    have h2 := p_colsTail as n m R hw.2 (by omega) (by omega) hR hR2
    refine many_cons (r := toks (colsTail as) ++ R) ?_ h2
    unfold bSep
    rw [bind_ok (lit_ok _ _ _), need_ok h1]
theorem p_col : ∀ (c : CCol) (n : Nat) (R : List Tok), wCol num lim c →
    10 * (toks (itCol c)).length + 9 ≤ n → FolCol R → pCol lim n (toks (itCol c) ++ R) = .ok c R
  | .mk cs b a, n, R, hw, hn, hR => by
    obtain ⟨rfl, hb, ha⟩ := hw
    obtain ⟨n, rfl⟩ := succ_of hn
    rw [itCol, toks_append, List.length_append] at hn
    rw [pCol, itCol, toks_append, List.append_assoc]
    have hA : FolAnd (toks (if a = [] then [] else [none, some ⟨.as_, bs "AS"⟩, none, some ⟨.ident, a⟩]) ++ R) := by
      by_cases h : a = []
      · rw [if_pos h]; exact hR.mono
      · rw [if_neg h]; exact ⟨by decide, by decide⟩
    have h1 := p_colB b a n _ hb (by omega) hA
    have hcm : Next comKs [] (toks (itColB b) ++
        (toks (if a = [] then [] else [none, some ⟨.as_, bs "AS"⟩, none, some ⟨.ident, a⟩]) ++ R)) := by
      cases b with
      | star => exact ⟨by decide, by simp⟩
      | expr e => exact start_next (s_and num lim e hb)
      | select q => rw [itColB, iop, toks_some, List.cons_append]; exact ⟨by decide, by simp⟩
    have h2 : opt ((tok .as_).bind fun _ => need (tok .ident))
        (toks (if a = [] then [] else [none, some ⟨.as_, bs "AS"⟩, none, some ⟨.ident, a⟩]) ++ R) =
        .ok (if a = [] then none else some a) R := by
      by_cases h : a = []
      · rw [if_pos h, if_pos h]
        exact opt_fl ((tok_fl hR.mono).bind _)
      · rw [if_neg h, if_neg h]
        refine opt_ok ?_
        show P.bind _ _ (⟨.as_, bs "AS"⟩ :: ⟨.ident, a⟩ :: R) = _
        rw [bind_ok (tok_ok _ _ _), need_ok (tok_ok _ _ _)]
    have key : ((need (bColB lim n)).bind fun b => (opt ((tok .as_).bind fun _ => need (tok .ident))).bind
        fun a => ret (CCol.mk [] b (a.getD []))) (toks (itColB b) ++
        (toks (if a = [] then [] else [none, some ⟨.as_, bs "AS"⟩, none, some ⟨.ident, a⟩]) ++ R)) =
        .ok (.mk [] b a) R := by
      rw [bind_ok (need_ok h1), bind_ok h2]
      by_cases h : a = []
      · rw [if_pos h, h]; rfl
      · rw [if_neg h]; rfl
    rw [bind_ok (many_stop (by omega) (com_fl hcm))]
    exact key
theorem p_colB : ∀ (b : CColB) (a : Str) (n : Nat) (R : List Tok), wColB num lim b a →
    10 * (toks (itColB b)).length + 8 ≤ n → FolAnd R → bColB lim n (toks (itColB b) ++ R) = .ok b R
  | .star, a, n, R, hw, hn, hR => alt_ok (map_ok (lit_ok _ _ _))
  | .expr e, a, n, R, hw, hn, hR => by
    have hs := s_and num lim e hw
    have h1 := p_and e n R hw hn hR
    exact alt_skip ((lit_fl (start_next hs)).map _) (alt_skip ((lit_fl (start_next hs)).bind _) (map_ok h1))
  | .select q, a, n, R, hw, hn, hR => by
    simp only [itColB, iop, toks_some, toks_none, toks_append, toks_gap (selectGap_cases q), toks_nil,
      List.nil_append, List.cons_append, List.append_assoc, List.length_cons, List.length_append,
      List.length_nil] at hn ⊢
    have h1 := p_select q n (⟨.op, bs "}"⟩ :: R) hw (by omega) next_op
    refine alt_skip ((lit_fl next_op).map _) (alt_ok ?_)
    rw [bind_ok (lit_ok _ _ _), bind_ok (need_ok h1), bind_ok (need_ok (lit_ok _ _ _))]
    rfl
theorem p_plugin : ∀ (p : CPlugin) (n : Nat) (R : List Tok), wPlugin num lim p →
    10 * (toks (itPlugin p)).length + 1 ≤ n → Next [] [bs "(", bs "."] R →
    pPlugin lim n (toks (itPlugin p) ++ R) = .ok p R
  | .mk nm call args, n, R, hw, hn, hR => by
    obtain ⟨hnm, hps, hc⟩ := hw
    have hpos := name_pos name_ok hnm
    obtain ⟨n, rfl⟩ := succ_of hn
    rw [itPlugin, toks_append, List.length_append] at hn
    rw [pPlugin, itPlugin, toks_append, List.append_assoc]
    have hfirst : ∀ k ∈ [TK.ident], ∀ (t : Str) (ts : List Tok),
        tok .ident (⟨k, t⟩ :: ts) = .ok t ts := by
      intro k hk t ts
      simp only [List.mem_cons, List.not_mem_nil, or_false] at hk
      rw [hk]
      exact tok_ok _ _ _
    cases call with
    | false =>
      have : args = [] := hc rfl
      subst this
      simp only [Bool.false_eq_true, if_false, toks_nil, List.length_nil, List.nil_append] at hn ⊢
      rw [bind_ok (p_name name_ok hnm hfirst hR.mono (by omega)),
        bind_ok (opt_fl ((lit_fl hR.mono).bind _))]
      rfl
    | true =>
      simp only [if_true, iop, toks_some, toks_append, toks_nil, List.length_cons, List.length_append,
        List.length_nil, List.cons_append, List.append_assoc, List.nil_append] at hn ⊢
      rw [bind_ok (p_name name_ok hnm hfirst next_op (by omega))]
      have h1 : bCall lim n (⟨.op, bs "("⟩ :: (toks (itArgs args) ++ ⟨.op, bs ")"⟩ :: R)) = .ok args R :=
        p_call args n R hps (by omega)
      rw [bind_ok (opt_ok h1)]
      rfl
end
end

end Vfilter.Fmt
