import Verif.RoundEnd
/-!
# Printed statements are read back
-/

set_option linter.all false

namespace Vfilter.Fmt

section
variable (num : Str → Str) (lim : Str → Option Int)

/-! ## Tokens -/

theorem l_param (all : List CLetParam) (p : CLetParam) {r : Str} (hw : wParam num lim all p)
    (hr : folE r = true) : Lx (itParam p) r := by
  cases p with
  | name n => exact lx_tok (t := ⟨.ident, n⟩) (ident_fol hw.1 (by simpa [render] using hr)) (tok_ne hw.1) (lx_nil r)
  | dflt a => exact l_arg num lim a hw.1 hr

theorem fol_paramsTail {r : Str} (hr : folE r = true) (ps : List CLetParam) :
    folE (render (paramsTail ps) ++ r) = true := by
  cases ps with
  | nil => exact hr
  | cons p ps => rfl

theorem l_paramsTail (all : List CLetParam) : ∀ (ps : List CLetParam) {r : Str}, (∀ p ∈ ps, wParam num lim all p) →
    folE r = true → Lx (paramsTail ps) r
  | [], r, _, _ => lx_nil r
  | p :: ps, r, hw, hr => by
    rw [paramsTail]
    exact lx_punct 44 (lx_sp (lx_append (l_param num lim all p (hw p (by simp)) (fol_paramsTail hr ps))
      (l_paramsTail all ps (fun p hp => hw p (by simp [hp])) hr)))

theorem l_params (all : List CLetParam) (ps : List CLetParam) {r : Str} (hw : ∀ p ∈ ps, wParam num lim all p)
    (hr : folE r = true) : Lx (itParams ps) r := by
  cases ps with
  | nil => exact lx_nil r
  | cons p ps =>
    exact lx_append (l_param num lim all p (hw p (by simp)) (fol_paramsTail hr ps))
      (l_paramsTail num lim all ps (fun p hp => hw p (by simp [hp])) hr)

theorem l_stmt (t : CStmt) (hw : wStmt num lim t) : Lx (itStmt t) [] := by
  cases t with
  | query cs q => exact l_select num lim q hw.2 rfl
  | let_ cs n called ps op b =>
    obtain ⟨rfl, hn, hcl, hps, hop, hb⟩ := hw
    have hB : Lx (itBody b) [] := by
      cases b with
      | expr e => exact l_and num lim e hb rfl
      | select q => exact l_select num lim q hb rfl
    have hO : Lx (none :: iop op :: none :: itBody b) [] := by
      refine lx_sp ?_
      rcases hop with rfl | rfl
      · exact lx_tok (t := ⟨.op, bs "="⟩) rfl (by decide) (lx_sp hB)
      · exact lx_tok (t := ⟨.op, bs "<="⟩) rfl (by decide) (lx_sp hB)
    have hP : Lx ((if ps.isEmpty then [] else iop (bs "(") :: (itParams ps ++ [iop (bs ")")])) ++
        none :: iop op :: none :: itBody b) [] := by
      cases hps' : ps with
      | nil => exact hO
      | cons p ps' =>
        subst hps'
        simp only [List.isEmpty_cons, Bool.false_eq_true, if_false, List.cons_append, List.append_assoc,
          List.nil_append]
        exact lx_punct 40 (lx_append (l_params num lim (p :: ps') (p :: ps') hps (by rfl)) (lx_punct 41 hO))
    rw [itStmt]
    refine lx_tok (t := ⟨.let_, bs "LET"⟩) rfl (by decide) (lx_sp (lx_tok (t := ⟨.ident, n⟩)
      (ident_fol hn ?_) (tok_ne hn) hP))
    cases ps <;> rcases hop with rfl | rfl <;> rfl

/-! ## Grammar -/

theorem p_param (all : List CLetParam) (p : CLetParam) (n : Nat) (R : List Tok) (hw : wParam num lim all p)
    (hn : 10 * (toks (itParam p)).length ≤ n + 10) (hn1 : 1 ≤ n) (hR : FolAnd R) :
    pLetParam lim n (toks (itParam p) ++ R) = .ok p R := by
  cases p with
  | dflt a => exact alt_ok (map_ok (p_arg num lim a n R hw.1 hn hR))
  | name nm =>
    obtain ⟨n, rfl⟩ := succ_of hn1
    show pLetParam lim (n + 1) (⟨.ident, nm⟩ :: R) = _
    have h1 : pArg lim (n + 1) (⟨.ident, nm⟩ :: R) = .err R := by
      rw [pArg, bind_ok (optC_nil (by exact ⟨by simp [comKs], by simp⟩)), bind_ok (need_ok (tok_ok _ _ _))]
      simp only [P.bind, (lit_fl (s := bs "=") hR.mono).need]
    unfold pLetParam alt
    simp only [P.map, P.bind, h1, tooFar, List.length_cons, decide_eq_true_eq, gt_iff_lt, Nat.lt_irrefl,
      if_false, tok_ok, ret]

theorem n_paramsTail {R : List Tok} (hR : FolAnd R) (ps : List CLetParam) : FolAnd (toks (paramsTail ps) ++ R) := by
  cases ps with
  | nil => exact hR
  | cons a as => rw [paramsTail, iop, toks_some, List.cons_append]; exact next_op

theorem p_paramsTail (all : List CLetParam) : ∀ (ps : List CLetParam) (n m : Nat) (R : List Tok),
    (∀ p ∈ ps, wParam num lim all p) → 10 * (toks (paramsTail ps)).length ≤ n →
    (toks (paramsTail ps)).length + 1 ≤ m → FolAnd R → Next [] [bs ","] R →
    many (bSep (pLetParam lim n)) m (toks (paramsTail ps) ++ R) = .ok ps R
  | [], n, m, R, _, _, hm, _, hR => many_stop (by omega) ((lit_fl hR).bind _)
  | a :: as, n, m, R, hw, hn, hm, hR, hR2 => by
    obtain ⟨m, rfl⟩ := succ_of hm
    simp only [paramsTail, iop, toks_some, toks_none, toks_append, List.cons_append, List.append_assoc,
      List.length_cons, List.length_append] at hn hm ⊢
    have h1 := p_param num lim all a n (toks (paramsTail as) ++ R) (hw a (by simp)) (by omega) (by omega)
      (n_paramsTail hR as)
    have h2 := p_paramsTail all as n m R (fun p hp => hw p (by simp [hp])) (by omega) (by omega) hR hR2
    refine many_cons (r := toks (paramsTail as) ++ R) ?_ h2
    unfold bSep
    rw [bind_ok (lit_ok _ _ _), need_ok h1]

theorem p_body (b : CLetBody) (n : Nat) (hw : wBody num lim b) (hn : 10 * (toks (itBody b)).length + 8 ≤ n) :
    alt ((pSelect lim n).map CLetBody.select) ((pAnd lim n).map CLetBody.expr) (toks (itBody b)) =
      .ok b [] := by
  cases b with
  | select q =>
    have h := p_select num lim q n [] hw (by simp only [itBody] at hn; omega) trivial
    rw [List.append_nil] at h
    exact alt_ok (map_ok h)
  | expr e =>
    have h := p_and num lim e n [] hw hn trivial
    have hs := start_next (R := []) (s_and num lim e hw) (ks := [.select, .explain, .vqlComment, .comment, .mlComment])
      (ss := [])
    rw [List.append_nil] at h hs
    exact alt_skip ((select_fl hs (by omega)).map _) (map_ok h)

theorem p_stmt (t : CStmt) (n : Nat) (hw : wStmt num lim t) (hn : 10 * (toks (itStmt t)).length + 8 ≤ n) :
    pStmt lim n (toks (itStmt t)) = .ok t [] := by
  cases t with
  | query cs q =>
    obtain ⟨rfl, hq⟩ := hw
    have h := p_select num lim q n [] hq (by simp only [itStmt] at hn; omega) trivial
    rw [List.append_nil] at h
    refine alt_skip ((tok_fl ?_).bind _) (map_ok h)
    obtain ⟨cs, ex, all, cols, from_, wh, gb, ob, li⟩ := q
    rw [itStmt, itSelect_eq]
    cases ex <;> exact ⟨by decide, by simp⟩
  | let_ cs nm called ps op b =>
    obtain ⟨rfl, hnm, hcl, hps, hop, hb⟩ := hw
    simp only [itStmt, iop, toks_some, toks_none, toks_append, List.length_cons, List.length_append] at hn ⊢
    have hB := p_body num lim b n hb (by omega)
    have hop' : alt (lit (bs "=")) (lit (bs "<=")) (⟨.op, op⟩ :: toks (itBody b)) = .ok op (toks (itBody b)) := by
      rcases hop with rfl | rfl
      · exact alt_ok (lit_ok _ _ _)
      · exact alt_skip (lit_fl next_op) (lit_ok _ _ _)
    have hP : (opt ((lit (bs "(")).bind fun _ => (opt (sepBy (pLetParam lim n) n)).bind fun ps =>
        (need (lit (bs ")"))).bind fun _ => ret (ps.getD [])))
        (toks (if ps.isEmpty then [] else some ⟨.op, bs "("⟩ :: (itParams ps ++ [some ⟨.op, bs ")"⟩])) ++
          ⟨.op, op⟩ :: toks (itBody b)) = .ok (if ps.isEmpty then none else some ps) (⟨.op, op⟩ :: toks (itBody b)) := by
      cases hps' : ps with
      | nil =>
        refine opt_fl ((lit_fl ?_).bind _)
        rcases hop with rfl | rfl <;> exact next_op
      | cons p ps' =>
        subst hps'
        simp only [List.isEmpty_cons, Bool.false_eq_true, if_false, toks_some, toks_append, toks_nil,
          List.cons_append, List.append_assoc, List.nil_append, itParams, List.length_cons,
          List.length_append, List.length_nil] at hn ⊢
        have h1 := p_param num lim (p :: ps') p n (toks (paramsTail ps') ++ ⟨.op, bs ")"⟩ :: ⟨.op, op⟩ :: toks (itBody b))
          (hps p (by simp)) (by omega) (by omega) (n_paramsTail next_op ps')
        have h2 := p_paramsTail num lim (p :: ps') ps' n n (⟨.op, bs ")"⟩ :: ⟨.op, op⟩ :: toks (itBody b))
          (fun p hp => hps p (by simp [hp])) (by omega) (by omega) next_op next_op
        have h3 : sepBy (pLetParam lim n) n (toks (itParam p) ++ (toks (paramsTail ps') ++ ⟨.op, bs ")"⟩ ::
            ⟨.op, op⟩ :: toks (itBody b))) = .ok (p :: ps') (⟨.op, bs ")"⟩ :: ⟨.op, op⟩ :: toks (itBody b)) := by
          unfold sepBy
          rw [bind_ok h1, bind_ok h2]
          rfl
        refine opt_ok ?_
        rw [bind_ok (lit_ok _ _ _), bind_ok (opt_ok h3), bind_ok (need_ok (lit_ok _ _ _))]
        rfl
    refine alt_ok ?_
    rw [bind_ok (tok_ok _ _ _), bind_ok (need_ok (tok_ok _ _ _)), bind_ok hP, bind_ok (need_ok hop'),
      bind_ok (need_ok hB)]
    subst hcl
    cases ps <;> rfl

/-! ## No comments -/

theorem c_paramsTail (all : List CLetParam) : ∀ (ps : List CLetParam), (∀ p ∈ ps, wParam num lim all p) →
    NC (toks (paramsTail ps))
  | [], _ => NC.nil
  | p :: ps, hw => by
    simp only [paramsTail, iop, toks_some, toks_none, toks_append]
    refine NC.op (NC.append ?_ (c_paramsTail all ps (fun p hp => hw p (by simp [hp]))))
    have := hw p (by simp)
    cases p with
    | name n => exact NC.cons (by simp [comKs]) NC.nil
    | dflt a => exact c_arg num lim a this.1

theorem c_stmt (t : CStmt) (hw : wStmt num lim t) : NC (toks (itStmt t)) := by
  cases t with
  | query cs q => exact c_select num lim q hw.2
  | let_ cs nm called ps op b =>
    obtain ⟨rfl, hnm, hcl, hps, hop, hb⟩ := hw
    simp only [itStmt, iop, toks_some, toks_none, toks_append]
    refine NC.cons (by simp [comKs]) (NC.cons (by simp [comKs]) (NC.append ?_ (NC.op ?_)))
    · cases ps with
      | nil => exact NC.nil
      | cons p ps =>
        have hp := hps p (by simp)
        have h2 := c_paramsTail num lim (p :: ps) ps (fun q hq => hps q (by simp [hq]))
        simp only [List.isEmpty_cons, Bool.false_eq_true, if_false, toks_some, toks_append, itParams, toks_nil]
        refine NC.op (NC.append (NC.append ?_ h2) (NC.op NC.nil))
        cases p with
        | name n => exact NC.cons (by simp [comKs]) NC.nil
        | dflt a => exact c_arg num lim a hp.1
    · cases b with
      | expr e => exact c_and num lim e hb
      | select q => exact c_select num lim q hb

theorem lex_stmt (t : CStmt) (hw : wStmt num lim t) : lex (render (itStmt t)) = some (toks (itStmt t)) := by
  have h := l_stmt num lim t hw
  unfold Lx at h
  rw [List.append_nil, lex_nil] at h
  simpa using h

/-- **Printing a statement and reading it back gives the statement.** -/
theorem parse_format (t : CStmt) (hw : wStmt num lim t) : parse lim (formatStmt num t) = some t := by
  rw [format_render num lim t hw]
  unfold parse
  rw [lex_stmt num lim t hw]
  simp only [Option.bind_some, dropComments_nc (c_stmt num lim t hw)]
  unfold complete
  rw [p_stmt num lim t _ hw (by unfold fuelFor; omega)]
end

end Vfilter.Fmt
