import Verif.RoundStmt
/-!
# The text of a printed statement
-/

set_option linter.all false

namespace Vfilter.Fmt

/-! ## The last character -/

/-- The text ends with a character that is no blank. -/
def Ends (s : Str) : Prop := ∃ c, s.getLast? = some c ∧ isBlank c = false

theorem Ends.append {b : Str} (h : Ends b) (a : Str) : Ends (a ++ b) := by
  obtain ⟨c, h1, h2⟩ := h
  exact ⟨c, by rw [List.getLast?_append, h1]; rfl, h2⟩

theorem Ends.cons {b : Str} (h : Ends b) (c : UInt8) : Ends (c :: b) := h.append [c]

theorem text_last {v : Vis} {c : UInt8} (h : (lastFrag v).getLast? = some c) : v.text.getLast? = some c := by
  unfold lastFrag at h
  cases hl : v.frags.getLast? with
  | none => rw [hl] at h; simp at h
  | some f =>
    rw [hl] at h
    obtain ⟨ys, hy⟩ := List.getLast?_eq_some_iff.1 hl
    simp only [Option.getD_some] at h
    unfold Vis.text
    rw [hy, List.flatten_append, List.flatten_singleton, List.getLast?_append, h]
    rfl

theorem Out.ends {v w : Vis} {s : Str} (h : Out v w s Solid) (hv : v.text = []) : Ends s := by
  obtain ⟨⟨c, h1, h2⟩, _⟩ := h.last
  refine ⟨c, ?_, h2⟩
  have := text_last h1
  rwa [h.text, hv, List.nil_append] at this

theorem bare_ends : ∀ (rs : List CCommaT), bareEnd rs = true → Ends (render (itCommaTs rs))
  | [], h => by simp [bareEnd] at h
  | [.mk c1 c2 none], _ => ⟨44, rfl, rfl⟩
  | [.mk c1 c2 (some t)], h => by simp [bareEnd] at h
  | .mk c1 c2 none :: r2 :: rs, h => by
    have := bare_ends (r2 :: rs) h
    show Ends (render ([iop (bs ","), none] ++ itCommaTs (r2 :: rs)))
    rw [render_append]
    exact this.append _
  | .mk c1 c2 (some t) :: r2 :: rs, h => by
    have := bare_ends (r2 :: rs) h
    rw [itCommaTs, show iop (bs ",") :: none :: (itAnd t ++ itCommaTs (r2 :: rs)) =
      (iop (bs ",") :: none :: itAnd t) ++ itCommaTs (r2 :: rs) from rfl, render_append]
    exact this.append _

section
variable (num : Str → Str) (lim : Str → Option Int)

/-- A fresh visitor without line breaking. -/
abbrev plain : Vis := Vis.new toStringOpts false

theorem plain_pl : Pl plain := ⟨rfl, rfl⟩

theorem e_and (e : CAnd) (hw : wAnd num lim e) : Ends (render (itAnd e)) :=
  (o_and isBetter num lim e plain hw plain_pl (.inl rfl)).ends rfl

theorem e_comma (c : CComma) (hw : wComma num lim c) : Ends (render (itComma c)) := by
  have h := o_comma isBetter num lim c plain hw plain_pl (.inl rfl)
  rcases commaGap_cases c with hg | hg
  · rw [hg, List.append_nil] at h
    exact Out.ends (v := plain) h rfl
  · obtain ⟨cs, l, rs⟩ := c
    rw [itComma, render_append]
    refine Ends.append (bare_ends rs ?_) _
    simp only [commaGap] at hg
    cases hb : bareEnd rs with
    | true => rfl
    | false => rw [hb] at hg; simp at hg

theorem Solid.ends {f : Str} (h : Solid f) : Ends f := h.1

theorem e_select (q : CSelect) (hw : wSelect num lim q) : Ends (render (itSelect q)) := by
  obtain ⟨cs, ex, all, cols, from_, wh, gb, ob, li⟩ := q
  obtain ⟨rfl, hcols, hall, hfrom, hwh, hgb, hob, hlim⟩ := hw
  rw [itSelect_eq, render_append]
  refine Ends.append ?_ _
  have hp : Ends (render (itPlugin from_)) := (o_plugin isBetter num lim from_ plain hfrom plain_pl).ends rfl
  have step : ∀ (a b : List Item), Ends (render a) → (b = [] ∨ Ends (render b)) → Ends (render (a ++ b)) := by
    intro a b ha hb
    rcases hb with rfl | hb
    · rwa [List.append_nil]
    · rw [render_append]; exact hb.append _
  have hcl : ∀ (t : Tok) (c : Option CComma), wOptComma num lim c →
      (itClause t c = [] ∨ Ends (render (itClause t c))) := by
    intro t c hc
    cases c with
    | none => exact .inl rfl
    | some c =>
      right
      show Ends (render ([none, some t, none] ++ itComma c))
      rw [render_append]
      exact (e_comma num lim c hc).append _
  have hob' : obItems ob = [] ∨ Ends (render (obItems ob)) := by
    rcases ob with _ | ⟨k, _ | _⟩
    · exact .inl rfl
    · right
      show Ends (render ([none, some ⟨.orderBy, bs "ORDER BY"⟩, none] ++ [some ⟨.ident, k⟩]))
      rw [render_append]
      refine Ends.append ?_ _
      simp only [render, List.append_nil]
      exact (solid_ident (hob k rfl)).ends
    · right
      show Ends (render ([none, some ⟨.orderBy, bs "ORDER BY"⟩, none, some ⟨.ident, k⟩] ++
        [none, some ⟨.desc, bs "DESC"⟩]))
      rw [render_append]
      exact Ends.append ⟨67, rfl, rfl⟩ _
  have hli' : limItems li = [] ∨ Ends (render (limItems li)) := by
    cases li with
    | none => exact .inl rfl
    | some n =>
      right
      show Ends (render ([none, some ⟨.limit, bs "LIMIT"⟩, none] ++ [some ⟨.number, intText n⟩]))
      rw [render_append]
      refine Ends.append ?_ _
      simp only [render, List.append_nil]
      exact (solid_num (hlim n rfl).1).ends
  have h5 := step _ _ (step _ _ (step _ _ (step _ _ hp (hcl ⟨.where_, bs "WHERE"⟩ wh hwh))
    (hcl ⟨.groupBy, bs "GROUP BY"⟩ gb hgb)) hob') hli'
  simp only [render, render_append, List.append_assoc] at h5 ⊢
  exact ((((((h5.cons 32).append _).cons 32).append _).append _).cons 32).append _
end

theorem trim_blank {s : Str} (h : Okay s) (he : Ends s) : trim (s ++ [32]) = s := by
  obtain ⟨c, r, rfl, hc⟩ := h
  obtain ⟨d, hd, hb⟩ := he
  have hc' : isBlank c = false := by
    simp only [okHead, Bool.and_eq_true, Bool.not_eq_true'] at hc
    exact hc.1.1
  unfold trim
  rw [List.cons_append, List.dropWhile_cons_of_neg (by simp [hc']), ← List.cons_append, List.reverse_append,
    List.reverse_singleton, List.singleton_append, List.dropWhile_cons_of_pos (by decide)]
  obtain ⟨ys, hy⟩ := List.getLast?_eq_some_iff.1 hd
  rw [hy, List.reverse_append, List.reverse_singleton, List.singleton_append,
    List.dropWhile_cons_of_neg (by simp [hb]), List.reverse_cons, List.reverse_reverse]

theorem trim_self {s : Str} (h : Okay s) (he : Ends s) : trim s = s := by
  obtain ⟨c, r, rfl, hc⟩ := h
  obtain ⟨d, hd, hb⟩ := he
  have hc' : isBlank c = false := by
    simp only [okHead, Bool.and_eq_true, Bool.not_eq_true'] at hc
    exact hc.1.1
  unfold trim
  rw [List.dropWhile_cons_of_neg (by simp [hc'])]
  obtain ⟨ys, hy⟩ := List.getLast?_eq_some_iff.1 hd
  rw [hy, List.reverse_append, List.reverse_singleton, List.singleton_append,
    List.dropWhile_cons_of_neg (by simp [hb]), List.reverse_cons, List.reverse_reverse]

/-! ## Statements -/

section
variable (num : Str → Str) (lim : Str → Option Int)

/-- A parameter that is printed as it was written: a plain name without a default, or the one
default of its name. -/
def wParam (all : List CLetParam) : CLetParam → Prop
  | .name n => IsTok .ident n ∧ paramName (.name n) = n ∧ paramDefault all n = none
  | .dflt a => wArg num lim a ∧ paramDefault all (argName a) = some a

/-- The body of a LET. -/
def wBody : CLetBody → Prop
  | .expr e => wAnd num lim e
  | .select q => wSelect num lim q

/-- The statements that can be printed and read back. -/
def wStmt : CStmt → Prop
  | .let_ cs n called ps op b => cs = [] ∧ IsTok .ident n ∧ called = !ps.isEmpty ∧
      (∀ p ∈ ps, wParam num lim ps p) ∧ (op = bs "=" ∨ op = bs "<=") ∧
      wBody num lim b
  | .query cs q => cs = [] ∧ wSelect num lim q
end

def itParam : CLetParam → List Item
  | .name n => [some ⟨.ident, n⟩]
  | .dflt a => itArg a

def paramsTail : List CLetParam → List Item
  | [] => []
  | p :: ps => iop (bs ",") :: none :: (itParam p ++ paramsTail ps)

def itParams : List CLetParam → List Item
  | [] => []
  | p :: ps => itParam p ++ paramsTail ps

def itBody : CLetBody → List Item
  | .expr e => itAnd e
  | .select q => itSelect q

def itStmt : CStmt → List Item
  | .let_ _ n _ ps op b => some ⟨.let_, bs "LET"⟩ :: none :: some ⟨.ident, n⟩ ::
      ((if ps.isEmpty then [] else iop (bs "(") :: (itParams ps ++ [iop (bs ")")])) ++
        none :: iop op :: none :: itBody b)
  | .query _ q => itSelect q

section
variable (num : Str → Str) (lim : Str → Option Int)

theorem o_params (all : List CLetParam) : ∀ (ps : List CLetParam) (v : Vis), (∀ p ∈ ps, wParam num lim all p) →
    Pl v → Tight v → ps ≠ [] → Out v (fParams isBetter num all ps v) (render (itParams ps)) Solid
  | [], v, _, _, _, h => absurd rfl h
  | p :: ps, v, hw, hv, ht, _ => by
    have hp := hw p (by simp)
    have h1 : Out v (match paramDefault all (paramName p) with
        | some a => fArg isBetter num a v
        | none => push (paramName p) v) (render (itParam p)) Solid := by
      cases p with
      | name n =>
        obtain ⟨hi, hn, hd⟩ := hp
        rw [hn, hd]
        exact ((out_push n hv.brk).imp (Q := Solid) (fun f hf => hf ▸ solid_ident hi)).eq (by simp [itParam, render])
      | dflt a =>
        obtain ⟨ha, hd⟩ := hp
        rw [show paramName (.dflt a) = argName a from rfl, hd]
        exact o_arg isBetter num lim a v ha hv ht
    rw [fParams]
    cases ps with
    | nil =>
      exact h1.eq (by simp [itParams, paramsTail])
    | cons p2 ps =>
      simp only [List.isEmpty_cons, Bool.false_eq_true, if_false]
      have h2 := h1.comma
      have h3 := h2.trans (o_params all (p2 :: ps) _ (fun p hp => hw p (by simp [hp])) (h2.pl hv)
        (tight_eq h2.last) (by simp))
      exact h3.eq (by simp [itParams, paramsTail, render, render_append, iop, show bs "," = [44] from rfl])

theorem out_indentIn {v w : Vis} {s : Str} {P : Str → Prop} (h : Out v w s P) : Out v (indentIn w) s P :=
  ⟨h.brk, h.opts, h.text, h.last⟩

/-- The body, printed. -/
def fBody : CLetBody → Vis → Vis
  | .expr e, v => fAnd isBetter num e v
  | .select q, v => fSelect isBetter num q v

theorem o_body (b : CLetBody) (v : Vis) (hw : wBody num lim b) (hv : Pl v) (ht : Tight v) :
    Out v (lineBreak (popIndent (fBody num b v))) (render (itBody b) ++ [32]) (fun _ => True) := by
  cases b with
  | expr e =>
    have h := o_and isBetter num lim e v hw hv ht
    exact (endy_lineBreak (g := []) (.inl rfl) (Out.eq (P := Endy []) h.popIndent (List.append_nil _).symm)).imp
      (fun _ _ => trivial)
  | select q =>
    have h := o_select isBetter num lim q v hw hv
    exact (endy_lineBreak (selectGap_cases q) (h.popIndent.eq (by rw [render_append]; rfl))).imp (fun _ _ => trivial)

/-- What is printed. -/
theorem o_stmt (t : CStmt) (hw : wStmt num lim t) :
    (fStmt isBetter num t plain).text = render (itStmt t) ++ [32] := by
  cases t with
  | query cs q =>
    obtain ⟨rfl, hq⟩ := hw
    have h := o_select isBetter num lim q plain hq plain_pl
    exact (endy_lineBreak (selectGap_cases q) (h.eq (by rw [render_append]; rfl))).text
  | let_ cs n called ps op b =>
    obtain ⟨rfl, hn, hcl, hps, hop, hb⟩ := hw
    have h1 := out_pushes (v := plain) plain_pl.brk [bs "LET "] n
    have h2 : Out plain (if ps.isEmpty then pushes [bs "LET ", n] plain
        else push (bs ")") (fParams isBetter num ps ps (push (bs "(") (pushes [bs "LET ", n] plain))))
        (render (some ⟨.let_, bs "LET"⟩ :: none :: some ⟨.ident, n⟩ ::
          (if ps.isEmpty then [] else iop (bs "(") :: (itParams ps ++ [iop (bs ")")])))) (fun _ => True) := by
      cases hps' : ps with
      | nil =>
        simp only [List.isEmpty_nil, if_true]
        exact (h1.imp (Q := fun _ => True) (fun _ _ => trivial)).eq (by
          simp [render, show bs "LET " = bs "LET" ++ [32] from rfl])
      | cons p ps' =>
        subst hps'
        simp only [List.isEmpty_cons, Bool.false_eq_true, if_false]
        have h3 := h1.trans (out_push (bs "(") h1.brk)
        have h4 := h3.trans (o_params num lim (p :: ps') (p :: ps') _ hps (h3.pl plain_pl) (tight_eq h3.last)
          (by simp))
        have h5 := h4.trans (out_push (bs ")") h4.brk)
        exact (h5.imp (Q := fun _ => True) (fun _ _ => trivial)).eq (by
          simp [render, render_append, iop, show bs "LET " = bs "LET" ++ [32] from rfl])
    have h3 := h2.binop op
    have h3 := out_indentIn h3
    have h4 := h3.trans (o_body num lim b _ hb (h3.pl plain_pl) (tight_sp h3.last))
    have := h4.text
    refine Eq.trans ?_ (this.trans ?_)
    · cases b <;> (rw [fStmt]; rfl)
    · simp [itStmt, render, render_append, iop, Vis.text, Vis.new]

theorem okay_select (q : CSelect) : Okay (render (itSelect q)) := by
  obtain ⟨cs, ex, all, cols, from_, wh, gb, ob, li⟩ := q
  rw [itSelect_eq]
  cases ex
  · exact ⟨83, _, rfl, by decide⟩
  · exact ⟨69, _, rfl, by decide⟩

theorem okay_stmt (t : CStmt) : Okay (render (itStmt t)) := by
  cases t with
  | query cs q => exact okay_select q
  | let_ cs n called ps op b => exact ⟨76, _, rfl, by decide⟩

theorem ends_stmt (t : CStmt) (hw : wStmt num lim t) : Ends (render (itStmt t)) := by
  cases t with
  | query cs q => exact e_select num lim q hw.2
  | let_ cs n called ps op b =>
    obtain ⟨rfl, hn, hcl, hps, hop, hb⟩ := hw
    have h : Ends (render (itBody b)) := by
      cases b with
      | expr e => exact e_and num lim e hb
      | select q => exact e_select num lim q hb
    rw [itStmt]
    simp only [render, render_append, iop]
    exact (((((((h.cons 32).append _).cons 32).append _).append _).cons 32).append _)

/-- **The printed statement is the text of its items.** -/
theorem format_render (t : CStmt) (hw : wStmt num lim t) : formatStmt num t = render (itStmt t) := by
  unfold formatStmt
  rw [o_stmt num lim t hw]
  exact trim_blank (okay_stmt t) (ends_stmt num lim t hw)
end

end Vfilter.Fmt
