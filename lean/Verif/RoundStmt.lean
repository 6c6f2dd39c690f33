import Verif.RoundGram
/-!
# Statements: printed, split into tokens and read again
-/

set_option linter.all false

namespace Vfilter.Fmt

/-! ## No comments among the tokens -/

/-- No comment tokens. -/
def NC (ts : List Tok) : Prop := ∀ t ∈ ts, t.kind ∉ comKs

theorem NC.nil : NC [] := by intro t h; cases h
theorem NC.append {a b : List Tok} (ha : NC a) (hb : NC b) : NC (a ++ b) := by
  intro t h
  rcases List.mem_append.1 h with h | h
  · exact ha t h
  · exact hb t h
theorem NC.cons {t : Tok} {a : List Tok} (ht : t.kind ∉ comKs) (ha : NC a) : NC (t :: a) := by
  intro u h
  rcases List.mem_cons.1 h with h | h
  · exact h ▸ ht
  · exact ha u h
theorem NC.op {s : Str} {a : List Tok} (ha : NC a) : NC (⟨.op, s⟩ :: a) := NC.cons (by simp [comKs]) ha

theorem dropComments_nc {ts : List Tok} (h : NC ts) : dropComments ts = ts := by
  unfold dropComments
  rw [List.filter_eq_self]
  intro t ht
  have := h t ht
  simp only [comKs, List.mem_cons, List.not_mem_nil, or_false, not_or] at this
  simp [this.1, this.2.1, this.2.2]

theorem nc_name {ks : List TK} (hks : ∀ k ∈ ks, k ∈ [TK.symIdent, .ident]) {nm : Str} (h : DotName ks nm) :
    NC (toks (nameItems nm)) := by
  obtain ⟨k, a, as, hk, ha, has, he, hi⟩ := name_items hks h
  rw [hi, toks_some]
  refine NC.cons ?_ ?_
  · have := hks k hk
    simp only [List.mem_cons, List.not_mem_nil, or_false] at this
    rcases this with h | h <;> rw [h] <;> simp [comKs]
  · clear hi he has ha
    induction as with
    | nil => exact NC.nil
    | cons b as ih =>
      show NC (⟨.op, bs "."⟩ :: ⟨.ident, b⟩ :: toks (restItems as))
      exact NC.op (NC.cons (by simp [comKs]) ih)

theorem nc_and {op : Str} : (andTok op).kind ∉ comKs := by
  unfold andTok; split <;> simp [comKs]
theorem nc_or {op : Str} : (orTok op).kind ∉ comKs := by
  unfold orTok; split <;> simp [comKs]
theorem nc_cmp {op : Str} : (cmpTok op).kind ∉ comKs := by
  unfold cmpTok; split <;> simp [comKs]
theorem nc_str {t : Str} : (strTok t).kind ∉ comKs := by
  unfold strTok; split <;> simp [comKs]

section
variable (num : Str → Str) (lim : Str → Option Int)

mutual
theorem c_and : ∀ (e : CAnd), wAnd num lim e → NC (toks (itAnd e))
  | .mk cs l rs, hw => by
    rw [itAnd, toks_append]; exact (c_or l hw.2.1).append (c_andTs rs hw.2.2)
theorem c_andTs : ∀ (rs : List CAndT), wAndTs num lim rs → NC (toks (itAndTs rs))
  | [], _ => NC.nil
  | .mk op t :: rs, hw => by
    rw [itAndTs, toks_none, toks_none, toks_some, toks_none, toks_append]
    exact NC.cons nc_and ((c_or t hw.2.1).append (c_andTs rs hw.2.2))
theorem c_or : ∀ (e : COr), wOr num lim e → NC (toks (itOr e))
  | .mk cs l rs, hw => by
    rw [itOr, toks_append]; exact (c_cond l hw.2.1).append (c_orTs rs hw.2.2)
theorem c_orTs : ∀ (rs : List COrT), wOrTs num lim rs → NC (toks (itOrTs rs))
  | [], _ => NC.nil
  | .mk op t :: rs, hw => by
    rw [itOrTs, toks_none, toks_some, toks_none, toks_append]
    exact NC.cons nc_or ((c_cond t hw.2.1).append (c_orTs rs hw.2.2))
theorem c_cond : ∀ (e : CCond), wCond num lim e → NC (toks (itCond e))
  | .not cs c, hw => by
    rw [itCond, toks_some, toks_none]; exact NC.cons (by decide) (c_cond c hw.2)
  | .cmp cs l r, hw => by
    rw [itCond, toks_append]; exact (c_add l hw.2.1).append (c_cmp r hw.2.2)
theorem c_cmp : ∀ (r : Option CCmpT), wCmp num lim r → NC (toks (itCmp r))
  | none, _ => NC.nil
  | some (.mk op t), hw => by
    rw [itCmp, toks_none, toks_some, toks_none]
    exact NC.cons nc_cmp (c_add t hw.2)
theorem c_add : ∀ (e : CAdd), wAdd num lim e → NC (toks (itAdd e))
  | .mk cs l rs, hw => by
    rw [itAdd, toks_append]; exact (c_mul l hw.2.1).append (c_addTs rs hw.2.2)
theorem c_addTs : ∀ (rs : List CAddT), wAddTs num lim rs → NC (toks (itAddTs rs))
  | [], _ => NC.nil
  | .mk op t :: rs, hw => by
    rw [itAddTs, iop, toks_none, toks_some, toks_none, toks_append]
    exact NC.op ((c_mul t hw.2.1).append (c_addTs rs hw.2.2))
theorem c_mul : ∀ (e : CMul), wMul num lim e → NC (toks (itMul e))
  | .mk cs l rs, hw => by
    rw [itMul, toks_append]; exact (c_member l hw.2.1).append (c_mulTs rs hw.2.2)
theorem c_mulTs : ∀ (rs : List CMulT), wMulTs num lim rs → NC (toks (itMulTs rs))
  | [], _ => NC.nil
  | .mk op t :: rs, hw => by
    rw [itMulTs, iop, toks_none, toks_some, toks_none, toks_append]
    exact NC.op ((c_val t hw.2.1).append (c_mulTs rs hw.2.2))
theorem c_member : ∀ (e : CMember), wMember num lim e → NC (toks (itMember e))
  | .mk cs l rs, hw => by
    rw [itMember, toks_append]; exact (c_val l hw.2.1).append (c_mTerms rs hw.2.2.1)
theorem c_mTerms : ∀ (rs : List CMTerm), wMTerms num lim rs → NC (toks (itMTerms rs))
  | [], _ => NC.nil
  | .range i j :: rs, hw => by
    have hg : toks (colonGap j) = [] := by
      cases j with
      | none => rfl
      | some x => obtain ⟨cs, b⟩ := x; cases b <;> rfl
    simp only [itMTerms, iop, toks_some, toks_append, hg, List.nil_append]
    exact NC.op ((c_optVal i hw.1).append (NC.op ((c_optVal j hw.2.1).append (NC.op (c_mTerms rs hw.2.2)))))
  | .index i :: rs, hw => by
    simp only [itMTerms, iop, toks_some, toks_append]
    exact NC.op ((c_val i hw.1).append (NC.op (c_mTerms rs hw.2)))
  | .field nm :: rs, hw => by
    simp only [itMTerms, iop, toks_some]
    exact NC.op (NC.cons (by simp [comKs]) (c_mTerms rs hw.2))
  | .empty :: rs, hw => hw.elim
theorem c_optVal : ∀ (x : Option CVal), wOptVal num lim x → NC (toks (itOptVal x))
  | none, _ => NC.nil
  | some x, hw => c_val x hw
theorem c_comma : ∀ (e : CComma), wComma num lim e → NC (toks (itComma e))
  | .mk cs l rs, hw => by
    rw [itComma, toks_append]; exact (c_and l hw.2.1).append (c_commaTs rs hw.2.2)
theorem c_commaTs : ∀ (rs : List CCommaT), wCommaTs num lim rs → NC (toks (itCommaTs rs))
  | [], _ => NC.nil
  | .mk c1 c2 none :: rs, hw => by
    have e : toks (itCommaTs (.mk c1 c2 none :: rs)) = ⟨.op, bs ","⟩ :: toks (itCommaTs rs) := by
      cases rs <;> rfl
    rw [e]
    exact NC.op (c_commaTs rs hw.2.2)
  | .mk c1 c2 (some t) :: rs, hw => by
    rw [itCommaTs, iop, toks_some, toks_none, toks_append]
    exact NC.op ((c_and t hw.2.2.1).append (c_commaTs rs hw.2.2.2))
theorem c_val : ∀ (e : CVal), wVal num lim e → NC (toks (itVal e))
  | .mk cs b, hw => c_valB b hw.2
theorem c_valB : ∀ (b : CValB), wValB num lim b → NC (toks (itValB b))
  | .sym s, hw => c_sym s hw
  | .sub c, hw => by
    simp only [itValB, iop, toks_some, toks_append, toks_gap (commaGap_cases c), toks_nil, List.nil_append]
    exact NC.op ((c_comma c hw).append (NC.op NC.nil))
  | .str t, hw => NC.cons nc_str NC.nil
  | .num t, hw => NC.cons (by simp [comKs]) NC.nil
  | .bool t, hw => NC.cons (by simp [comKs]) NC.nil
  | .null, hw => NC.cons (by simp [comKs]) NC.nil
theorem c_sym : ∀ (s : CSym), wSym num lim s → NC (toks (itSym s))
  | .mk cs nm called ps, hw => by
    obtain ⟨rfl, hnm, hps, hc⟩ := hw
    rw [itSym, toks_append]
    refine (nc_name names_ok hnm).append ?_
    cases called with
    | false => exact NC.nil
    | true =>
      simp only [if_true, iop, toks_some, toks_append, toks_nil]
      exact NC.op ((c_args ps hps).append (NC.op NC.nil))
theorem c_args : ∀ (ps : List CArg), wArgs num lim ps → NC (toks (itArgs ps))
  | [], _ => NC.nil
  | [a], hw => by
    rw [itArgs_eq, toks_append]
    exact (c_arg a hw.1).append NC.nil
  | a :: b :: as, hw => by
    have h := c_args (b :: as) hw.2
    show NC (toks (itArg a ++ [iop (bs ","), none] ++ itArgs (b :: as)))
    rw [toks_append, toks_append]
    exact ((c_arg a hw.1).append (NC.op NC.nil)).append h
theorem c_arg : ∀ (a : CArg), wArg num lim a → NC (toks (itArg a))
  | .mk cs nm v, hw => by
    simp only [itArg, iop, toks_some]
    exact NC.cons (by simp [comKs]) (NC.op (c_argV v hw.2.2))
theorem c_argV : ∀ (v : CArgV), wArgV num lim v → NC (toks (itArgV v))
  | .expr e, hw => c_and e hw
  | .select q, hw => by
    simp only [itArgV, iop, toks_some, toks_none, toks_append, toks_gap (selectGap_cases q), toks_nil,
      List.nil_append]
    exact NC.op ((c_select q hw).append (NC.op NC.nil))
  | .array c, hw => by
    simp only [itArgV, iop, toks_some, toks_append, toks_gap (commaGap_cases c), toks_nil, List.nil_append]
    exact NC.op ((c_comma c hw).append (NC.op NC.nil))
  | .empty, hw => NC.op (NC.op NC.nil)
theorem c_select : ∀ (q : CSelect), wSelect num lim q → NC (toks (itSelect q))
  | .mk cs ex all cols from_ wh gb ob li, hw => by
    obtain ⟨rfl, hcols, hall, hfrom, hwh, hgb, hob, hlim⟩ := hw
    rw [itSelect_eq]
    simp only [toks_append, toks_some, toks_none]
    refine NC.append ?_ (NC.cons (by decide) (NC.append ?_ (NC.append (c_cols cols hcols)
      (NC.cons (by decide) (NC.append (c_plugin from_ hfrom) (NC.append (c_clause .where_ _ wh hwh (by decide))
        (NC.append (c_clause .groupBy _ gb hgb (by decide)) (NC.append ?_ ?_))))))))
    · cases ex
      · exact NC.nil
      · exact NC.cons (by decide) NC.nil
    · cases all
      · exact NC.nil
      · cases cols
        · exact NC.op NC.nil
        · exact NC.op (NC.op NC.nil)
    · rcases ob with _ | ⟨k, _ | _⟩
      · exact NC.nil
      · exact NC.cons (by simp [comKs]) (NC.cons (by simp [comKs]) NC.nil)
      · exact NC.cons (by simp [comKs]) (NC.cons (by simp [comKs]) (NC.cons (by simp [comKs]) NC.nil))
    · cases li
      · exact NC.nil
      · exact NC.cons (by simp [comKs]) (NC.cons (by simp [comKs]) NC.nil)
theorem c_clause (k : TK) (s : Str) : ∀ (c : Option CComma), wOptComma num lim c → k ∉ comKs →
    NC (toks (itClause ⟨k, s⟩ c))
  | none, _, _ => NC.nil
  | some c, hw, hk => by
    simp only [itClause, toks_none, toks_some]
    exact NC.cons hk (c_comma c hw)
theorem c_cols : ∀ (cs : List CCol), wCols num lim cs → NC (toks (itCols cs))
  | [], _ => NC.nil
  | [a], hw => by
    rw [itCols_eq, toks_append]
    exact (c_col a hw.1).append NC.nil
  | a :: b :: as, hw => by
    have h := c_cols (b :: as) hw.2
    show NC (toks (itCol a ++ [iop (bs ","), none] ++ itCols (b :: as)))
    rw [toks_append, toks_append]
    exact ((c_col a hw.1).append (NC.op NC.nil)).append h
theorem c_col : ∀ (c : CCol), wCol num lim c → NC (toks (itCol c))
  | .mk cs b a, hw => by
    rw [itCol, toks_append]
    refine (c_colB b a hw.2.1).append ?_
    by_cases h : a = []
    · rw [if_pos h]; exact NC.nil
    · rw [if_neg h]; exact NC.cons (by simp [comKs]) (NC.cons (by simp [comKs]) NC.nil)
theorem c_colB : ∀ (b : CColB) (a : Str), wColB num lim b a → NC (toks (itColB b))
  | .star, _, _ => NC.op NC.nil
  | .expr e, _, hw => c_and e hw
  | .select q, _, hw => by
    simp only [itColB, iop, toks_some, toks_none, toks_append, toks_gap (selectGap_cases q), toks_nil,
      List.nil_append]
    exact NC.op ((c_select q hw).append (NC.op NC.nil))
theorem c_plugin : ∀ (p : CPlugin), wPlugin num lim p → NC (toks (itPlugin p))
  | .mk nm call args, hw => by
    obtain ⟨hnm, hps, hc⟩ := hw
    rw [itPlugin, toks_append]
    refine (nc_name name_ok hnm).append ?_
    cases call with
    | false => exact NC.nil
    | true =>
      simp only [if_true, iop, toks_some, toks_append, toks_nil]
      exact NC.op ((c_args args hps).append (NC.op NC.nil))
end
end

end Vfilter.Fmt
