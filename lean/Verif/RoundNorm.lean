import Verif.RoundParsed
/-!
# Numbers in printed form

The formatter prints the value of a number, not its text, so that `0x10` is read back as `16`.
-/

set_option linter.all false

namespace Vfilter.Fmt

section
variable (num : Str → Str)

mutual
/-- The tree with every number replaced by its printed form. -/
def mAnd : CAnd → CAnd
  | .mk cs l rs => .mk cs (mOr l) (mAndTs rs)
def mAndTs : List CAndT → List CAndT
  | [] => []
  | .mk op t :: rs => .mk op (mOr t) :: mAndTs rs
def mOr : COr → COr
  | .mk cs l rs => .mk cs (mCond l) (mOrTs rs)
def mOrTs : List COrT → List COrT
  | [] => []
  | .mk op t :: rs => .mk op (mCond t) :: mOrTs rs
def mCond : CCond → CCond
  | .not cs c => .not cs (mCond c)
  | .cmp cs l r => .cmp cs (mAdd l) (mCmp r)
def mCmp : Option CCmpT → Option CCmpT
  | none => none
  | some (.mk op r) => some (.mk op (mAdd r))
def mAdd : CAdd → CAdd
  | .mk cs l rs => .mk cs (mMul l) (mAddTs rs)
def mAddTs : List CAddT → List CAddT
  | [] => []
  | .mk op t :: rs => .mk op (mMul t) :: mAddTs rs
def mMul : CMul → CMul
  | .mk cs l rs => .mk cs (mMember l) (mMulTs rs)
def mMulTs : List CMulT → List CMulT
  | [] => []
  | .mk op t :: rs => .mk op (mVal t) :: mMulTs rs
def mMember : CMember → CMember
  | .mk cs l rs => .mk cs (mVal l) (mMTerms rs)
def mMTerms : List CMTerm → List CMTerm
  | [] => []
  | .range i j :: rs => .range (mOptVal i) (mOptVal j) :: mMTerms rs
  | .index i :: rs => .index (mVal i) :: mMTerms rs
  | .field n :: rs => .field n :: mMTerms rs
  | .empty :: rs => .empty :: mMTerms rs
def mOptVal : Option CVal → Option CVal
  | none => none
  | some x => some (mVal x)
def mComma : CComma → CComma
  | .mk cs l rs => .mk cs (mAnd l) (mCommaTs rs)
def mCommaTs : List CCommaT → List CCommaT
  | [] => []
  | .mk c1 c2 none :: rs => .mk c1 c2 none :: mCommaTs rs
  | .mk c1 c2 (some t) :: rs => .mk c1 c2 (some (mAnd t)) :: mCommaTs rs
def mVal : CVal → CVal
  | .mk cs b => .mk cs (mValB b)
def mValB : CValB → CValB
  | .sym s => .sym (mSym s)
  | .sub c => .sub (mComma c)
  | .str t => .str t
  | .num t => .num (num t)
  | .bool t => .bool t
  | .null => .null
def mSym : CSym → CSym
  | .mk cs n called ps => .mk cs n called (mArgs ps)
def mArgs : List CArg → List CArg
  | [] => []
  | a :: as => mArg a :: mArgs as
def mArg : CArg → CArg
  | .mk cs n r => .mk cs n (mArgV r)
def mArgV : CArgV → CArgV
  | .expr e => .expr (mAnd e)
  | .select q => .select (mSelect q)
  | .array c => .array (mComma c)
  | .empty => .empty
def mSelect : CSelect → CSelect
  | .mk cs ex all cols from_ wh gb ob l =>
      .mk cs ex all (mCols cols) (mPlugin from_) (mOptComma wh) (mOptComma gb) ob l
def mOptComma : Option CComma → Option CComma
  | none => none
  | some c => some (mComma c)
def mCols : List CCol → List CCol
  | [] => []
  | c :: cs => mCol c :: mCols cs
def mCol : CCol → CCol
  | .mk cs b a => .mk cs (mColB b) a
def mColB : CColB → CColB
  | .star => .star
  | .expr e => .expr (mAnd e)
  | .select q => .select (mSelect q)
def mPlugin : CPlugin → CPlugin
  | .mk n call args => .mk n call (mArgs args)
end

/-- The same for LET parameters. -/
def mParam : CLetParam → CLetParam
  | .name n => .name n
  | .dflt a => .dflt (mArg num a)

/-- The same for the body of a LET. -/
def mBody : CLetBody → CLetBody
  | .expr e => .expr (mAnd num e)
  | .select q => .select (mSelect num q)

/-- The same for statements. -/
def mStmt : CStmt → CStmt
  | .let_ cs n called ps op b => .let_ cs n called (ps.map (mParam num)) op (mBody num b)
  | .query cs q => .query cs (mSelect num q)

theorem mArgs_empty (as : List CArg) : (mArgs num as).isEmpty = as.isEmpty := by cases as <;> rfl
theorem mCols_empty (as : List CCol) : (mCols num as).isEmpty = as.isEmpty := by cases as <;> rfl
theorem mArg_name (a : CArg) : argName (mArg num a) = argName a := by cases a; rfl
theorem mArgs_names : ∀ as : List CArg, (mArgs num as).map argName = as.map argName
  | [] => rfl
  | a :: as => by simp [mArgs, mArg_name, mArgs_names as]
theorem mAndTs_length : ∀ rs : List CAndT, (mAndTs num rs).length = rs.length
  | [] => rfl
  | .mk op t :: rs => by simp [mAndTs, mAndTs_length rs]

/-! ## Printed alike -/

variable (better : Vis → Vis → Bool)

mutual
theorem z_and : ∀ (e : CAnd) (v : Vis), kAnd num e → fAnd better num (mAnd num e) v = fAnd better num e v
  | .mk cs l rs, v, h => by simp only [mAnd, fAnd, mAndTs_length, z_or l _ h.1, z_andTs rs _ h.2]
theorem z_andTs : ∀ (rs : List CAndT) (v : Vis), kAndTs num rs →
    fAndTs better num (mAndTs num rs) v = fAndTs better num rs v
  | [], v, h => rfl
  | .mk op t :: rs, v, h => by simp only [mAndTs, fAndTs, z_or t _ h.1, z_andTs rs _ h.2]
theorem z_or : ∀ (e : COr) (v : Vis), kOr num e → fOr better num (mOr num e) v = fOr better num e v
  | .mk cs l rs, v, h => by simp only [mOr, fOr, z_cond l _ h.1, z_orTs rs _ h.2]
theorem z_orTs : ∀ (rs : List COrT) (v : Vis), kOrTs num rs → fOrTs better num (mOrTs num rs) v = fOrTs better num rs v
  | [], v, h => rfl
  | .mk op t :: rs, v, h => by simp only [mOrTs, fOrTs, z_condC t _ h.1, z_orTs rs _ h.2]
theorem z_condC : ∀ (e : CCond) (v : Vis), kCond num e → fCondC better num (mCond num e) v = fCondC better num e v
  | .not cs c, v, h => by simp only [mCond, fCondC, z_cond c _ h]
  | .cmp cs l r, v, h => by simp only [mCond, fCondC, z_add l _ h.1, z_cmp r _ h.2]
theorem z_cond : ∀ (e : CCond) (v : Vis), kCond num e → fCond better num (mCond num e) v = fCond better num e v
  | .not cs c, v, h => by simp only [mCond, fCond, z_cond c _ h]
  | .cmp cs l r, v, h => by simp only [mCond, fCond, z_add l _ h.1, z_cmp r _ h.2]
theorem z_cmp : ∀ (e : Option CCmpT) (v : Vis), kCmp num e → fCmp better num (mCmp num e) v = fCmp better num e v
  | none, v, h => rfl
  | some (.mk op r), v, h => by simp only [mCmp, fCmp, z_add r _ h]
theorem z_add : ∀ (e : CAdd) (v : Vis), kAdd num e → fAdd better num (mAdd num e) v = fAdd better num e v
  | .mk cs l rs, v, h => by simp only [mAdd, fAdd, z_mul l _ h.1, z_addTs rs _ h.2]
theorem z_addTs : ∀ (rs : List CAddT) (v : Vis), kAddTs num rs →
    fAddTs better num (mAddTs num rs) v = fAddTs better num rs v
  | [], v, h => rfl
  | .mk op t :: rs, v, h => by simp only [mAddTs, fAddTs, z_mul t _ h.1, z_addTs rs _ h.2]
theorem z_mul : ∀ (e : CMul) (v : Vis), kMul num e → fMul better num (mMul num e) v = fMul better num e v
  | .mk cs l rs, v, h => by simp only [mMul, fMul, z_member l _ h.1, z_mulTs rs _ h.2]
theorem z_mulTs : ∀ (rs : List CMulT) (v : Vis), kMulTs num rs →
    fMulTs better num (mMulTs num rs) v = fMulTs better num rs v
  | [], v, h => rfl
  | .mk op t :: rs, v, h => by simp only [mMulTs, fMulTs, z_val t _ h.1, z_mulTs rs _ h.2]
theorem z_member : ∀ (e : CMember) (v : Vis), kMember num e →
    fMember better num (mMember num e) v = fMember better num e v
  | .mk cs l rs, v, h => by simp only [mMember, fMember, z_val l _ h.1, z_mterms rs _ h.2]
theorem z_mterms : ∀ (rs : List CMTerm) (v : Vis), kMTerms num rs →
    fMTerms better num (mMTerms num rs) v = fMTerms better num rs v
  | [], v, h => rfl
  | .range i j :: rs, v, h => by
    simp only [mMTerms, fMTerms, z_optVal i _ h.1, z_optVal j _ h.2.1, z_mterms rs _ h.2.2]
  | .index i :: rs, v, h => by simp only [mMTerms, fMTerms, z_val i _ h.1, z_mterms rs _ h.2]
  | .field n :: rs, v, h => by simp only [mMTerms, fMTerms, z_mterms rs _ h]
  | .empty :: rs, v, h => h.elim
theorem z_optVal : ∀ (e : Option CVal) (v : Vis), kOptVal num e →
    fOptVal better num (mOptVal num e) v = fOptVal better num e v
  | none, v, h => rfl
  | some x, v, h => by simp only [mOptVal, fOptVal, z_val x _ h]
theorem z_comma : ∀ (e : CComma) (v : Vis), kComma num e → fComma better num (mComma num e) v = fComma better num e v
  | .mk cs l rs, v, h => by simp only [mComma, fComma, z_and l _ h.1, z_commaTs rs _ h.2]
theorem z_commaTs : ∀ (rs : List CCommaT) (v : Vis), kCommaTs num rs →
    fCommaTs better num (mCommaTs num rs) v = fCommaTs better num rs v
  | [], v, h => rfl
  | .mk c1 c2 none :: rs, v, h => by simp only [mCommaTs, fCommaTs, z_commaTs rs _ h]
  | .mk c1 c2 (some t) :: rs, v, h => by simp only [mCommaTs, fCommaTs, z_and t _ h.1, z_commaTs rs _ h.2]
theorem z_val : ∀ (e : CVal) (v : Vis), kVal num e → fVal better num (mVal num e) v = fVal better num e v
  | .mk cs b, v, h => by simp only [mVal, fVal, z_valB b _ h]
theorem z_valB : ∀ (e : CValB) (v : Vis), kValB num e → fValB better num (mValB num e) v = fValB better num e v
  | .sym s, v, h => by simp only [mValB, fValB, z_sym s _ h]
  | .sub c, v, h => by simp only [mValB, fValB, z_comma c _ h]
  | .str t, v, h => rfl
  | .num t, v, h => by simp only [mValB, fValB, h.2]
  | .bool t, v, h => rfl
  | .null, v, h => rfl
theorem z_sym : ∀ (e : CSym) (v : Vis), kSym num e → fSym better num (mSym num e) v = fSym better num e v
  | .mk cs n called ps, v, h => by
    have h1 : fArgs1 better num (mArgs num ps) = fArgs1 better num ps := funext fun v => z_args1 ps v h
    have h2 : fArgs2 better num true (mArgs num ps) = fArgs2 better num true ps := funext fun v => z_args2 true ps v h
    simp only [mSym, fSym, mArgs_empty, mArgs_names, h1, h2]
theorem z_args1 : ∀ (as : List CArg) (v : Vis), kArgs num as → fArgs1 better num (mArgs num as) v = fArgs1 better num as v
  | [], v, h => rfl
  | a :: as, v, h => by simp only [mArgs, fArgs1, mArgs_empty, z_arg a _ h.1, z_args1 as _ h.2]
theorem z_args2 : ∀ (b : Bool) (as : List CArg) (v : Vis), kArgs num as →
    fArgs2 better num b (mArgs num as) v = fArgs2 better num b as v
  | b, [], v, h => rfl
  | b, a :: as, v, h => by simp only [mArgs, fArgs2, mArgs_empty, z_arg a _ h.1, z_args2 false as _ h.2]
theorem z_arg : ∀ (e : CArg) (v : Vis), kArg num e → fArg better num (mArg num e) v = fArg better num e v
  | .mk cs n r, v, h => by simp only [mArg, fArg, z_argV n r _ h]
theorem z_argV : ∀ (n : Str) (e : CArgV) (v : Vis), kArgV num e →
    fArgV better num n (mArgV num e) v = fArgV better num n e v
  | n, .expr e, v, h => by simp only [mArgV, fArgV, z_and e _ h]
  | n, .select q, v, h => by simp only [mArgV, fArgV, z_select q _ h]
  | n, .array c, v, h => by simp only [mArgV, fArgV, z_comma c _ h]
  | n, .empty, v, h => rfl
theorem z_select : ∀ (e : CSelect) (v : Vis), kSelect num e →
    fSelect better num (mSelect num e) v = fSelect better num e v
  | .mk cs ex all cols from_ wh gb ob l, v, h => by
    have h1 : fColList better num 0 (mCols num cols) = fColList better num 0 cols :=
      funext fun v => z_cols 0 cols v h.1
    cases gb with
    | none => simp only [mSelect, fSelect, mCols_empty, h1, z_plugin from_ _ h.2.1, z_clause _ wh _ h.2.2.1, mOptComma]
    | some g =>
      have hg := z_comma g
      have h4 : kComma num g := h.2.2.2
      simp only [mSelect, fSelect, mCols_empty, h1, z_plugin from_ _ h.2.1, z_clause _ wh _ h.2.2.1, mOptComma, fGroup,
        hg _ h4]
theorem z_clause : ∀ (kw : Str) (e : Option CComma) (v : Vis), kOptComma num e →
    fClause better num kw (mOptComma num e) v = fClause better num kw e v
  | kw, none, v, h => rfl
  | kw, some c, v, h => by simp only [mOptComma, fClause, z_comma c _ h]
theorem z_cols : ∀ (i : Nat) (as : List CCol) (v : Vis), kCols num as →
    fColList better num i (mCols num as) v = fColList better num i as v
  | i, [], v, h => rfl
  | i, a :: as, v, h => by simp only [mCols, fColList, mCols_empty, z_col i a _ h.1, z_cols (i + 1) as _ h.2]
theorem z_col : ∀ (i : Nat) (e : CCol) (v : Vis), kCol num e → fCol better num i (mCol num e) v = fCol better num i e v
  | i, .mk cs b a, v, h => by simp only [mCol, fCol, z_colB i a b _ h]
theorem z_colB : ∀ (i : Nat) (a : Str) (e : CColB) (v : Vis), kColB num e a →
    fColB better num i a (mColB num e) v = fColB better num i a e v
  | i, a, .star, v, h => rfl
  | i, a, .expr e, v, h => by
    have h1 : fAnd better num (mAnd num e) = fAnd better num e := funext fun v => z_and e v h
    simp only [mColB, fColB, h1]
  | i, a, .select q, v, h => by
    have h1 : fSelect better num (mSelect num q) = fSelect better num q := funext fun v => z_select q v h
    simp only [mColB, fColB, h1]
theorem z_plugin : ∀ (e : CPlugin) (v : Vis), kPlugin num e →
    fPlugin better num (mPlugin num e) v = fPlugin better num e v
  | .mk n call args, v, h => by
    have h1 : fArgs1 better num (mArgs num args) = fArgs1 better num args := funext fun v => z_args1 args v h
    have h2 : fArgs2 better num true (mArgs num args) = fArgs2 better num true args :=
      funext fun v => z_args2 true args v h
    simp only [mPlugin, fPlugin, mArgs_empty, mArgs_names, h1, h2]
end

/-! ## Well formed -/

variable (lim : Str → Option Int)

theorem mMTerms_field (rs : List CMTerm) : startsField (mMTerms num rs) = startsField rs := by
  match rs with
  | [] => rfl
  | .range i j :: rs => rfl
  | .index i :: rs => rfl
  | .field n :: rs => rfl
  | .empty :: rs => rfl

theorem mVal_open (v : CVal) : openSym (mVal num v) = openSym v := by
  obtain ⟨cs, b⟩ := v
  cases b with
  | sym s => cases s; rfl
  | _ => rfl

theorem mCols_star (cols : List CCol) : startsStar (mCols num cols) = startsStar cols := by
  match cols with
  | [] => rfl
  | .mk cs .star a :: r => rfl
  | .mk cs (.expr e) a :: r => rfl
  | .mk cs (.select e) a :: r => rfl

mutual
theorem y_and : ∀ (e : CAnd), wAnd id lim e → kAnd num e → wAnd num lim (mAnd num e)
  | .mk cs l rs, h, k => ⟨h.1, y_or l h.2.1 k.1, y_andTs rs h.2.2 k.2⟩
theorem y_andTs : ∀ (rs : List CAndT), wAndTs id lim rs → kAndTs num rs → wAndTs num lim (mAndTs num rs)
  | [], h, k => trivial
  | .mk op t :: rs, h, k => ⟨h.1, y_or t h.2.1 k.1, y_andTs rs h.2.2 k.2⟩
theorem y_or : ∀ (e : COr), wOr id lim e → kOr num e → wOr num lim (mOr num e)
  | .mk cs l rs, h, k => ⟨h.1, y_cond l h.2.1 k.1, y_orTs rs h.2.2 k.2⟩
theorem y_orTs : ∀ (rs : List COrT), wOrTs id lim rs → kOrTs num rs → wOrTs num lim (mOrTs num rs)
  | [], h, k => trivial
  | .mk op t :: rs, h, k => ⟨h.1, y_cond t h.2.1 k.1, y_orTs rs h.2.2 k.2⟩
theorem y_cond : ∀ (e : CCond), wCond id lim e → kCond num e → wCond num lim (mCond num e)
  | .not cs c, h, k => ⟨h.1, y_cond c h.2 k⟩
  | .cmp cs l r, h, k => ⟨h.1, y_add l h.2.1 k.1, y_cmp r h.2.2 k.2⟩
theorem y_cmp : ∀ (e : Option CCmpT), wCmp id lim e → kCmp num e → wCmp num lim (mCmp num e)
  | none, h, k => trivial
  | some (.mk op r), h, k => ⟨h.1, y_add r h.2 k⟩
theorem y_add : ∀ (e : CAdd), wAdd id lim e → kAdd num e → wAdd num lim (mAdd num e)
  | .mk cs l rs, h, k => ⟨h.1, y_mul l h.2.1 k.1, y_addTs rs h.2.2 k.2⟩
theorem y_addTs : ∀ (rs : List CAddT), wAddTs id lim rs → kAddTs num rs → wAddTs num lim (mAddTs num rs)
  | [], h, k => trivial
  | .mk op t :: rs, h, k => ⟨h.1, y_mul t h.2.1 k.1, y_addTs rs h.2.2 k.2⟩
theorem y_mul : ∀ (e : CMul), wMul id lim e → kMul num e → wMul num lim (mMul num e)
  | .mk cs l rs, h, k => ⟨h.1, y_member l h.2.1 k.1, y_mulTs rs h.2.2 k.2⟩
theorem y_mulTs : ∀ (rs : List CMulT), wMulTs id lim rs → kMulTs num rs → wMulTs num lim (mMulTs num rs)
  | [], h, k => trivial
  | .mk op t :: rs, h, k => ⟨h.1, y_val t h.2.1 k.1, y_mulTs rs h.2.2 k.2⟩
theorem y_member : ∀ (e : CMember), wMember id lim e → kMember num e → wMember num lim (mMember num e)
  | .mk cs l rs, h, k => ⟨h.1, y_val l h.2.1 k.1, y_mterms rs h.2.2.1 k.2, by
      rw [mVal_open, mMTerms_field]; exact h.2.2.2⟩
theorem y_mterms : ∀ (rs : List CMTerm), wMTerms id lim rs → kMTerms num rs → wMTerms num lim (mMTerms num rs)
  | [], h, k => trivial
  | .range i j :: rs, h, k => ⟨y_optVal i h.1 k.1, y_optVal j h.2.1 k.2.1, y_mterms rs h.2.2 k.2.2⟩
  | .index i :: rs, h, k => ⟨y_val i h.1 k.1, y_mterms rs h.2 k.2⟩
  | .field n :: rs, h, k => ⟨h.1, y_mterms rs h.2 k⟩
  | .empty :: rs, h, k => k.elim
theorem y_optVal : ∀ (e : Option CVal), wOptVal id lim e → kOptVal num e → wOptVal num lim (mOptVal num e)
  | none, h, k => trivial
  | some x, h, k => y_val x h k
theorem y_comma : ∀ (e : CComma), wComma id lim e → kComma num e → wComma num lim (mComma num e)
  | .mk cs l rs, h, k => ⟨h.1, y_and l h.2.1 k.1, y_commaTs rs h.2.2 k.2⟩
theorem y_commaTs : ∀ (rs : List CCommaT), wCommaTs id lim rs → kCommaTs num rs → wCommaTs num lim (mCommaTs num rs)
  | [], h, k => trivial
  | .mk c1 c2 none :: rs, h, k => ⟨h.1, h.2.1, y_commaTs rs h.2.2 k⟩
  | .mk c1 c2 (some t) :: rs, h, k => ⟨h.1, h.2.1, y_and t h.2.2.1 k.1, y_commaTs rs h.2.2.2 k.2⟩
theorem y_val : ∀ (e : CVal), wVal id lim e → kVal num e → wVal num lim (mVal num e)
  | .mk cs b, h, k => ⟨h.1, y_valB b h.2 k⟩
theorem y_valB : ∀ (e : CValB), wValB id lim e → kValB num e → wValB num lim (mValB num e)
  | .sym s, h, k => y_sym s h k
  | .sub c, h, k => y_comma c h k
  | .str t, h, k => h
  | .num t, h, k => k
  | .bool t, h, k => h
  | .null, h, k => trivial
theorem y_sym : ∀ (e : CSym), wSym id lim e → kSym num e → wSym num lim (mSym num e)
  | .mk cs n called ps, h, k => ⟨h.1, h.2.1, y_args ps h.2.2.1 k, fun hc => by rw [h.2.2.2 hc]; rfl⟩
theorem y_args : ∀ (as : List CArg), wArgs id lim as → kArgs num as → wArgs num lim (mArgs num as)
  | [], h, k => trivial
  | a :: as, h, k => ⟨y_arg a h.1 k.1, y_args as h.2 k.2⟩
theorem y_arg : ∀ (e : CArg), wArg id lim e → kArg num e → wArg num lim (mArg num e)
  | .mk cs n r, h, k => ⟨h.1, h.2.1, y_argV r h.2.2 k⟩
theorem y_argV : ∀ (e : CArgV), wArgV id lim e → kArgV num e → wArgV num lim (mArgV num e)
  | .expr e, h, k => y_and e h k
  | .select q, h, k => y_select q h k
  | .array c, h, k => y_comma c h k
  | .empty, h, k => trivial
theorem y_select : ∀ (e : CSelect), wSelect id lim e → kSelect num e → wSelect num lim (mSelect num e)
  | .mk cs ex all cols from_ wh gb ob l, h, k => ⟨h.1, y_cols cols h.2.1 k.1, by
      rw [mCols_star]
      intro ha
      refine ⟨?_, (h.2.2.1 ha).2⟩
      intro e
      have h1 := mCols_empty num cols
      rw [e] at h1
      exact (h.2.2.1 ha).1 (List.isEmpty_iff.1 h1.symm),
    y_plugin from_ h.2.2.2.1 k.2.1, y_optComma wh h.2.2.2.2.1 k.2.2.1, y_optComma gb h.2.2.2.2.2.1 k.2.2.2, h.2.2.2.2.2.2⟩
theorem y_optComma : ∀ (e : Option CComma), wOptComma id lim e → kOptComma num e → wOptComma num lim (mOptComma num e)
  | none, h, k => trivial
  | some c, h, k => y_comma c h k
theorem y_cols : ∀ (as : List CCol), wCols id lim as → kCols num as → wCols num lim (mCols num as)
  | [], h, k => trivial
  | a :: as, h, k => ⟨y_col a h.1 k.1, y_cols as h.2 k.2⟩
theorem y_col : ∀ (e : CCol), wCol id lim e → kCol num e → wCol num lim (mCol num e)
  | .mk cs b a, h, k => ⟨h.1, y_colB b a h.2.1 k, h.2.2⟩
theorem y_colB : ∀ (e : CColB) (a : Str), wColB id lim e a → kColB num e a → wColB num lim (mColB num e) a
  | .star, a, h, k => h
  | .expr e, a, h, k => y_and e h k
  | .select q, a, h, k => y_select q h k
theorem y_plugin : ∀ (e : CPlugin), wPlugin id lim e → kPlugin num e → wPlugin num lim (mPlugin num e)
  | .mk n call args, h, k => ⟨h.1, y_args args h.2.1 k, fun hc => by rw [h.2.2 hc]; rfl⟩
end
end

end Vfilter.Fmt
