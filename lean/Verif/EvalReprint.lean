import Verif.EvalUses
import Verif.UpLow
import Verif.RoundWhole
import Verif.RoundDec
/-!
# A printed and parsed program, evaluated

`rp_...`: a tree and the tree with its numbers in printed form are related, if the host gives both
forms of a number the same value and names columns by printing them.  `n_...`: the parser's
numbering gives every symbol its own number.
-/
set_option linter.all false

namespace Vfilter.Fmt
open Vql

/-- The text of a query that evaluates a statement puts into its scope as `$Query`
(vfilter.go:497). -/
def statementText (num : Str → Str) (q : Select) : Str := formatStmt num (.query [] (upSelect q))

section
variable {F S : Type}

/-- A host that reads a number and its printed form alike (vfilter.go:1641-1663) and names columns
and statements by printing them (vfilter.go:828-850, 497). -/
structure Printing (H : Host F S) : Prop where
  num : ∀ t, IsNum t → H.num (numberText t) = H.num t
  col : H.colName = columnName numberText
  text : H.stmtText = statementText numberText

/-- Related in both directions, with the same next number. -/
def Both {α : Type} (R : α → α → Prop) (x y : α × Nat) : Prop := R x.1 y.1 ∧ R y.1 x.1 ∧ y.2 = x.2

variable {H : Host F S} {Z : Cfg S} (hp : Printing H)
include hp

mutual
theorem rp_and : ∀ (e : CAnd) (n : Nat), kAnd numberText e → wAnd id limitVal e →
    (∀ u ∈ usesAnd (lowAnd e n).1, UseOk H Z u) → Both (AndR H Z) (lowAnd e n) (lowAnd (mAnd numberText e) n)
  | .mk cs l rs, n, k, w, hu => by
    simp only [lowAnd, mAnd] at hu ⊢
    rw [usesAnd] at hu
    have h1 := rp_or l n k.1 w.2.1 (ok_left hu)
    have h2 := rp_andTs rs _ k.2 w.2.2 (ok_right hu)
    rw [h1.2.2]
    exact ⟨.mk h1.1 h2.1, .mk h1.2.1 h2.2.1, h2.2.2⟩
theorem rp_andTs : ∀ (e : List CAndT) (n : Nat), kAndTs numberText e → wAndTs id limitVal e →
    (∀ u ∈ usesAndTs (lowAndTs e n).1, UseOk H Z u) → Both (All2 (AndTR H Z)) (lowAndTs e n) (lowAndTs (mAndTs numberText e) n)
  | [], n, k, w, hu => ⟨.nil, .nil, rfl⟩
  | .mk op t :: rs, n, k, w, hu => by
    simp only [lowAndTs, mAndTs] at hu ⊢
    rw [usesAndTs] at hu
    have h1 := rp_or t n k.1 w.2.1 (ok_left hu)
    have h2 := rp_andTs rs _ k.2 w.2.2 (ok_right hu)
    rw [h1.2.2]
    exact ⟨.cons (.mk Iff.rfl h1.1) h2.1, .cons (.mk Iff.rfl h1.2.1) h2.2.1, h2.2.2⟩
theorem rp_or : ∀ (e : COr) (n : Nat), kOr numberText e → wOr id limitVal e →
    (∀ u ∈ usesOr (lowOr e n).1, UseOk H Z u) → Both (OrR H Z) (lowOr e n) (lowOr (mOr numberText e) n)
  | .mk cs l rs, n, k, w, hu => by
    simp only [lowOr, mOr] at hu ⊢
    rw [usesOr] at hu
    have h1 := rp_cond l n k.1 w.2.1 (ok_left hu)
    have h2 := rp_orTs rs _ k.2 w.2.2 (ok_right hu)
    rw [h1.2.2]
    exact ⟨.mk h1.1 h2.1, .mk h1.2.1 h2.2.1, h2.2.2⟩
theorem rp_orTs : ∀ (e : List COrT) (n : Nat), kOrTs numberText e → wOrTs id limitVal e →
    (∀ u ∈ usesOrTs (lowOrTs e n).1, UseOk H Z u) → Both (All2 (OrTR H Z)) (lowOrTs e n) (lowOrTs (mOrTs numberText e) n)
  | [], n, k, w, hu => ⟨.nil, .nil, rfl⟩
  | .mk op t :: rs, n, k, w, hu => by
    simp only [lowOrTs, mOrTs] at hu ⊢
    rw [usesOrTs] at hu
    have h1 := rp_cond t n k.1 w.2.1 (ok_left hu)
    have h2 := rp_orTs rs _ k.2 w.2.2 (ok_right hu)
    rw [h1.2.2]
    exact ⟨.cons (.mk Iff.rfl h1.1) h2.1, .cons (.mk Iff.rfl h1.2.1) h2.2.1, h2.2.2⟩
theorem rp_cond : ∀ (e : CCond) (n : Nat), kCond numberText e → wCond id limitVal e →
    (∀ u ∈ usesCond (lowCond e n).1, UseOk H Z u) → Both (CondR H Z) (lowCond e n) (lowCond (mCond numberText e) n)
  | .not cs c, n, k, w, hu => by
    simp only [lowCond, mCond] at hu ⊢
    rw [usesCond] at hu
    have h1 := rp_cond c n k w.2 hu
    exact ⟨.not h1.1, .not h1.2.1, h1.2.2⟩
  | .cmp cs l none, n, k, w, hu => by
    simp only [lowCond, mCond, mCmp] at hu ⊢
    rw [usesCond] at hu
    have h1 := rp_add l n k.1 w.2.1 hu
    exact ⟨.one h1.1, .one h1.2.1, h1.2.2⟩
  | .cmp cs l (some (.mk op r)), n, k, w, hu => by
    simp only [lowCond, mCond, mCmp] at hu ⊢
    rw [usesCond] at hu
    have h1 := rp_add l n k.1 w.2.1 (ok_left hu)
    have h2 := rp_add r _ k.2 w.2.2.2 (ok_right hu)
    rw [h1.2.2]
    exact ⟨.cmp h1.1 h2.1, .cmp h1.2.1 h2.2.1, h2.2.2⟩
theorem rp_add : ∀ (e : CAdd) (n : Nat), kAdd numberText e → wAdd id limitVal e →
    (∀ u ∈ usesAdd (lowAdd e n).1, UseOk H Z u) → Both (AddR H Z) (lowAdd e n) (lowAdd (mAdd numberText e) n)
  | .mk cs l rs, n, k, w, hu => by
    simp only [lowAdd, mAdd] at hu ⊢
    rw [usesAdd] at hu
    have h1 := rp_mul l n k.1 w.2.1 (ok_left hu)
    have h2 := rp_addTs rs _ k.2 w.2.2 (ok_right hu)
    rw [h1.2.2]
    exact ⟨.mk h1.1 h2.1, .mk h1.2.1 h2.2.1, h2.2.2⟩
theorem rp_addTs : ∀ (e : List CAddT) (n : Nat), kAddTs numberText e → wAddTs id limitVal e →
    (∀ u ∈ usesAddTs (lowAddTs e n).1, UseOk H Z u) → Both (All2 (AddTR H Z)) (lowAddTs e n) (lowAddTs (mAddTs numberText e) n)
  | [], n, k, w, hu => ⟨.nil, .nil, rfl⟩
  | .mk op t :: rs, n, k, w, hu => by
    simp only [lowAddTs, mAddTs] at hu ⊢
    rw [usesAddTs] at hu
    have h1 := rp_mul t n k.1 w.2.1 (ok_left hu)
    have h2 := rp_addTs rs _ k.2 w.2.2 (ok_right hu)
    rw [h1.2.2]
    exact ⟨.cons (.mk h1.1) h2.1, .cons (.mk h1.2.1) h2.2.1, h2.2.2⟩
theorem rp_mul : ∀ (e : CMul) (n : Nat), kMul numberText e → wMul id limitVal e →
    (∀ u ∈ usesMul (lowMul e n).1, UseOk H Z u) → Both (MulR H Z) (lowMul e n) (lowMul (mMul numberText e) n)
  | .mk cs l rs, n, k, w, hu => by
    simp only [lowMul, mMul] at hu ⊢
    rw [usesMul] at hu
    have h1 := rp_member l n k.1 w.2.1 (ok_left hu)
    have h2 := rp_mulTs rs _ k.2 w.2.2 (ok_right hu)
    rw [h1.2.2]
    exact ⟨.mk h1.1 h2.1, .mk h1.2.1 h2.2.1, h2.2.2⟩
theorem rp_mulTs : ∀ (e : List CMulT) (n : Nat), kMulTs numberText e → wMulTs id limitVal e →
    (∀ u ∈ usesMulTs (lowMulTs e n).1, UseOk H Z u) → Both (All2 (MulTR H Z)) (lowMulTs e n) (lowMulTs (mMulTs numberText e) n)
  | [], n, k, w, hu => ⟨.nil, .nil, rfl⟩
  | .mk op t :: rs, n, k, w, hu => by
    simp only [lowMulTs, mMulTs] at hu ⊢
    rw [usesMulTs] at hu
    have h1 := rp_val t n k.1 w.2.1 (ok_left hu)
    have h2 := rp_mulTs rs _ k.2 w.2.2 (ok_right hu)
    rw [h1.2.2]
    exact ⟨.cons (.mk h1.1) h2.1, .cons (.mk h1.2.1) h2.2.1, h2.2.2⟩
theorem rp_member : ∀ (e : CMember) (n : Nat), kMember numberText e → wMember id limitVal e →
    (∀ u ∈ usesMember (lowMember e n).1, UseOk H Z u) → Both (MemberR H Z) (lowMember e n) (lowMember (mMember numberText e) n)
  | .mk cs l rs, n, k, w, hu => by
    simp only [lowMember, mMember] at hu ⊢
    rw [usesMember] at hu
    have h1 := rp_val l n k.1 w.2.1 (ok_left hu)
    have h2 := rp_mterms rs _ k.2 w.2.2.1 (ok_right hu)
    rw [h1.2.2]
    exact ⟨.mk h1.1 h2.1, .mk h1.2.1 h2.2.1, h2.2.2⟩
theorem rp_mterms : ∀ (e : List CMTerm) (n : Nat), kMTerms numberText e → wMTerms id limitVal e →
    (∀ u ∈ usesMTerms (lowMTerms e n).1, UseOk H Z u) →
    Both (All2 (MTermR H Z)) (lowMTerms e n) (lowMTerms (mMTerms numberText e) n)
  | [], n, k, w, hu => ⟨.nil, .nil, rfl⟩
  | .range i j :: rs, n, k, w, hu => by
    simp only [lowMTerms, mMTerms] at hu ⊢
    rw [usesMTerms] at hu
    have h1 := rp_oval i n k.1 w.1 (ok_left (ok_left hu))
    have h2 := rp_oval j _ k.2.1 w.2.1 (ok_right (ok_left hu))
    have h3 := rp_mterms rs _ k.2.2 w.2.2 (ok_right hu)
    rw [h1.2.2, h2.2.2]
    exact ⟨.cons (.range h1.1 h2.1) h3.1, .cons (.range h1.2.1 h2.2.1) h3.2.1, h3.2.2⟩
  | .index i :: rs, n, k, w, hu => by
    simp only [lowMTerms, mMTerms] at hu ⊢
    rw [usesMTerms] at hu
    have h1 := rp_val i n k.1 w.1 (ok_left hu)
    have h3 := rp_mterms rs _ k.2 w.2 (ok_right hu)
    rw [h1.2.2]
    exact ⟨.cons (.index h1.1) h3.1, .cons (.index h1.2.1) h3.2.1, h3.2.2⟩
  | .field f :: rs, n, k, w, hu => by
    simp only [lowMTerms, mMTerms] at hu ⊢
    rw [usesMTerms] at hu
    have h3 := rp_mterms rs _ k w.2 hu
    exact ⟨.cons (.field rfl) h3.1, .cons (.field rfl) h3.2.1, h3.2.2⟩
  | .empty :: rs, n, k, w, hu => False.elim w
theorem rp_oval : ∀ (e : Option CVal) (n : Nat), kOptVal numberText e → wOptVal id limitVal e →
    (∀ u ∈ usesOpt (lowOVal e n).1, UseOk H Z u) →
    Both (Opt2 (ValueR H Z)) (lowOVal e n) (lowOVal (mOptVal numberText e) n)
  | none, n, k, w, hu => ⟨.none, .none, rfl⟩
  | some v, n, k, w, hu => by
    simp only [lowOVal, mOptVal] at hu ⊢
    rw [usesOpt] at hu
    have h1 := rp_val v n k w hu
    exact ⟨.some h1.1, .some h1.2.1, h1.2.2⟩
theorem rp_comma : ∀ (e : CComma) (n : Nat), kComma numberText e → wComma id limitVal e →
    (∀ u ∈ usesComma (lowComma e n).1, UseOk H Z u) → Both (CommaR H Z) (lowComma e n) (lowComma (mComma numberText e) n)
  | .mk cs l rs, n, k, w, hu => by
    simp only [lowComma, mComma] at hu ⊢
    rw [usesComma] at hu
    have h1 := rp_and l n k.1 w.2.1 (ok_left hu)
    have h2 := rp_commaTs rs _ k.2 w.2.2 (ok_right hu)
    rw [h1.2.2]
    exact ⟨.mk h1.1 h2.1, .mk h1.2.1 h2.2.1, h2.2.2⟩
theorem rp_commaTs : ∀ (e : List CCommaT) (n : Nat), kCommaTs numberText e → wCommaTs id limitVal e →
    (∀ u ∈ usesCommaTs (lowCommaTs e n).1, UseOk H Z u) →
    Both (All2 (CommaTR H Z)) (lowCommaTs e n) (lowCommaTs (mCommaTs numberText e) n)
  | [], n, k, w, hu => ⟨.nil, .nil, rfl⟩
  | .mk c1 c2 none :: rs, n, k, w, hu => by
    simp only [lowCommaTs, mCommaTs] at hu ⊢
    rw [usesCommaTs] at hu
    have h2 := rp_commaTs rs _ k w.2.2 hu
    exact ⟨.cons .none h2.1, .cons .none h2.2.1, h2.2.2⟩
  | .mk c1 c2 (some t) :: rs, n, k, w, hu => by
    simp only [lowCommaTs, mCommaTs] at hu ⊢
    rw [usesCommaTs] at hu
    have h1 := rp_and t n k.1 w.2.2.1 (ok_left hu)
    have h2 := rp_commaTs rs _ k.2 w.2.2.2 (ok_right hu)
    rw [h1.2.2]
    exact ⟨.cons (.some h1.1) h2.1, .cons (.some h1.2.1) h2.2.1, h2.2.2⟩
theorem rp_val : ∀ (e : CVal) (n : Nat), kVal numberText e → wVal id limitVal e →
    (∀ u ∈ usesValue (lowVal e n).1, UseOk H Z u) → Both (ValueR H Z) (lowVal e n) (lowVal (mVal numberText e) n)
  | .mk cs b, n, k, w, hu => rp_valB b n k w.2 hu
theorem rp_valB : ∀ (e : CValB) (n : Nat), kValB numberText e → wValB id limitVal e →
    (∀ u ∈ usesValue (lowValB e n).1, UseOk H Z u) → Both (ValueR H Z) (lowValB e n) (lowValB (mValB numberText e) n)
  | .sym s, n, k, w, hu => by
    simp only [lowValB, mValB] at hu ⊢
    rw [usesValue] at hu
    have h1 := rp_sym s n k w hu
    exact ⟨.sym h1.1, .sym h1.2.1, h1.2.2⟩
  | .sub c, n, k, w, hu => by
    simp only [lowValB, mValB] at hu ⊢
    rw [usesValue] at hu
    have h1 := rp_comma c n k w hu
    exact ⟨.sub h1.1, .sub h1.2.1, h1.2.2⟩
  | .str t, n, k, w, hu => ⟨.str rfl, .str rfl, rfl⟩
  | .num t, n, k, w, hu => by
    have h := hp.num t ((kNum_iff t).1 k)
    exact ⟨.num h.symm, .num h, rfl⟩
  | .bool t, n, k, w, hu => ⟨.bool Iff.rfl, .bool Iff.rfl, rfl⟩
  | .null, n, k, w, hu => ⟨.null, .null, rfl⟩
theorem rp_sym : ∀ (e : CSym) (n : Nat), kSym numberText e → wSym id limitVal e →
    (∀ u ∈ usesSym (lowSym e n).1, UseOk H Z u) → Both (SymR H Z) (lowSym e n) (lowSym (mSym numberText e) n)
  | .mk cs s c ps, n, k, w, hu => by
    simp only [lowSym, mSym] at hu ⊢
    rw [usesSym] at hu
    have h0 := ok_head hu
    have h1 := rp_args ps _ k w.2.2.1 (ok_tail hu)
    exact ⟨.mk h0.1 rfl h0.2 h1.1, .mk h0.1 rfl h0.2 h1.2.1, h1.2.2⟩
theorem rp_args : ∀ (e : List CArg) (n : Nat), kArgs numberText e → wArgs id limitVal e →
    (∀ u ∈ usesArgs (lowArgs e n).1, UseOk H Z u) →
    Both (All2 (ArgR H Z)) (lowArgs e n) (lowArgs (mArgs numberText e) n)
  | [], n, k, w, hu => ⟨.nil, .nil, rfl⟩
  | .mk cs name v :: as, n, k, w, hu => by
    simp only [lowArgs, lowArg, mArgs, mArg] at hu ⊢
    rw [usesArgs] at hu
    have h1 := rp_argV v n k.1 w.1.2.2 (ok_left hu)
    have h2 := rp_args as _ k.2 w.2 (ok_right hu)
    rw [h1.2.2]
    exact ⟨.cons (.mk h1.1) h2.1, .cons (.mk h1.2.1) h2.2.1, h2.2.2⟩
theorem rp_argV : ∀ (e : CArgV) (n : Nat), kArgV numberText e → wArgV id limitVal e →
    (∀ u ∈ usesArgV (lowArgV e n).1, UseOk H Z u) → Both (ArgVR H Z) (lowArgV e n) (lowArgV (mArgV numberText e) n)
  | .expr e, n, k, w, hu => by
    simp only [lowArgV, mArgV] at hu ⊢
    rw [usesArgV] at hu
    have h1 := rp_and e n k w hu
    exact ⟨.expr h1.1, .expr h1.2.1, h1.2.2⟩
  | .select e, n, k, w, hu => by
    simp only [lowArgV, mArgV] at hu ⊢
    rw [usesArgV] at hu
    have h1 := rp_select e n k w hu
    exact ⟨.select h1.1, .select h1.2.1, h1.2.2⟩
  | .array e, n, k, w, hu => by
    simp only [lowArgV, mArgV] at hu ⊢
    rw [usesArgV] at hu
    have h1 := rp_comma e n k w hu
    exact ⟨.array h1.1, .array h1.2.1, h1.2.2⟩
  | .empty, n, k, w, hu => ⟨.empty, .empty, rfl⟩
theorem rp_ocomma : ∀ (e : Option CComma) (n : Nat), kOptComma numberText e → wOptComma id limitVal e →
    (∀ u ∈ usesOptC (lowOComma e n).1, UseOk H Z u) →
    Both (Opt2 (CommaR H Z)) (lowOComma e n) (lowOComma (mOptComma numberText e) n)
  | none, n, k, w, hu => ⟨.none, .none, rfl⟩
  | some v, n, k, w, hu => by
    simp only [lowOComma, mOptComma] at hu ⊢
    rw [usesOptC] at hu
    have h1 := rp_comma v n k w hu
    exact ⟨.some h1.1, .some h1.2.1, h1.2.2⟩
theorem rp_select : ∀ (e : CSelect) (n : Nat), kSelect numberText e → wSelect id limitVal e →
    (∀ u ∈ usesSelect (lowSelect e n).1, UseOk H Z u) →
    Both (SelectR H Z) (lowSelect e n) (lowSelect (mSelect numberText e) n)
  | .mk cs ex all cols fr wh gb ob li, n, k, w, hu => by
    obtain ⟨_, w1, _, w2, w3, w4, _⟩ := w
    simp only [lowSelect, mSelect] at hu ⊢
    rw [usesSelect] at hu
    have h1 := rp_cols cols n k.1 w1 (ok_left (ok_left (ok_left hu)))
    have h2 := rp_plugin fr _ k.2.1 w2 (ok_right (ok_left (ok_left hu)))
    have h3 := rp_ocomma wh _ k.2.2.1 w3 (ok_right (ok_left hu))
    have h4 := rp_ocomma gb _ k.2.2.2 w4 (ok_right hu)
    rw [h1.2.2, h2.2.2, h3.2.2]
    exact ⟨.mk h1.1 h2.1 h3.1 h4.1, .mk h1.2.1 h2.2.1 h3.2.1 h4.2.1, h4.2.2⟩
theorem rp_cols : ∀ (e : List CCol) (n : Nat), kCols numberText e → wCols id limitVal e →
    (∀ u ∈ usesCols (lowCols e n).1, UseOk H Z u) →
    Both (All2 (ColR H Z)) (lowCols e n) (lowCols (mCols numberText e) n)
  | [], n, k, w, hu => ⟨.nil, .nil, rfl⟩
  | .mk cs b a :: r, n, k, w, hu => by
    have hc : H.colName (.mk (lowColB b n).1 a) = H.colName (.mk (lowColB (mColB numberText b) n).1 a) := by
      rw [hp.col]
      cases a with
      | cons x a => rfl
      | nil =>
        simp only [columnName]
        rw [u_colB id limitVal limFits_limitVal b [] n w.1.2.1,
          u_colB numberText limitVal limFits_limitVal (mColB numberText b) [] n (y_colB numberText limitVal b [] w.1.2.1 k.1)]
        have := z_col numberText isBetter 0 (.mk [] b []) (Vis.new toStringOpts false) k.1
        simp only [mCol] at this
        rw [this]
    simp only [lowCols, mCols, mCol] at hu ⊢
    rw [usesCols] at hu
    have h1 := rp_colB b a n k.1 w.1.2.1 (ok_left hu)
    have h2 := rp_cols r _ k.2 w.2 (ok_right hu)
    rw [h1.2.2]
    exact ⟨.cons (.mk h1.1 hc) h2.1, .cons (.mk h1.2.1 hc.symm) h2.2.1, h2.2.2⟩
theorem rp_colB : ∀ (e : CColB) (a : Str) (n : Nat), kColB numberText e a → wColB id limitVal e a →
    (∀ u ∈ usesColBody (lowColB e n).1, UseOk H Z u) → Both (ColBodyR H Z) (lowColB e n) (lowColB (mColB numberText e) n)
  | .star, a, n, k, w, hu => ⟨.star, .star, rfl⟩
  | .expr e, a, n, k, w, hu => by
    simp only [lowColB, mColB] at hu ⊢
    rw [usesColBody] at hu
    have h1 := rp_and e n k w hu
    exact ⟨.expr h1.1, .expr h1.2.1, h1.2.2⟩
  | .select e, a, n, k, w, hu => by
    simp only [lowColB, mColB] at hu ⊢
    rw [usesColBody] at hu
    have h1 := rp_select e n k w hu
    exact ⟨.select h1.1, .select h1.2.1, h1.2.2⟩
theorem rp_plugin : ∀ (e : CPlugin) (n : Nat), kPlugin numberText e → wPlugin id limitVal e →
    (∀ u ∈ usesPlugin (lowPlugin e n).1, UseOk H Z u) →
    Both (PluginR H Z) (lowPlugin e n) (lowPlugin (mPlugin numberText e) n)
  | .mk s c as, n, k, w, hu => by
    simp only [lowPlugin, mPlugin] at hu ⊢
    rw [usesPlugin] at hu
    have h0 := ok_head hu
    have h1 := rp_args as n k w.2.1 (ok_tail hu)
    exact ⟨.mk rfl h0 h1.1, .mk rfl h0 h1.2.1, h1.2.2⟩
end
end
end Vfilter.Fmt
