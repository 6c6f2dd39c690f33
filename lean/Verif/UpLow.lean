import Verif.Lower
import Verif.RoundNum
/-!
# Numbering the nodes of a parsed tree loses nothing

`up` after `low` gives the tree back, for trees without comments.
-/
set_option linter.all false

namespace Vfilter.Fmt
open Vql

/-- Limits fit in 64 bits. -/
def LimFits (lim : Str → Option Int) : Prop := ∀ t n, lim t = some n → (BitVec.ofInt 64 n).toInt = n

theorem limFits_limitVal : LimFits limitVal := by
  intro t n h
  unfold limitVal at h
  simp only [Option.map_eq_some_iff] at h
  obtain ⟨b, _, rfl⟩ := h
  rw [BitVec.ofInt_toInt]

section
variable (num : Str → Str) (lim : Str → Option Int) (hl : LimFits lim)
include hl

mutual
theorem u_and : ∀ (e : CAnd) (n : Nat), wAnd num lim e → upAnd (lowAnd e n).1 = e
  | .mk cs l rs, n, hw => by
    obtain ⟨rfl, h1, h2⟩ := hw
    simp only [lowAnd, upAnd, u_or l n h1, u_andTs rs _ h2]
theorem u_andTs : ∀ (e : List CAndT) (n : Nat), wAndTs num lim e → upAndTs (lowAndTs e n).1 = e
  | [], n, hw => rfl
  | .mk op t :: rs, n, hw => by
    obtain ⟨_, h1, h2⟩ := hw
    simp only [lowAndTs, upAndTs, u_or t n h1, u_andTs rs _ h2]
theorem u_or : ∀ (e : COr) (n : Nat), wOr num lim e → upOr (lowOr e n).1 = e
  | .mk cs l rs, n, hw => by
    obtain ⟨rfl, h1, h2⟩ := hw
    simp only [lowOr, upOr, u_cond l n h1, u_orTs rs _ h2]
theorem u_orTs : ∀ (e : List COrT) (n : Nat), wOrTs num lim e → upOrTs (lowOrTs e n).1 = e
  | [], n, hw => rfl
  | .mk op t :: rs, n, hw => by
    obtain ⟨_, h1, h2⟩ := hw
    simp only [lowOrTs, upOrTs, u_cond t n h1, u_orTs rs _ h2]
theorem u_cond : ∀ (e : CCond) (n : Nat), wCond num lim e → upCond (lowCond e n).1 = e
  | .not cs c, n, hw => by
    obtain ⟨rfl, h1⟩ := hw
    simp only [lowCond, upCond, u_cond c n h1]
  | .cmp cs l none, n, hw => by
    obtain ⟨rfl, h1, _⟩ := hw
    simp only [lowCond, upCond, u_add l n h1]
  | .cmp cs l (some (.mk op r)), n, hw => by
    obtain ⟨rfl, h1, _, h2⟩ := hw
    simp only [lowCond, upCond, u_add l n h1, u_add r _ h2]
theorem u_add : ∀ (e : CAdd) (n : Nat), wAdd num lim e → upAdd (lowAdd e n).1 = e
  | .mk cs l rs, n, hw => by
    obtain ⟨rfl, h1, h2⟩ := hw
    simp only [lowAdd, upAdd, u_mul l n h1, u_addTs rs _ h2]
theorem u_addTs : ∀ (e : List CAddT) (n : Nat), wAddTs num lim e → upAddTs (lowAddTs e n).1 = e
  | [], n, hw => rfl
  | .mk op t :: rs, n, hw => by
    obtain ⟨_, h1, h2⟩ := hw
    simp only [lowAddTs, upAddTs, u_mul t n h1, u_addTs rs _ h2]
theorem u_mul : ∀ (e : CMul) (n : Nat), wMul num lim e → upMul (lowMul e n).1 = e
  | .mk cs l rs, n, hw => by
    obtain ⟨rfl, h1, h2⟩ := hw
    simp only [lowMul, upMul, u_member l n h1, u_mulTs rs _ h2]
theorem u_mulTs : ∀ (e : List CMulT) (n : Nat), wMulTs num lim e → upMulTs (lowMulTs e n).1 = e
  | [], n, hw => rfl
  | .mk op t :: rs, n, hw => by
    obtain ⟨_, h1, h2⟩ := hw
    simp only [lowMulTs, upMulTs, u_val t n h1, u_mulTs rs _ h2]
theorem u_member : ∀ (e : CMember) (n : Nat), wMember num lim e → upMember (lowMember e n).1 = e
  | .mk cs l rs, n, hw => by
    obtain ⟨rfl, h1, h2, _⟩ := hw
    simp only [lowMember, upMember, u_val l n h1, u_mterms rs _ h2]
theorem u_mterms : ∀ (e : List CMTerm) (n : Nat), wMTerms num lim e → upMTerms (lowMTerms e n).1 = e
  | [], n, hw => rfl
  | .range i j :: rs, n, hw => by
    obtain ⟨h1, h2, h3⟩ := hw
    simp only [lowMTerms, upMTerms, u_oval i n h1, u_oval j _ h2, u_mterms rs _ h3]
  | .index i :: rs, n, hw => by
    obtain ⟨h1, h3⟩ := hw
    simp only [lowMTerms, upMTerms, u_val i n h1, u_mterms rs _ h3]
  | .field f :: rs, n, hw => by
    simp only [lowMTerms, upMTerms, u_mterms rs _ hw.2]
  | .empty :: rs, n, hw => False.elim hw
theorem u_oval : ∀ (e : Option CVal) (n : Nat), wOptVal num lim e → upOVal (lowOVal e n).1 = e
  | none, n, hw => rfl
  | some v, n, hw => by simp only [lowOVal, upOVal, u_val v n hw]
theorem u_comma : ∀ (e : CComma) (n : Nat), wComma num lim e → upComma (lowComma e n).1 = e
  | .mk cs l rs, n, hw => by
    obtain ⟨rfl, h1, h2⟩ := hw
    simp only [lowComma, upComma, u_and l n h1, u_commaTs rs _ h2]
theorem u_commaTs : ∀ (e : List CCommaT) (n : Nat), wCommaTs num lim e → upCommaTs (lowCommaTs e n).1 = e
  | [], n, hw => rfl
  | .mk c1 c2 none :: rs, n, hw => by
    obtain ⟨rfl, rfl, h2⟩ := hw
    simp only [lowCommaTs, upCommaTs, u_commaTs rs _ h2]
  | .mk c1 c2 (some t) :: rs, n, hw => by
    obtain ⟨rfl, rfl, h1, h2⟩ := hw
    simp only [lowCommaTs, upCommaTs, u_and t n h1, u_commaTs rs _ h2]
theorem u_val : ∀ (e : CVal) (n : Nat), wVal num lim e → upVal (lowVal e n).1 = e
  | .mk cs b, n, hw => by
    obtain ⟨rfl, h⟩ := hw
    simp only [lowVal, u_valB b n h]
theorem u_valB : ∀ (e : CValB) (n : Nat), wValB num lim e → upVal (lowValB e n).1 = .mk [] e
  | .sym s, n, hw => by simp only [lowValB, upVal, u_sym s n hw]
  | .sub c, n, hw => by simp only [lowValB, upVal, u_comma c n hw]
  | .str t, n, hw => rfl
  | .num t, n, hw => rfl
  | .bool t, n, hw => rfl
  | .null, n, hw => rfl
theorem u_sym : ∀ (e : CSym) (n : Nat), wSym num lim e → upSym (lowSym e n).1 = e
  | .mk cs s c ps, n, hw => by
    obtain ⟨rfl, _, h, _⟩ := hw
    simp only [lowSym, upSym, u_args ps _ h]
theorem u_args : ∀ (e : List CArg) (n : Nat), wArgs num lim e → upArgs (lowArgs e n).1 = e
  | [], n, hw => rfl
  | a :: as, n, hw => by
    simp only [lowArgs, upArgs, u_arg a n hw.1, u_args as _ hw.2]
theorem u_arg : ∀ (e : CArg) (n : Nat), wArg num lim e → upArg (lowArg e n).1 = e
  | .mk cs name v, n, hw => by
    obtain ⟨rfl, _, h⟩ := hw
    simp only [lowArg, upArg, u_argV v n h]
theorem u_argV : ∀ (e : CArgV) (n : Nat), wArgV num lim e → upArgV (lowArgV e n).1 = e
  | .expr e, n, hw => by simp only [lowArgV, upArgV, u_and e n hw]
  | .select q, n, hw => by simp only [lowArgV, upArgV, u_select q n hw]
  | .array c, n, hw => by simp only [lowArgV, upArgV, u_comma c n hw]
  | .empty, n, hw => rfl
theorem u_ocomma : ∀ (e : Option CComma) (n : Nat), wOptComma num lim e → upOComma (lowOComma e n).1 = e
  | none, n, hw => rfl
  | some v, n, hw => by simp only [lowOComma, upOComma, u_comma v n hw]
theorem u_select : ∀ (e : CSelect) (n : Nat), wSelect num lim e → upSelect (lowSelect e n).1 = e
  | .mk cs ex all cols fr wh gb ob li, n, hw => by
    obtain ⟨rfl, h1, _, h2, h3, h4, _, h5⟩ := hw
    have h6 : (li.map (BitVec.ofInt 64)).map BitVec.toInt = li := by
      cases li with
      | none => rfl
      | some m => exact congrArg some (hl _ _ (h5 m rfl).2)
    simp only [lowSelect, upSelect, u_cols cols n h1, u_plugin fr _ h2, u_ocomma wh _ h3, u_ocomma gb _ h4, h6]
theorem u_cols : ∀ (e : List CCol) (n : Nat), wCols num lim e → upCols (lowCols e n).1 = e
  | [], n, hw => rfl
  | .mk cs b a :: r, n, hw => by
    obtain ⟨⟨rfl, h1, _⟩, h2⟩ := hw
    simp only [lowCols, upCols, u_colB b a n h1, u_cols r _ h2]
theorem u_colB : ∀ (e : CColB) (a : Str) (n : Nat), wColB num lim e a → upColB (lowColB e n).1 = e
  | .star, _, n, hw => rfl
  | .expr e, _, n, hw => by simp only [lowColB, upColB, u_and e n hw]
  | .select q, _, n, hw => by simp only [lowColB, upColB, u_select q n hw]
theorem u_plugin : ∀ (e : CPlugin) (n : Nat), wPlugin num lim e → upPlugin (lowPlugin e n).1 = e
  | .mk s c as, n, hw => by simp only [lowPlugin, upPlugin, u_args as n hw.2.1]
end
end
end Vfilter.Fmt
