import Verif.Letters
import Verif.EvalReprint
import Verif.EvalNumbered
/-!
# A program with its keywords in other letters, evaluated

`rs_...`: a tree and the tree with its AND, OR, TRUE and FALSE in upper case are related, if columns
without a name of their own have them in upper case already.
-/
set_option linter.all false

namespace Vfilter.Fmt
open Vql

mutual
/-- AND, OR, TRUE and FALSE are in upper case in the tree. -/
def uAnd : CAnd → Prop
  | .mk cs l rs => uOr l ∧ uAndTs rs
def uAndTs : List CAndT → Prop
  | [] => True
  | .mk op t :: rs => op.map upper = op ∧ uOr t ∧ uAndTs rs
def uOr : COr → Prop
  | .mk cs l rs => uCond l ∧ uOrTs rs
def uOrTs : List COrT → Prop
  | [] => True
  | .mk op t :: rs => op.map upper = op ∧ uCond t ∧ uOrTs rs
def uCond : CCond → Prop
  | .not cs c => uCond c
  | .cmp cs l r => uAdd l ∧ uCmp r
def uCmp : Option CCmpT → Prop
  | none => True
  | some (.mk op r) => uAdd r
def uAdd : CAdd → Prop
  | .mk cs l rs => uMul l ∧ uAddTs rs
def uAddTs : List CAddT → Prop
  | [] => True
  | .mk op t :: rs => uMul t ∧ uAddTs rs
def uMul : CMul → Prop
  | .mk cs l rs => uMember l ∧ uMulTs rs
def uMulTs : List CMulT → Prop
  | [] => True
  | .mk op t :: rs => uVal t ∧ uMulTs rs
def uMember : CMember → Prop
  | .mk cs l rs => uVal l ∧ uMTerms rs
def uMTerms : List CMTerm → Prop
  | [] => True
  | .range i j :: rs => uOptVal i ∧ uOptVal j ∧ uMTerms rs
  | .index i :: rs => uVal i ∧ uMTerms rs
  | .field n :: rs => uMTerms rs
  | .empty :: rs => uMTerms rs
def uOptVal : Option CVal → Prop
  | none => True
  | some x => uVal x
def uComma : CComma → Prop
  | .mk cs l rs => uAnd l ∧ uCommaTs rs
def uCommaTs : List CCommaT → Prop
  | [] => True
  | .mk c1 c2 none :: rs => uCommaTs rs
  | .mk c1 c2 (some t) :: rs => uAnd t ∧ uCommaTs rs
def uVal : CVal → Prop
  | .mk cs b => uValB b
def uValB : CValB → Prop
  | .sym s => uSym s
  | .sub c => uComma c
  | .str t => True
  | .num t => True
  | .bool t => t.map upper = t
  | .null => True
def uSym : CSym → Prop
  | .mk cs n called ps => uArgs ps
def uArgs : List CArg → Prop
  | [] => True
  | a :: as => uArg a ∧ uArgs as
def uArg : CArg → Prop
  | .mk cs n r => uArgV r
def uArgV : CArgV → Prop
  | .expr e => uAnd e
  | .select q => uSelect q
  | .array c => uComma c
  | .empty => True
def uSelect : CSelect → Prop
  | .mk cs ex all cols from_ wh gb ob l => uCols cols ∧ uPlugin from_ ∧ uOptComma wh ∧ uOptComma gb
def uOptComma : Option CComma → Prop
  | none => True
  | some c => uComma c
def uCols : List CCol → Prop
  | [] => True
  | c :: cs => uCol c ∧ uCols cs
def uCol : CCol → Prop
  | .mk cs b a => uColB b
def uColB : CColB → Prop
  | .star => True
  | .expr e => uAnd e
  | .select q => uSelect q
def uPlugin : CPlugin → Prop
  | .mk n call args => uArgs args
end

mutual
/-- Every column in the tree has a name given with AS, or its AND, OR, TRUE and FALSE are in upper
case. -/
def qAnd : CAnd → Prop
  | .mk cs l rs => qOr l ∧ qAndTs rs
def qAndTs : List CAndT → Prop
  | [] => True
  | .mk op t :: rs => qOr t ∧ qAndTs rs
def qOr : COr → Prop
  | .mk cs l rs => qCond l ∧ qOrTs rs
def qOrTs : List COrT → Prop
  | [] => True
  | .mk op t :: rs => qCond t ∧ qOrTs rs
def qCond : CCond → Prop
  | .not cs c => qCond c
  | .cmp cs l r => qAdd l ∧ qCmp r
def qCmp : Option CCmpT → Prop
  | none => True
  | some (.mk op r) => qAdd r
def qAdd : CAdd → Prop
  | .mk cs l rs => qMul l ∧ qAddTs rs
def qAddTs : List CAddT → Prop
  | [] => True
  | .mk op t :: rs => qMul t ∧ qAddTs rs
def qMul : CMul → Prop
  | .mk cs l rs => qMember l ∧ qMulTs rs
def qMulTs : List CMulT → Prop
  | [] => True
  | .mk op t :: rs => qVal t ∧ qMulTs rs
def qMember : CMember → Prop
  | .mk cs l rs => qVal l ∧ qMTerms rs
def qMTerms : List CMTerm → Prop
  | [] => True
  | .range i j :: rs => qOptVal i ∧ qOptVal j ∧ qMTerms rs
  | .index i :: rs => qVal i ∧ qMTerms rs
  | .field n :: rs => qMTerms rs
  | .empty :: rs => qMTerms rs
def qOptVal : Option CVal → Prop
  | none => True
  | some x => qVal x
def qComma : CComma → Prop
  | .mk cs l rs => qAnd l ∧ qCommaTs rs
def qCommaTs : List CCommaT → Prop
  | [] => True
  | .mk c1 c2 none :: rs => qCommaTs rs
  | .mk c1 c2 (some t) :: rs => qAnd t ∧ qCommaTs rs
def qVal : CVal → Prop
  | .mk cs b => qValB b
def qValB : CValB → Prop
  | .sym s => qSym s
  | .sub c => qComma c
  | .str t => True
  | .num t => True
  | .bool t => True
  | .null => True
def qSym : CSym → Prop
  | .mk cs n called ps => qArgs ps
def qArgs : List CArg → Prop
  | [] => True
  | a :: as => qArg a ∧ qArgs as
def qArg : CArg → Prop
  | .mk cs n r => qArgV r
def qArgV : CArgV → Prop
  | .expr e => qAnd e
  | .select q => qSelect q
  | .array c => qComma c
  | .empty => True
def qSelect : CSelect → Prop
  | .mk cs ex all cols from_ wh gb ob l => qCols cols ∧ qPlugin from_ ∧ qOptComma wh ∧ qOptComma gb
def qOptComma : Option CComma → Prop
  | none => True
  | some c => qComma c
def qCols : List CCol → Prop
  | [] => True
  | c :: cs => qCol c ∧ qCols cs
def qCol : CCol → Prop
  | .mk cs b a => (a ≠ [] ∨ uColB b) ∧ qColB b
def qColB : CColB → Prop
  | .star => True
  | .expr e => qAnd e
  | .select q => qSelect q
def qPlugin : CPlugin → Prop
  | .mk n call args => qArgs args
end

mutual
theorem uAnd_rc : ∀ e : CAnd, uAnd e → rcAnd (List.map upper) e = e
  | .mk cs l rs, h => by simp only [rcAnd, uOr_rc l (h.1), uAndTs_rc rs (h.2)]
theorem uAndTs_rc : ∀ e : List CAndT, uAndTs e → rcAndTs (List.map upper) e = e
  | [], h => by simp only [rcAndTs]
  | .mk op t :: rs, h => by simp only [rcAndTs, h.1, uOr_rc t (h.2.1), uAndTs_rc rs (h.2.2)]
theorem uOr_rc : ∀ e : COr, uOr e → rcOr (List.map upper) e = e
  | .mk cs l rs, h => by simp only [rcOr, uCond_rc l (h.1), uOrTs_rc rs (h.2)]
theorem uOrTs_rc : ∀ e : List COrT, uOrTs e → rcOrTs (List.map upper) e = e
  | [], h => by simp only [rcOrTs]
  | .mk op t :: rs, h => by simp only [rcOrTs, h.1, uCond_rc t (h.2.1), uOrTs_rc rs (h.2.2)]
theorem uCond_rc : ∀ e : CCond, uCond e → rcCond (List.map upper) e = e
  | .not cs c, h => by simp only [rcCond, uCond_rc c (h)]
  | .cmp cs l r, h => by simp only [rcCond, uAdd_rc l (h.1), uCmp_rc r (h.2)]
theorem uCmp_rc : ∀ e : Option CCmpT, uCmp e → rcCmp (List.map upper) e = e
  | none, h => by simp only [rcCmp]
  | some (.mk op r), h => by simp only [rcCmp, uAdd_rc r (h)]
theorem uAdd_rc : ∀ e : CAdd, uAdd e → rcAdd (List.map upper) e = e
  | .mk cs l rs, h => by simp only [rcAdd, uMul_rc l (h.1), uAddTs_rc rs (h.2)]
theorem uAddTs_rc : ∀ e : List CAddT, uAddTs e → rcAddTs (List.map upper) e = e
  | [], h => by simp only [rcAddTs]
  | .mk op t :: rs, h => by simp only [rcAddTs, uMul_rc t (h.1), uAddTs_rc rs (h.2)]
theorem uMul_rc : ∀ e : CMul, uMul e → rcMul (List.map upper) e = e
  | .mk cs l rs, h => by simp only [rcMul, uMember_rc l (h.1), uMulTs_rc rs (h.2)]
theorem uMulTs_rc : ∀ e : List CMulT, uMulTs e → rcMulTs (List.map upper) e = e
  | [], h => by simp only [rcMulTs]
  | .mk op t :: rs, h => by simp only [rcMulTs, uVal_rc t (h.1), uMulTs_rc rs (h.2)]
theorem uMember_rc : ∀ e : CMember, uMember e → rcMember (List.map upper) e = e
  | .mk cs l rs, h => by simp only [rcMember, uVal_rc l (h.1), uMTerms_rc rs (h.2)]
theorem uMTerms_rc : ∀ e : List CMTerm, uMTerms e → rcMTerms (List.map upper) e = e
  | [], h => by simp only [rcMTerms]
  | .range i j :: rs, h => by simp only [rcMTerms, uOptVal_rc i (h.1), uOptVal_rc j (h.2.1), uMTerms_rc rs (h.2.2)]
  | .index i :: rs, h => by simp only [rcMTerms, uVal_rc i (h.1), uMTerms_rc rs (h.2)]
  | .field n :: rs, h => by simp only [rcMTerms, uMTerms_rc rs (h)]
  | .empty :: rs, h => by simp only [rcMTerms, uMTerms_rc rs (h)]
theorem uOptVal_rc : ∀ e : Option CVal, uOptVal e → rcOptVal (List.map upper) e = e
  | none, h => by simp only [rcOptVal]
  | some x, h => by simp only [rcOptVal, uVal_rc x (h)]
theorem uComma_rc : ∀ e : CComma, uComma e → rcComma (List.map upper) e = e
  | .mk cs l rs, h => by simp only [rcComma, uAnd_rc l (h.1), uCommaTs_rc rs (h.2)]
theorem uCommaTs_rc : ∀ e : List CCommaT, uCommaTs e → rcCommaTs (List.map upper) e = e
  | [], h => by simp only [rcCommaTs]
  | .mk c1 c2 none :: rs, h => by simp only [rcCommaTs, uCommaTs_rc rs (h)]
  | .mk c1 c2 (some t) :: rs, h => by simp only [rcCommaTs, uAnd_rc t (h.1), uCommaTs_rc rs (h.2)]
theorem uVal_rc : ∀ e : CVal, uVal e → rcVal (List.map upper) e = e
  | .mk cs b, h => by simp only [rcVal, uValB_rc b (h)]
theorem uValB_rc : ∀ e : CValB, uValB e → rcValB (List.map upper) e = e
  | .sym s, h => by simp only [rcValB, uSym_rc s (h)]
  | .sub c, h => by simp only [rcValB, uComma_rc c (h)]
  | .str t, h => by simp only [rcValB]
  | .num t, h => by simp only [rcValB]
  | .bool t, h => by rw [rcValB, show t.map upper = t from h]
  | .null, h => by simp only [rcValB]
theorem uSym_rc : ∀ e : CSym, uSym e → rcSym (List.map upper) e = e
  | .mk cs n called ps, h => by simp only [rcSym, uArgs_rc ps (h)]
theorem uArgs_rc : ∀ e : List CArg, uArgs e → rcArgs (List.map upper) e = e
  | [], h => by simp only [rcArgs]
  | a :: as, h => by simp only [rcArgs, uArg_rc a (h.1), uArgs_rc as (h.2)]
theorem uArg_rc : ∀ e : CArg, uArg e → rcArg (List.map upper) e = e
  | .mk cs n r, h => by simp only [rcArg, uArgV_rc r (h)]
theorem uArgV_rc : ∀ e : CArgV, uArgV e → rcArgV (List.map upper) e = e
  | .expr e, h => by simp only [rcArgV, uAnd_rc e (h)]
  | .select q, h => by simp only [rcArgV, uSelect_rc q (h)]
  | .array c, h => by simp only [rcArgV, uComma_rc c (h)]
  | .empty, h => by simp only [rcArgV]
theorem uSelect_rc : ∀ e : CSelect, uSelect e → rcSelect (List.map upper) e = e
  | .mk cs ex all cols from_ wh gb ob l, h => by simp only [rcSelect, uCols_rc cols (h.1), uPlugin_rc from_ (h.2.1), uOptComma_rc wh (h.2.2.1), uOptComma_rc gb (h.2.2.2)]
theorem uOptComma_rc : ∀ e : Option CComma, uOptComma e → rcOptComma (List.map upper) e = e
  | none, h => by simp only [rcOptComma]
  | some c, h => by simp only [rcOptComma, uComma_rc c (h)]
theorem uCols_rc : ∀ e : List CCol, uCols e → rcCols (List.map upper) e = e
  | [], h => by simp only [rcCols]
  | c :: cs, h => by simp only [rcCols, uCol_rc c (h.1), uCols_rc cs (h.2)]
theorem uCol_rc : ∀ e : CCol, uCol e → rcCol (List.map upper) e = e
  | .mk cs b a, h => by simp only [rcCol, uColB_rc b (h)]
theorem uColB_rc : ∀ e : CColB, uColB e → rcColB (List.map upper) e = e
  | .star, h => by simp only [rcColB]
  | .expr e, h => by simp only [rcColB, uAnd_rc e (h)]
  | .select q, h => by simp only [rcColB, uSelect_rc q (h)]
theorem uPlugin_rc : ∀ e : CPlugin, uPlugin e → rcPlugin (List.map upper) e = e
  | .mk n call args, h => by simp only [rcPlugin, uArgs_rc args (h)]
end

mutual
def duAnd : (e : CAnd) → Decidable (uAnd e)
  | .mk cs l rs => (@instDecidableAnd _ _ (duOr l) (duAndTs rs))
def duAndTs : (e : List CAndT) → Decidable (uAndTs e)
  | [] => isTrue trivial
  | .mk op t :: rs => (@instDecidableAnd _ _ (inferInstanceAs (Decidable (op.map upper = op))) (@instDecidableAnd _ _ (duOr t) (duAndTs rs)))
def duOr : (e : COr) → Decidable (uOr e)
  | .mk cs l rs => (@instDecidableAnd _ _ (duCond l) (duOrTs rs))
def duOrTs : (e : List COrT) → Decidable (uOrTs e)
  | [] => isTrue trivial
  | .mk op t :: rs => (@instDecidableAnd _ _ (inferInstanceAs (Decidable (op.map upper = op))) (@instDecidableAnd _ _ (duCond t) (duOrTs rs)))
def duCond : (e : CCond) → Decidable (uCond e)
  | .not cs c => (duCond c)
  | .cmp cs l r => (@instDecidableAnd _ _ (duAdd l) (duCmp r))
def duCmp : (e : Option CCmpT) → Decidable (uCmp e)
  | none => isTrue trivial
  | some (.mk op r) => (duAdd r)
def duAdd : (e : CAdd) → Decidable (uAdd e)
  | .mk cs l rs => (@instDecidableAnd _ _ (duMul l) (duAddTs rs))
def duAddTs : (e : List CAddT) → Decidable (uAddTs e)
  | [] => isTrue trivial
  | .mk op t :: rs => (@instDecidableAnd _ _ (duMul t) (duAddTs rs))
def duMul : (e : CMul) → Decidable (uMul e)
  | .mk cs l rs => (@instDecidableAnd _ _ (duMember l) (duMulTs rs))
def duMulTs : (e : List CMulT) → Decidable (uMulTs e)
  | [] => isTrue trivial
  | .mk op t :: rs => (@instDecidableAnd _ _ (duVal t) (duMulTs rs))
def duMember : (e : CMember) → Decidable (uMember e)
  | .mk cs l rs => (@instDecidableAnd _ _ (duVal l) (duMTerms rs))
def duMTerms : (e : List CMTerm) → Decidable (uMTerms e)
  | [] => isTrue trivial
  | .range i j :: rs => (@instDecidableAnd _ _ (duOptVal i) (@instDecidableAnd _ _ (duOptVal j) (duMTerms rs)))
  | .index i :: rs => (@instDecidableAnd _ _ (duVal i) (duMTerms rs))
  | .field n :: rs => (duMTerms rs)
  | .empty :: rs => (duMTerms rs)
def duOptVal : (e : Option CVal) → Decidable (uOptVal e)
  | none => isTrue trivial
  | some x => (duVal x)
def duComma : (e : CComma) → Decidable (uComma e)
  | .mk cs l rs => (@instDecidableAnd _ _ (duAnd l) (duCommaTs rs))
def duCommaTs : (e : List CCommaT) → Decidable (uCommaTs e)
  | [] => isTrue trivial
  | .mk c1 c2 none :: rs => (duCommaTs rs)
  | .mk c1 c2 (some t) :: rs => (@instDecidableAnd _ _ (duAnd t) (duCommaTs rs))
def duVal : (e : CVal) → Decidable (uVal e)
  | .mk cs b => (duValB b)
def duValB : (e : CValB) → Decidable (uValB e)
  | .sym s => (duSym s)
  | .sub c => (duComma c)
  | .str t => isTrue trivial
  | .num t => isTrue trivial
  | .bool t => (inferInstanceAs (Decidable (t.map upper = t)))
  | .null => isTrue trivial
def duSym : (e : CSym) → Decidable (uSym e)
  | .mk cs n called ps => (duArgs ps)
def duArgs : (e : List CArg) → Decidable (uArgs e)
  | [] => isTrue trivial
  | a :: as => (@instDecidableAnd _ _ (duArg a) (duArgs as))
def duArg : (e : CArg) → Decidable (uArg e)
  | .mk cs n r => (duArgV r)
def duArgV : (e : CArgV) → Decidable (uArgV e)
  | .expr e => (duAnd e)
  | .select q => (duSelect q)
  | .array c => (duComma c)
  | .empty => isTrue trivial
def duSelect : (e : CSelect) → Decidable (uSelect e)
  | .mk cs ex all cols from_ wh gb ob l => (@instDecidableAnd _ _ (duCols cols) (@instDecidableAnd _ _ (duPlugin from_) (@instDecidableAnd _ _ (duOptComma wh) (duOptComma gb))))
def duOptComma : (e : Option CComma) → Decidable (uOptComma e)
  | none => isTrue trivial
  | some c => (duComma c)
def duCols : (e : List CCol) → Decidable (uCols e)
  | [] => isTrue trivial
  | c :: cs => (@instDecidableAnd _ _ (duCol c) (duCols cs))
def duCol : (e : CCol) → Decidable (uCol e)
  | .mk cs b a => (duColB b)
def duColB : (e : CColB) → Decidable (uColB e)
  | .star => isTrue trivial
  | .expr e => (duAnd e)
  | .select q => (duSelect q)
def duPlugin : (e : CPlugin) → Decidable (uPlugin e)
  | .mk n call args => (duArgs args)
end

mutual
def dqAnd : (e : CAnd) → Decidable (qAnd e)
  | .mk cs l rs => (@instDecidableAnd _ _ (dqOr l) (dqAndTs rs))
def dqAndTs : (e : List CAndT) → Decidable (qAndTs e)
  | [] => isTrue trivial
  | .mk op t :: rs => (@instDecidableAnd _ _ (dqOr t) (dqAndTs rs))
def dqOr : (e : COr) → Decidable (qOr e)
  | .mk cs l rs => (@instDecidableAnd _ _ (dqCond l) (dqOrTs rs))
def dqOrTs : (e : List COrT) → Decidable (qOrTs e)
  | [] => isTrue trivial
  | .mk op t :: rs => (@instDecidableAnd _ _ (dqCond t) (dqOrTs rs))
def dqCond : (e : CCond) → Decidable (qCond e)
  | .not cs c => (dqCond c)
  | .cmp cs l r => (@instDecidableAnd _ _ (dqAdd l) (dqCmp r))
def dqCmp : (e : Option CCmpT) → Decidable (qCmp e)
  | none => isTrue trivial
  | some (.mk op r) => (dqAdd r)
def dqAdd : (e : CAdd) → Decidable (qAdd e)
  | .mk cs l rs => (@instDecidableAnd _ _ (dqMul l) (dqAddTs rs))
def dqAddTs : (e : List CAddT) → Decidable (qAddTs e)
  | [] => isTrue trivial
  | .mk op t :: rs => (@instDecidableAnd _ _ (dqMul t) (dqAddTs rs))
def dqMul : (e : CMul) → Decidable (qMul e)
  | .mk cs l rs => (@instDecidableAnd _ _ (dqMember l) (dqMulTs rs))
def dqMulTs : (e : List CMulT) → Decidable (qMulTs e)
  | [] => isTrue trivial
  | .mk op t :: rs => (@instDecidableAnd _ _ (dqVal t) (dqMulTs rs))
def dqMember : (e : CMember) → Decidable (qMember e)
  | .mk cs l rs => (@instDecidableAnd _ _ (dqVal l) (dqMTerms rs))
def dqMTerms : (e : List CMTerm) → Decidable (qMTerms e)
  | [] => isTrue trivial
  | .range i j :: rs => (@instDecidableAnd _ _ (dqOptVal i) (@instDecidableAnd _ _ (dqOptVal j) (dqMTerms rs)))
  | .index i :: rs => (@instDecidableAnd _ _ (dqVal i) (dqMTerms rs))
  | .field n :: rs => (dqMTerms rs)
  | .empty :: rs => (dqMTerms rs)
def dqOptVal : (e : Option CVal) → Decidable (qOptVal e)
  | none => isTrue trivial
  | some x => (dqVal x)
def dqComma : (e : CComma) → Decidable (qComma e)
  | .mk cs l rs => (@instDecidableAnd _ _ (dqAnd l) (dqCommaTs rs))
def dqCommaTs : (e : List CCommaT) → Decidable (qCommaTs e)
  | [] => isTrue trivial
  | .mk c1 c2 none :: rs => (dqCommaTs rs)
  | .mk c1 c2 (some t) :: rs => (@instDecidableAnd _ _ (dqAnd t) (dqCommaTs rs))
def dqVal : (e : CVal) → Decidable (qVal e)
  | .mk cs b => (dqValB b)
def dqValB : (e : CValB) → Decidable (qValB e)
  | .sym s => (dqSym s)
  | .sub c => (dqComma c)
  | .str t => isTrue trivial
  | .num t => isTrue trivial
  | .bool t => isTrue trivial
  | .null => isTrue trivial
def dqSym : (e : CSym) → Decidable (qSym e)
  | .mk cs n called ps => (dqArgs ps)
def dqArgs : (e : List CArg) → Decidable (qArgs e)
  | [] => isTrue trivial
  | a :: as => (@instDecidableAnd _ _ (dqArg a) (dqArgs as))
def dqArg : (e : CArg) → Decidable (qArg e)
  | .mk cs n r => (dqArgV r)
def dqArgV : (e : CArgV) → Decidable (qArgV e)
  | .expr e => (dqAnd e)
  | .select q => (dqSelect q)
  | .array c => (dqComma c)
  | .empty => isTrue trivial
def dqSelect : (e : CSelect) → Decidable (qSelect e)
  | .mk cs ex all cols from_ wh gb ob l => (@instDecidableAnd _ _ (dqCols cols) (@instDecidableAnd _ _ (dqPlugin from_) (@instDecidableAnd _ _ (dqOptComma wh) (dqOptComma gb))))
def dqOptComma : (e : Option CComma) → Decidable (qOptComma e)
  | none => isTrue trivial
  | some c => (dqComma c)
def dqCols : (e : List CCol) → Decidable (qCols e)
  | [] => isTrue trivial
  | c :: cs => (@instDecidableAnd _ _ (dqCol c) (dqCols cs))
def dqCol : (e : CCol) → Decidable (qCol e)
  | .mk cs b a => (@instDecidableAnd _ _ (@instDecidableOr _ _ inferInstance (duColB b)) (dqColB b))
def dqColB : (e : CColB) → Decidable (qColB e)
  | .star => isTrue trivial
  | .expr e => (dqAnd e)
  | .select q => (dqSelect q)
def dqPlugin : (e : CPlugin) → Decidable (qPlugin e)
  | .mk n call args => (dqArgs args)
end

/-- The same for LET parameters. -/
def qParam : CLetParam → Prop
  | .name n => True
  | .dflt a => qArg a

/-- The same for the body of a LET. -/
def qBody : CLetBody → Prop
  | .expr e => qAnd e
  | .select q => qSelect q

/-- Every column of the statement that has no name given with AS has its AND, OR, TRUE and FALSE in
upper case, and so has a query that is evaluated at once: its text is the value of `$Query`. -/
def qStmt : CStmt → Prop
  | .let_ cs n called ps op b => (∀ p ∈ ps, qParam p) ∧ qBody b
  | .query cs q => qSelect q ∧ uSelect q

def dqParam : (e : CLetParam) → Decidable (qParam e)
  | .name n => isTrue trivial
  | .dflt a => dqArg a

def dqBody : (e : CLetBody) → Decidable (qBody e)
  | .expr e => dqAnd e
  | .select q => dqSelect q

instance : DecidablePred qStmt
  | .let_ cs n called ps op b =>
    @instDecidableAnd _ _ (@List.decidableBAll _ qParam dqParam ps) (dqBody b)
  | .query cs q => @instDecidableAnd _ _ (dqSelect q) (duSelect q)

theorem upper_sign {s t : Str} (h : ∀ c ∈ s, isLetter c = false) : t.map upper = s ↔ t = s := keeps_upper s t h

theorem upperByte_upper : ∀ c : UInt8, upperByte (upper c) = upperByte c := forall_byte (by decide +kernel)

theorem upper_true (t : Str) : (t.map upper).map upperByte = bs "TRUE" ↔ t.map upperByte = bs "TRUE" := by
  rw [List.map_map, show upperByte ∘ upper = upperByte from funext upperByte_upper]

local notation "U" => List.map upper

section
variable {F S : Type} {H : Host F S} {Z : Cfg S}
  (ha : ∀ (b b' : ColBody) (a : Str), a ≠ [] → H.colName (.mk b a) = H.colName (.mk b' a))
include ha

mutual
theorem rs_and : ∀ (e : CAnd) (n : Nat), qAnd e →
    (∀ u ∈ usesAnd (lowAnd e n).1, UseOk H Z u) → Both (AndR H Z) (lowAnd e n) (lowAnd (rcAnd U e) n)
  | .mk cs l rs, n, q, hu => by
    simp only [lowAnd, rcAnd] at hu ⊢
    rw [usesAnd] at hu
    have h1 := rs_or l n q.1 (ok_left hu)
    have h2 := rs_andTs rs _ q.2 (ok_right hu)
    rw [h1.2.2]
    exact ⟨.mk h1.1 h2.1, .mk h1.2.1 h2.2.1, h2.2.2⟩
theorem rs_andTs : ∀ (e : List CAndT) (n : Nat), qAndTs e →
    (∀ u ∈ usesAndTs (lowAndTs e n).1, UseOk H Z u) → Both (All2 (AndTR H Z)) (lowAndTs e n) (lowAndTs (rcAndTs U e) n)
  | [], n, q, hu => ⟨.nil, .nil, rfl⟩
  | .mk op t :: rs, n, q, hu => by
    simp only [lowAndTs, rcAndTs] at hu ⊢
    rw [usesAndTs] at hu
    have h1 := rs_or t n q.1 (ok_left hu)
    have h2 := rs_andTs rs _ q.2 (ok_right hu)
    rw [h1.2.2]
    exact ⟨.cons (.mk (upper_sign (by decide)).symm h1.1) h2.1, .cons (.mk (upper_sign (by decide)) h1.2.1) h2.2.1, h2.2.2⟩
theorem rs_or : ∀ (e : COr) (n : Nat), qOr e →
    (∀ u ∈ usesOr (lowOr e n).1, UseOk H Z u) → Both (OrR H Z) (lowOr e n) (lowOr (rcOr U e) n)
  | .mk cs l rs, n, q, hu => by
    simp only [lowOr, rcOr] at hu ⊢
    rw [usesOr] at hu
    have h1 := rs_cond l n q.1 (ok_left hu)
    have h2 := rs_orTs rs _ q.2 (ok_right hu)
    rw [h1.2.2]
    exact ⟨.mk h1.1 h2.1, .mk h1.2.1 h2.2.1, h2.2.2⟩
theorem rs_orTs : ∀ (e : List COrT) (n : Nat), qOrTs e →
    (∀ u ∈ usesOrTs (lowOrTs e n).1, UseOk H Z u) → Both (All2 (OrTR H Z)) (lowOrTs e n) (lowOrTs (rcOrTs U e) n)
  | [], n, q, hu => ⟨.nil, .nil, rfl⟩
  | .mk op t :: rs, n, q, hu => by
    simp only [lowOrTs, rcOrTs] at hu ⊢
    rw [usesOrTs] at hu
    have h1 := rs_cond t n q.1 (ok_left hu)
    have h2 := rs_orTs rs _ q.2 (ok_right hu)
    rw [h1.2.2]
    exact ⟨.cons (.mk (upper_sign (by decide)).symm h1.1) h2.1, .cons (.mk (upper_sign (by decide)) h1.2.1) h2.2.1, h2.2.2⟩
theorem rs_cond : ∀ (e : CCond) (n : Nat), qCond e →
    (∀ u ∈ usesCond (lowCond e n).1, UseOk H Z u) → Both (CondR H Z) (lowCond e n) (lowCond (rcCond U e) n)
  | .not cs c, n, q, hu => by
    simp only [lowCond, rcCond] at hu ⊢
    rw [usesCond] at hu
    have h1 := rs_cond c n q hu
    exact ⟨.not h1.1, .not h1.2.1, h1.2.2⟩
  | .cmp cs l none, n, q, hu => by
    simp only [lowCond, rcCond, rcCmp] at hu ⊢
    rw [usesCond] at hu
    have h1 := rs_add l n q.1 hu
    exact ⟨.one h1.1, .one h1.2.1, h1.2.2⟩
  | .cmp cs l (some (.mk op r)), n, q, hu => by
    simp only [lowCond, rcCond, rcCmp] at hu ⊢
    rw [usesCond] at hu
    have h1 := rs_add l n q.1 (ok_left hu)
    have h2 := rs_add r _ q.2 (ok_right hu)
    rw [h1.2.2]
    exact ⟨.cmp h1.1 h2.1, .cmp h1.2.1 h2.2.1, h2.2.2⟩
theorem rs_add : ∀ (e : CAdd) (n : Nat), qAdd e →
    (∀ u ∈ usesAdd (lowAdd e n).1, UseOk H Z u) → Both (AddR H Z) (lowAdd e n) (lowAdd (rcAdd U e) n)
  | .mk cs l rs, n, q, hu => by
    simp only [lowAdd, rcAdd] at hu ⊢
    rw [usesAdd] at hu
    have h1 := rs_mul l n q.1 (ok_left hu)
    have h2 := rs_addTs rs _ q.2 (ok_right hu)
    rw [h1.2.2]
    exact ⟨.mk h1.1 h2.1, .mk h1.2.1 h2.2.1, h2.2.2⟩
theorem rs_addTs : ∀ (e : List CAddT) (n : Nat), qAddTs e →
    (∀ u ∈ usesAddTs (lowAddTs e n).1, UseOk H Z u) → Both (All2 (AddTR H Z)) (lowAddTs e n) (lowAddTs (rcAddTs U e) n)
  | [], n, q, hu => ⟨.nil, .nil, rfl⟩
  | .mk op t :: rs, n, q, hu => by
    simp only [lowAddTs, rcAddTs] at hu ⊢
    rw [usesAddTs] at hu
    have h1 := rs_mul t n q.1 (ok_left hu)
    have h2 := rs_addTs rs _ q.2 (ok_right hu)
    rw [h1.2.2]
    exact ⟨.cons (.mk h1.1) h2.1, .cons (.mk h1.2.1) h2.2.1, h2.2.2⟩
theorem rs_mul : ∀ (e : CMul) (n : Nat), qMul e →
    (∀ u ∈ usesMul (lowMul e n).1, UseOk H Z u) → Both (MulR H Z) (lowMul e n) (lowMul (rcMul U e) n)
  | .mk cs l rs, n, q, hu => by
    simp only [lowMul, rcMul] at hu ⊢
    rw [usesMul] at hu
    have h1 := rs_member l n q.1 (ok_left hu)
    have h2 := rs_mulTs rs _ q.2 (ok_right hu)
    rw [h1.2.2]
    exact ⟨.mk h1.1 h2.1, .mk h1.2.1 h2.2.1, h2.2.2⟩
theorem rs_mulTs : ∀ (e : List CMulT) (n : Nat), qMulTs e →
    (∀ u ∈ usesMulTs (lowMulTs e n).1, UseOk H Z u) → Both (All2 (MulTR H Z)) (lowMulTs e n) (lowMulTs (rcMulTs U e) n)
  | [], n, q, hu => ⟨.nil, .nil, rfl⟩
  | .mk op t :: rs, n, q, hu => by
    simp only [lowMulTs, rcMulTs] at hu ⊢
    rw [usesMulTs] at hu
    have h1 := rs_val t n q.1 (ok_left hu)
    have h2 := rs_mulTs rs _ q.2 (ok_right hu)
    rw [h1.2.2]
    exact ⟨.cons (.mk h1.1) h2.1, .cons (.mk h1.2.1) h2.2.1, h2.2.2⟩
theorem rs_member : ∀ (e : CMember) (n : Nat), qMember e →
    (∀ u ∈ usesMember (lowMember e n).1, UseOk H Z u) → Both (MemberR H Z) (lowMember e n) (lowMember (rcMember U e) n)
  | .mk cs l rs, n, q, hu => by
    simp only [lowMember, rcMember] at hu ⊢
    rw [usesMember] at hu
    have h1 := rs_val l n q.1 (ok_left hu)
    have h2 := rs_mterms rs _ q.2 (ok_right hu)
    rw [h1.2.2]
    exact ⟨.mk h1.1 h2.1, .mk h1.2.1 h2.2.1, h2.2.2⟩
theorem rs_mterms : ∀ (e : List CMTerm) (n : Nat), qMTerms e →
    (∀ u ∈ usesMTerms (lowMTerms e n).1, UseOk H Z u) →
    Both (All2 (MTermR H Z)) (lowMTerms e n) (lowMTerms (rcMTerms U e) n)
  | [], n, q, hu => ⟨.nil, .nil, rfl⟩
  | .range i j :: rs, n, q, hu => by
    simp only [lowMTerms, rcMTerms] at hu ⊢
    rw [usesMTerms] at hu
    have h1 := rs_oval i n q.1 (ok_left (ok_left hu))
    have h2 := rs_oval j _ q.2.1 (ok_right (ok_left hu))
    have h3 := rs_mterms rs _ q.2.2 (ok_right hu)
    rw [h1.2.2, h2.2.2]
    exact ⟨.cons (.range h1.1 h2.1) h3.1, .cons (.range h1.2.1 h2.2.1) h3.2.1, h3.2.2⟩
  | .index i :: rs, n, q, hu => by
    simp only [lowMTerms, rcMTerms] at hu ⊢
    rw [usesMTerms] at hu
    have h1 := rs_val i n q.1 (ok_left hu)
    have h3 := rs_mterms rs _ q.2 (ok_right hu)
    rw [h1.2.2]
    exact ⟨.cons (.index h1.1) h3.1, .cons (.index h1.2.1) h3.2.1, h3.2.2⟩
  | .field f :: rs, n, q, hu => by
    simp only [lowMTerms, rcMTerms] at hu ⊢
    rw [usesMTerms] at hu
    have h3 := rs_mterms rs _ q hu
    exact ⟨.cons (.field rfl) h3.1, .cons (.field rfl) h3.2.1, h3.2.2⟩
  | .empty :: rs, n, q, hu => by
    simp only [lowMTerms, rcMTerms] at hu ⊢
    rw [usesMTerms] at hu
    have h3 := rs_mterms rs _ q hu
    exact ⟨.cons .empty h3.1, .cons .empty h3.2.1, h3.2.2⟩
theorem rs_oval : ∀ (e : Option CVal) (n : Nat), qOptVal e →
    (∀ u ∈ usesOpt (lowOVal e n).1, UseOk H Z u) →
    Both (Opt2 (ValueR H Z)) (lowOVal e n) (lowOVal (rcOptVal U e) n)
  | none, n, q, hu => ⟨.none, .none, rfl⟩
  | some v, n, q, hu => by
    simp only [lowOVal, rcOptVal] at hu ⊢
    rw [usesOpt] at hu
    have h1 := rs_val v n q hu
    exact ⟨.some h1.1, .some h1.2.1, h1.2.2⟩
theorem rs_comma : ∀ (e : CComma) (n : Nat), qComma e →
    (∀ u ∈ usesComma (lowComma e n).1, UseOk H Z u) → Both (CommaR H Z) (lowComma e n) (lowComma (rcComma U e) n)
  | .mk cs l rs, n, q, hu => by
    simp only [lowComma, rcComma] at hu ⊢
    rw [usesComma] at hu
    have h1 := rs_and l n q.1 (ok_left hu)
    have h2 := rs_commaTs rs _ q.2 (ok_right hu)
    rw [h1.2.2]
    exact ⟨.mk h1.1 h2.1, .mk h1.2.1 h2.2.1, h2.2.2⟩
theorem rs_commaTs : ∀ (e : List CCommaT) (n : Nat), qCommaTs e →
    (∀ u ∈ usesCommaTs (lowCommaTs e n).1, UseOk H Z u) →
    Both (All2 (CommaTR H Z)) (lowCommaTs e n) (lowCommaTs (rcCommaTs U e) n)
  | [], n, q, hu => ⟨.nil, .nil, rfl⟩
  | .mk c1 c2 none :: rs, n, q, hu => by
    simp only [lowCommaTs, rcCommaTs] at hu ⊢
    rw [usesCommaTs] at hu
    have h2 := rs_commaTs rs _ q hu
    exact ⟨.cons .none h2.1, .cons .none h2.2.1, h2.2.2⟩
  | .mk c1 c2 (some t) :: rs, n, q, hu => by
    simp only [lowCommaTs, rcCommaTs] at hu ⊢
    rw [usesCommaTs] at hu
    have h1 := rs_and t n q.1 (ok_left hu)
    have h2 := rs_commaTs rs _ q.2 (ok_right hu)
    rw [h1.2.2]
    exact ⟨.cons (.some h1.1) h2.1, .cons (.some h1.2.1) h2.2.1, h2.2.2⟩
theorem rs_val : ∀ (e : CVal) (n : Nat), qVal e →
    (∀ u ∈ usesValue (lowVal e n).1, UseOk H Z u) → Both (ValueR H Z) (lowVal e n) (lowVal (rcVal U e) n)
  | .mk cs b, n, q, hu => rs_valB b n q hu
theorem rs_valB : ∀ (e : CValB) (n : Nat), qValB e →
    (∀ u ∈ usesValue (lowValB e n).1, UseOk H Z u) → Both (ValueR H Z) (lowValB e n) (lowValB (rcValB U e) n)
  | .sym s, n, q, hu => by
    simp only [lowValB, rcValB] at hu ⊢
    rw [usesValue] at hu
    have h1 := rs_sym s n q hu
    exact ⟨.sym h1.1, .sym h1.2.1, h1.2.2⟩
  | .sub c, n, q, hu => by
    simp only [lowValB, rcValB] at hu ⊢
    rw [usesValue] at hu
    have h1 := rs_comma c n q hu
    exact ⟨.sub h1.1, .sub h1.2.1, h1.2.2⟩
  | .str t, n, q, hu => ⟨.str rfl, .str rfl, rfl⟩
  | .num t, n, q, hu => ⟨.num rfl, .num rfl, rfl⟩
  | .bool t, n, q, hu => ⟨.bool (upper_true t).symm, .bool (upper_true t), rfl⟩
  | .null, n, q, hu => ⟨.null, .null, rfl⟩
theorem rs_sym : ∀ (e : CSym) (n : Nat), qSym e →
    (∀ u ∈ usesSym (lowSym e n).1, UseOk H Z u) → Both (SymR H Z) (lowSym e n) (lowSym (rcSym U e) n)
  | .mk cs s c ps, n, q, hu => by
    simp only [lowSym, rcSym] at hu ⊢
    rw [usesSym] at hu
    have h0 := ok_head hu
    have h1 := rs_args ps _ q (ok_tail hu)
    exact ⟨.mk h0.1 rfl h0.2 h1.1, .mk h0.1 rfl h0.2 h1.2.1, h1.2.2⟩
theorem rs_args : ∀ (e : List CArg) (n : Nat), qArgs e →
    (∀ u ∈ usesArgs (lowArgs e n).1, UseOk H Z u) →
    Both (All2 (ArgR H Z)) (lowArgs e n) (lowArgs (rcArgs U e) n)
  | [], n, q, hu => ⟨.nil, .nil, rfl⟩
  | .mk cs name v :: as, n, q, hu => by
    simp only [lowArgs, lowArg, rcArgs, rcArg] at hu ⊢
    rw [usesArgs] at hu
    have h1 := rs_argV v n q.1 (ok_left hu)
    have h2 := rs_args as _ q.2 (ok_right hu)
    rw [h1.2.2]
    exact ⟨.cons (.mk h1.1) h2.1, .cons (.mk h1.2.1) h2.2.1, h2.2.2⟩
theorem rs_argV : ∀ (e : CArgV) (n : Nat), qArgV e →
    (∀ u ∈ usesArgV (lowArgV e n).1, UseOk H Z u) → Both (ArgVR H Z) (lowArgV e n) (lowArgV (rcArgV U e) n)
  | .expr e, n, q, hu => by
    simp only [lowArgV, rcArgV] at hu ⊢
    rw [usesArgV] at hu
    have h1 := rs_and e n q hu
    exact ⟨.expr h1.1, .expr h1.2.1, h1.2.2⟩
  | .select e, n, q, hu => by
    simp only [lowArgV, rcArgV] at hu ⊢
    rw [usesArgV] at hu
    have h1 := rs_select e n q hu
    exact ⟨.select h1.1, .select h1.2.1, h1.2.2⟩
  | .array e, n, q, hu => by
    simp only [lowArgV, rcArgV] at hu ⊢
    rw [usesArgV] at hu
    have h1 := rs_comma e n q hu
    exact ⟨.array h1.1, .array h1.2.1, h1.2.2⟩
  | .empty, n, q, hu => ⟨.empty, .empty, rfl⟩
theorem rs_ocomma : ∀ (e : Option CComma) (n : Nat), qOptComma e →
    (∀ u ∈ usesOptC (lowOComma e n).1, UseOk H Z u) →
    Both (Opt2 (CommaR H Z)) (lowOComma e n) (lowOComma (rcOptComma U e) n)
  | none, n, q, hu => ⟨.none, .none, rfl⟩
  | some v, n, q, hu => by
    simp only [lowOComma, rcOptComma] at hu ⊢
    rw [usesOptC] at hu
    have h1 := rs_comma v n q hu
    exact ⟨.some h1.1, .some h1.2.1, h1.2.2⟩
theorem rs_select : ∀ (e : CSelect) (n : Nat), qSelect e →
    (∀ u ∈ usesSelect (lowSelect e n).1, UseOk H Z u) →
    Both (SelectR H Z) (lowSelect e n) (lowSelect (rcSelect U e) n)
  | .mk cs ex all cols fr wh gb ob li, n, q, hu => by
    simp only [lowSelect, rcSelect] at hu ⊢
    rw [usesSelect] at hu
    have h1 := rs_cols cols n q.1 (ok_left (ok_left (ok_left hu)))
    have h2 := rs_plugin fr _ q.2.1 (ok_right (ok_left (ok_left hu)))
    have h3 := rs_ocomma wh _ q.2.2.1 (ok_right (ok_left hu))
    have h4 := rs_ocomma gb _ q.2.2.2 (ok_right hu)
    rw [h1.2.2, h2.2.2, h3.2.2]
    exact ⟨.mk h1.1 h2.1 h3.1 h4.1, .mk h1.2.1 h2.2.1 h3.2.1 h4.2.1, h4.2.2⟩
theorem rs_cols : ∀ (e : List CCol) (n : Nat), qCols e →
    (∀ u ∈ usesCols (lowCols e n).1, UseOk H Z u) →
    Both (All2 (ColR H Z)) (lowCols e n) (lowCols (rcCols U e) n)
  | [], n, q, hu => ⟨.nil, .nil, rfl⟩
  | .mk cs b a :: r, n, q, hu => by
    have hc : H.colName (.mk (lowColB b n).1 a) = H.colName (.mk (lowColB (rcColB U b) n).1 a) := by
      rcases q.1.1 with h | h
      · exact ha _ _ a h
      · rw [uColB_rc b h]
    simp only [lowCols, rcCols, rcCol] at hu ⊢
    rw [usesCols] at hu
    have h1 := rs_colB b a n q.1.2 (ok_left hu)
    have h2 := rs_cols r _ q.2 (ok_right hu)
    rw [h1.2.2]
    exact ⟨.cons (.mk h1.1 hc) h2.1, .cons (.mk h1.2.1 hc.symm) h2.2.1, h2.2.2⟩
theorem rs_colB : ∀ (e : CColB) (a : Str) (n : Nat), qColB e →
    (∀ u ∈ usesColBody (lowColB e n).1, UseOk H Z u) → Both (ColBodyR H Z) (lowColB e n) (lowColB (rcColB U e) n)
  | .star, a, n, q, hu => ⟨.star, .star, rfl⟩
  | .expr e, a, n, q, hu => by
    simp only [lowColB, rcColB] at hu ⊢
    rw [usesColBody] at hu
    have h1 := rs_and e n q hu
    exact ⟨.expr h1.1, .expr h1.2.1, h1.2.2⟩
  | .select e, a, n, q, hu => by
    simp only [lowColB, rcColB] at hu ⊢
    rw [usesColBody] at hu
    have h1 := rs_select e n q hu
    exact ⟨.select h1.1, .select h1.2.1, h1.2.2⟩
theorem rs_plugin : ∀ (e : CPlugin) (n : Nat), qPlugin e →
    (∀ u ∈ usesPlugin (lowPlugin e n).1, UseOk H Z u) →
    Both (PluginR H Z) (lowPlugin e n) (lowPlugin (rcPlugin U e) n)
  | .mk s c as, n, q, hu => by
    simp only [lowPlugin, rcPlugin] at hu ⊢
    rw [usesPlugin] at hu
    have h0 := ok_head hu
    have h1 := rs_args as n q (ok_tail hu)
    exact ⟨.mk rfl h0 h1.1, .mk rfl h0 h1.2.1, h1.2.2⟩
end

theorem rs_params : ∀ (ps : List CLetParam) (n : Nat), (∀ p ∈ ps, qParam p) →
    (∀ u ∈ usesParams (lowParams ps n).1, UseOk H Z u) →
    Both (All2 (ParamR H Z)) (lowParams ps n) (lowParams (ps.map (rcParam U)) n)
  | [], n, k, hu => ⟨.nil, .nil, rfl⟩
  | .name s :: ps, n, k, hu => by
    simp only [lowParams, lowParam, usesParams, List.nil_append, List.map_cons, rcParam] at hu ⊢
    have h := rs_params ps n (fun p h => k p (by simp [h])) hu
    exact ⟨.cons ⟨rfl, .none⟩ h.1, .cons ⟨rfl, .none⟩ h.2.1, h.2.2⟩
  | .dflt (.mk cs s v) :: ps, n, k, hu => by
    simp only [lowParams, lowParam, usesParams, List.map_cons, rcParam, rcArg] at hu ⊢
    have h1 := rs_argV ha v n (k (.dflt (.mk cs s v)) (by simp)) (ok_left hu)
    have h2 := rs_params ps _ (fun p h => k p (by simp [h])) (ok_right hu)
    rw [h1.2.2]
    exact ⟨.cons ⟨rfl, .some h1.1⟩ h2.1, .cons ⟨rfl, .some h1.2.1⟩ h2.2.1, h2.2.2⟩

theorem rs_stmt (t : CStmt) (n : Nat) (k : qStmt t) (hu : ∀ u ∈ usesStmt (lowStmt t n).1, UseOk H Z u) :
    Both (StmtR H Z) (lowStmt t n) (lowStmt (rcStmt U t) n) := by
  cases t with
  | query cs q =>
    simp only [lowStmt, usesStmt, rcStmt] at hu ⊢
    have h := rs_select ha q n k.1 hu
    rw [uSelect_rc q k.2] at h ⊢
    exact ⟨.query h.1 rfl, .query h.2.1 rfl, h.2.2⟩
  | let_ cs name called ps op b =>
    cases b with
    | expr e =>
      simp only [lowStmt, usesStmt, rcStmt, rcBody] at hu ⊢
      have h1 := rs_params ha ps n k.1 (ok_left hu)
      have h2 := rs_and ha e _ k.2 (ok_right hu)
      rw [h1.2.2]
      exact ⟨.expr rfl h1.1 h2.1, .expr rfl h1.2.1 h2.2.1, h2.2.2⟩
    | select e =>
      simp only [lowStmt, usesStmt, rcStmt, rcBody] at hu ⊢
      have h1 := rs_params ha ps n k.1 (ok_left hu)
      have h2 := rs_select ha e _ k.2 (ok_right hu)
      rw [h1.2.2]
      exact ⟨.select rfl h1.1 h2.1, .select rfl h1.2.1 h2.2.1, h2.2.2⟩

theorem rs_stmts : ∀ (ts : List CStmt) (n : Nat), (∀ t ∈ ts, qStmt t) →
    (∀ u ∈ usesStmts (lowStmts ts n), UseOk H Z u) →
    All2 (StmtR H Z) (lowStmts ts n) (lowStmts (ts.map (rcStmt U)) n) ∧
    All2 (StmtR H Z) (lowStmts (ts.map (rcStmt U)) n) (lowStmts ts n)
  | [], n, k, hu => ⟨.nil, .nil⟩
  | t :: ts, n, k, hu => by
    simp only [lowStmts, usesStmts, List.map_cons, List.flatten_cons] at hu ⊢
    have h1 := rs_stmt ha t n (k t (by simp)) (ok_left hu)
    have h2 := rs_stmts ts (lowStmt t n).2 (fun t h => k t (by simp [h])) (ok_right hu)
    rw [h1.2.2]
    exact ⟨.cons h1.1 h2.1, .cons h1.2.1 h2.2⟩

end
end Vfilter.Fmt
