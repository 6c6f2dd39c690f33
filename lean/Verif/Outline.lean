import Verif.Format
/-!
# The outline of a statement (outline.go)

Source positions are left out.  The trees are those of `Verif.Format`.
-/

set_option linter.all false

namespace Vfilter.Fmt

/-- `OutlineKind` (outline.go:33-45). -/
inductive OKind where
  | let_
  | query
  | column
  | function
deriving DecidableEq

/-- `OutlineInfo` (outline.go:48-62). -/
inductive OInfo where
  | mk (name : Str) (kind : OKind) (children : List OInfo)

mutual
/-- `collectExpressionFunctions`, `collectAndFunctions` (outline.go:170-178, 266-268).  The Go
functions append to a list that is passed along; here `acc` is that list. -/
def gAnd : CAnd → List OInfo → List OInfo
  | .mk _ l rs, acc => gAndTs rs (gOr l acc)
def gAndTs : List CAndT → List OInfo → List OInfo
  | [], acc => acc
  | .mk _ t :: rs, acc => gAndTs rs (gOr t acc)
/-- `collectOrFunctions` (outline.go:180-188). -/
def gOr : COr → List OInfo → List OInfo
  | .mk _ l rs, acc => gOrTs rs (gCond l acc)
def gOrTs : List COrT → List OInfo → List OInfo
  | [], acc => acc
  | .mk _ t :: rs, acc => gOrTs rs (gCond t acc)
/-- `collectConditionFunctions` (outline.go:190-201): `Left` and `Right` are nil next to `Not`. -/
def gCond : CCond → List OInfo → List OInfo
  | .not _ c, acc => gCond c acc
  | .cmp _ l r, acc => gCmp r (gAdd l acc)
def gCmp : Option CCmpT → List OInfo → List OInfo
  | none, acc => acc
  | some (.mk _ r), acc => gAdd r acc
/-- `collectAdditionFunctions` (outline.go:203-211). -/
def gAdd : CAdd → List OInfo → List OInfo
  | .mk _ l rs, acc => gAddTs rs (gMul l acc)
def gAddTs : List CAddT → List OInfo → List OInfo
  | [], acc => acc
  | .mk _ t :: rs, acc => gAddTs rs (gMul t acc)
/-- `collectMultiplicationFunctions` (outline.go:213-221). -/
def gMul : CMul → List OInfo → List OInfo
  | .mk _ l rs, acc => gMulTs rs (gMember l acc)
def gMulTs : List CMulT → List OInfo → List OInfo
  | [], acc => acc
  | .mk _ t :: rs, acc => gMulTs rs (gVal t acc)
/-- `collectMemberFunctions` (outline.go:223-236). -/
def gMember : CMember → List OInfo → List OInfo
  | .mk _ l rs, acc => gMTerms rs (gVal l acc)
def gMTerms : List CMTerm → List OInfo → List OInfo
  | [], acc => acc
  | .range i j :: rs, acc => gMTerms rs (gOptVal j (gOptVal i acc))
  | .index i :: rs, acc => gMTerms rs (gVal i acc)
  | .field _ :: rs, acc => gMTerms rs acc
  | .empty :: rs, acc => gMTerms rs acc
def gOptVal : Option CVal → List OInfo → List OInfo
  | none, acc => acc
  | some x, acc => gVal x acc
/-- `collectValueFunctions` (outline.go:238-253): the arguments of a call are not looked at. -/
def gVal : CVal → List OInfo → List OInfo
  | .mk _ (.sym (.mk _ n called _)), acc =>
    if called then acc ++ [.mk n .function []] else acc
  | .mk _ (.sub c), acc => gComma c acc
  | .mk _ (.str _), acc => acc
  | .mk _ (.num _), acc => acc
  | .mk _ (.bool _), acc => acc
  | .mk _ .null, acc => acc
/-- `collectCommaFunctions` (outline.go:255-263). -/
def gComma : CComma → List OInfo → List OInfo
  | .mk _ l rs, acc => gCommaTs rs (gAnd l acc)
def gCommaTs : List CCommaT → List OInfo → List OInfo
  | [], acc => acc
  | .mk _ _ none :: rs, acc => gCommaTs rs acc
  | .mk _ _ (some t) :: rs, acc => gCommaTs rs (gAnd t acc)
end

mutual
/-- `outlineSelect` (outline.go:97-122): only the columns are looked at, not the FROM, WHERE or
GROUP BY clause. -/
def outlineSelect : CSelect → OInfo
  | .mk _ _ _ cols (.mk n _ _) _ _ _ _ => .mk n .query (outlineCols cols)
/-- The loop of `outlineSelect`. -/
def outlineCols : List CCol → List OInfo
  | [] => []
  | c :: cs => outlineCol c :: outlineCols cs
/-- `outlineColumn` (outline.go:124-146): the alias of a sub query column is not reported. -/
def outlineCol : CCol → OInfo
  | .mk _ (.select q) _ => outlineSelect q
  | .mk _ .star as_ => .mk as_ .column []
  | .mk _ (.expr e) as_ => .mk as_ .column (gAnd e [])
end

/-- `Outline` (outline.go:71-95). -/
def outline : CStmt → OInfo
  | .let_ _ n _ _ _ (.select q) => .mk n .let_ [outlineSelect q]
  | .let_ _ n _ _ _ (.expr e) => .mk n .let_ [.mk [] .query (gAnd e [])]
  | .query _ q => outlineSelect q

end Vfilter.Fmt
