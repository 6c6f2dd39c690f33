import Verif.RoundNum
/-!
# The condition of C49 can be computed
-/

set_option linter.all false

namespace Vfilter.Fmt

section
variable (num : Str → Str)

mutual
def dAnd : (e : CAnd) → Decidable (kAnd num e)
  | .mk _ l rs => @instDecidableAnd _ _ (dOr l) (dAndTs rs)
def dAndTs : (e : List CAndT) → Decidable (kAndTs num e)
  | [] => isTrue trivial
  | .mk _ t :: rs => @instDecidableAnd _ _ (dOr t) (dAndTs rs)
def dOr : (e : COr) → Decidable (kOr num e)
  | .mk _ l rs => @instDecidableAnd _ _ (dCond l) (dOrTs rs)
def dOrTs : (e : List COrT) → Decidable (kOrTs num e)
  | [] => isTrue trivial
  | .mk _ t :: rs => @instDecidableAnd _ _ (dCond t) (dOrTs rs)
def dCond : (e : CCond) → Decidable (kCond num e)
  | .not _ c => dCond c
  | .cmp _ l r => @instDecidableAnd _ _ (dAdd l) (dCmp r)
def dCmp : (e : Option CCmpT) → Decidable (kCmp num e)
  | none => isTrue trivial
  | some (.mk _ r) => dAdd r
def dAdd : (e : CAdd) → Decidable (kAdd num e)
  | .mk _ l rs => @instDecidableAnd _ _ (dMul l) (dAddTs rs)
def dAddTs : (e : List CAddT) → Decidable (kAddTs num e)
  | [] => isTrue trivial
  | .mk _ t :: rs => @instDecidableAnd _ _ (dMul t) (dAddTs rs)
def dMul : (e : CMul) → Decidable (kMul num e)
  | .mk _ l rs => @instDecidableAnd _ _ (dMember l) (dMulTs rs)
def dMulTs : (e : List CMulT) → Decidable (kMulTs num e)
  | [] => isTrue trivial
  | .mk _ t :: rs => @instDecidableAnd _ _ (dVal t) (dMulTs rs)
def dMember : (e : CMember) → Decidable (kMember num e)
  | .mk _ l rs => @instDecidableAnd _ _ (dVal l) (dMTerms rs)
def dMTerms : (e : List CMTerm) → Decidable (kMTerms num e)
  | [] => isTrue trivial
  | .range i j :: rs => @instDecidableAnd _ _ (dOptVal i) (@instDecidableAnd _ _ (dOptVal j) (dMTerms rs))
  | .index i :: rs => @instDecidableAnd _ _ (dVal i) (dMTerms rs)
  | .field _ :: rs => dMTerms rs
  | .empty :: _ => isFalse (fun h => h)
def dOptVal : (e : Option CVal) → Decidable (kOptVal num e)
  | none => isTrue trivial
  | some x => dVal x
def dComma : (e : CComma) → Decidable (kComma num e)
  | .mk _ l rs => @instDecidableAnd _ _ (dAnd l) (dCommaTs rs)
def dCommaTs : (e : List CCommaT) → Decidable (kCommaTs num e)
  | [] => isTrue trivial
  | .mk _ _ none :: rs => dCommaTs rs
  | .mk _ _ (some t) :: rs => @instDecidableAnd _ _ (dAnd t) (dCommaTs rs)
def dVal : (e : CVal) → Decidable (kVal num e)
  | .mk _ b => dValB b
def dValB : (e : CValB) → Decidable (kValB num e)
  | .sym s => dSym s
  | .sub c => dComma c
  | .str _ => isTrue trivial
  | .num t => inferInstanceAs (Decidable (IsTok .number (num t) ∧ num (num t) = num t))
  | .bool _ => isTrue trivial
  | .null => isTrue trivial
def dSym : (e : CSym) → Decidable (kSym num e)
  | .mk _ _ _ ps => dArgs ps
def dArgs : (e : List CArg) → Decidable (kArgs num e)
  | [] => isTrue trivial
  | a :: as => @instDecidableAnd _ _ (dArg a) (dArgs as)
def dArg : (e : CArg) → Decidable (kArg num e)
  | .mk _ _ r => dArgV r
def dArgV : (e : CArgV) → Decidable (kArgV num e)
  | .expr e => dAnd e
  | .select q => dSelect q
  | .array c => dComma c
  | .empty => isTrue trivial
def dSelect : (e : CSelect) → Decidable (kSelect num e)
  | .mk _ _ _ cols from_ wh gb _ _ => @instDecidableAnd _ _ (dCols cols)
      (@instDecidableAnd _ _ (dPlugin from_) (@instDecidableAnd _ _ (dOptComma wh) (dOptComma gb)))
def dOptComma : (e : Option CComma) → Decidable (kOptComma num e)
  | none => isTrue trivial
  | some c => dComma c
def dCols : (e : List CCol) → Decidable (kCols num e)
  | [] => isTrue trivial
  | c :: cs => @instDecidableAnd _ _ (dCol c) (dCols cs)
def dCol : (e : CCol) → Decidable (kCol num e)
  | .mk _ b a => dColB b a
def dColB : (e : CColB) → (a : Str) → Decidable (kColB num e a)
  | .star, a => inferInstanceAs (Decidable (a = []))
  | .expr e, _ => dAnd e
  | .select q, _ => dSelect q
def dPlugin : (e : CPlugin) → Decidable (kPlugin num e)
  | .mk _ _ args => dArgs args
end

def dParam : (p : CLetParam) → Decidable (kParam num p)
  | .name n => inferInstanceAs (Decidable ((unquoteIdent n).getD [] = n))
  | .dflt a => dArg num a

def dBody : (b : CLetBody) → Decidable (kBody num b)
  | .expr e => dAnd num e
  | .select q => dSelect num q

instance : (t : CStmt) → Decidable (kStmt num t)
  | .let_ _ _ called ps _ b =>
    let _ : ∀ p, Decidable (kParam num p) := dParam num
    let _ := dBody num b
    inferInstanceAs (Decidable ((called = true → ps ≠ []) ∧ (∀ p ∈ ps, kParam num p) ∧
      (ps.map paramName).Nodup ∧ kBody num b))
  | .query _ q => dSelect num q

end

/-- Numbers in a query: the condition is that they have a value. -/
theorem kNum_iff (t : Str) : kValB numberText (.num t) ↔ IsNum t := by
  constructor
  · intro h
    have h1 : IsTok .number (numberText t) := h.1
    unfold IsNum
    cases hi : parseInt0 t with
    | some i => left; simp
    | none =>
      right
      intro hf
      have ht : numberText t = bs "FALSE" := by unfold numberText; rw [hi, hf]
      rw [ht] at h1
      revert h1
      decide +kernel
  · intro h
    exact ⟨(numberText_tok h).1, (numberText_tok h).2.1⟩

end Vfilter.Fmt
