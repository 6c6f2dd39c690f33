import Verif.Ops
/-!
# Comparison operands and AND / OR chains (vfilter.go:1451-1599)

Terms are arbitrary state transformers, so the theorems cover any side effect a
term may have (function calls, logging, aggregation, ...).
-/

namespace Vfilter

section
variable {F X : Type} [FloatOps F]

/-- The comparison switch of `_ConditionOperand.Reduce` (vfilter.go:1575-1594).  The
operator is the token text; `matchF` is `scope.Match(pattern, target)`. -/
def condOp (W : World F X) (matchF : Val F X → Val F X → Bool) (op : Str) (lhs rhs : Val F X) : Bool :=
  if op = bs "IN" ∨ op = bs "in" ∨ op = bs "In" then memV W lhs rhs
  else if op = bs "<" then ltV W lhs rhs
  else if op = bs "=" then eqV W lhs rhs
  else if op = bs "!=" then !(eqV W lhs rhs)
  else if op = bs "<=" then ltV W lhs rhs || eqV W lhs rhs
  else if op = bs ">" then gtV W lhs rhs
  else if op = bs ">=" then gtV W lhs rhs || eqV W lhs rhs
  else if op = bs "=~" then matchF rhs lhs
  else false

/-- ASCII upper case of a byte. -/
def upperByte (b : UInt8) : UInt8 := if 97 ≤ b.toNat ∧ b.toNat ≤ 122 then b - 32 else b

/-- The operator text the parser stores for an operator written as `src`: tokens of type
`IN` (pattern `(?i)\bIN\b`, vfilter.go:164) are upper cased by
`participle.Upper("IN", "DESC")` (vfilter.go:194, 201, 206); other tokens are kept. -/
def opText (src : Str) : Str := if src.map upperByte = bs "IN" then bs "IN" else src

/-- A term of a chain: evaluating it may change the state. -/
abbrev Term (S V : Type) := S → V × S

/-- `NOT x` and comparisons of `_ConditionOperand.Reduce` (vfilter.go:1562-1599). -/
def notReduce {S : Type} (W : World F X) (x : Term S (Val F X)) : Term S (Val F X) := fun s =>
  match x s with
  | (v, s') => (.bool (!(truthy W v)), s')

/-- `_ConditionOperand.Reduce` with a right hand side (vfilter.go:1568-1598). -/
def condReduce {S : Type} (W : World F X) (matchF : Val F X → Val F X → Bool) (op : Str)
    (l r : Term S (Val F X)) : Term S (Val F X) := fun s =>
  match l s with
  | (a, s1) => match r s1 with
    | (b, s2) => (.bool (condOp W matchF op a b), s2)

/-- The loop of `_AndExpression.Reduce` (vfilter.go:1461-1475). -/
def andLoop {S : Type} (W : World F X) (last : Val F X) :
    List (Str × Term S (Val F X)) → Term S (Val F X)
  | [], s => (last, s)
  | (op, t) :: r, s =>
    match t s with
    | (v, s') =>
      if truthy W v = false then (.bool false, s')
      else andLoop W (if op = bs "&&" then v else .bool true) r s'

/-- `_AndExpression.Reduce` (vfilter.go:1451-1476). -/
def andReduce {S : Type} (W : World F X) (left : Term S (Val F X))
    (right : List (Str × Term S (Val F X))) : Term S (Val F X) := fun s =>
  match left s with
  | (v, s') =>
    match right with
    | [] => (v, s')
    | _ :: _ => if truthy W v = false then (.bool false, s') else andLoop W v right s'

/-- The loop of `_OrExpression.Reduce` (vfilter.go:1501-1513). -/
def orLoop {S : Type} (W : World F X) (last : Val F X) :
    List (Str × Term S (Val F X)) → Term S (Val F X)
  | [], s => (last, s)
  | (op, t) :: r, s =>
    match t s with
    | (v, s') =>
      if truthy W v = true then (if op = bs "||" then v else .bool true, s')
      else orLoop W v r s'

/-- `_OrExpression.Reduce` (vfilter.go:1491-1514). -/
def orReduce {S : Type} (W : World F X) (left : Term S (Val F X))
    (right : List (Str × Term S (Val F X))) : Term S (Val F X) := fun s =>
  match left s with
  | (v, s') =>
    match right with
    | [] => (v, s')
    | _ :: _ => if truthy W v = true then (v, s') else orLoop W v right s'

end
end Vfilter
