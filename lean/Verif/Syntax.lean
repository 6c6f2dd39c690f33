import Verif.Value
/-!
# Syntax trees (vfilter.go:349-383, 583-596, 772-826, 898-1048)

The grammar structs of the parser, one inductive type per struct.  Comments and source
positions are left out: `Parse` and `MultiParse` drop comment tokens before the parser
sees them (vfilter.go:186-203, 212-249).  Text captured from a token is kept as written.
-/

namespace Vfilter.Vql

mutual
/-- `_AndExpression` (vfilter.go:967-975). -/
inductive AndE where
  | mk (left : OrE) (right : List AndT)
/-- `_OpAndTerm` (vfilter.go:977-980). -/
inductive AndT where
  | mk (op : Str) (term : OrE)
/-- `_OrExpression` (vfilter.go:983-987). -/
inductive OrE where
  | mk (left : Cond) (right : List OrT)
/-- `_OpOrTerm` (vfilter.go:989-992). -/
inductive OrT where
  | mk (op : Str) (term : Cond)
/-- `_ConditionOperand` (vfilter.go:995-1000): `NOT c`, or an operand with an optional
comparison.  `NOT` takes everything to its right up to the next AND/OR, so a node with
both `Not` and `Right` cannot be parsed. -/
inductive Cond where
  | not (c : Cond)
  | cmp (left : AddE) (right : Option CmpT)
/-- `_OpComparison` (vfilter.go:1002-1005). -/
inductive CmpT where
  | mk (op : Str) (right : AddE)
/-- `_AdditionExpression` (vfilter.go:899-903). -/
inductive AddE where
  | mk (left : MulE) (right : List AddT)
/-- `_OpAddTerm` (vfilter.go:905-908). -/
inductive AddT where
  | mk (op : Str) (term : MulE)
/-- `_MultiplicationExpression` (vfilter.go:911-915). -/
inductive MulE where
  | mk (left : Member) (right : List MulT)
/-- `_OpFactor` (vfilter.go:917-920). -/
inductive MulT where
  | mk (op : Str) (factor : Value)
/-- `_MemberExpression` (vfilter.go:924-932). -/
inductive Member where
  | mk (left : Value) (right : List MTerm)
/-- `_OpMembershipTerm` (vfilter.go:934-939): `[start:end]`, `[index]`, `.field` and the
empty `[]` that the grammar also accepts. -/
inductive MTerm where
  | range (start stop : Option Value)
  | index (i : Value)
  | field (ident : Str)
  | empty
/-- `_CommaExpression` (vfilter.go:953-957). -/
inductive Comma where
  | mk (left : AndE) (right : List CommaT)
/-- `_OpArrayTerm` (vfilter.go:959-964): the term after the comma may be missing. -/
inductive CommaT where
  | mk (term : Option AndE)
/-- `_Value` (vfilter.go:1031-1048). -/
inductive Value where
  | sym (s : Sym)
  | sub (c : Comma)
  | str (tok : Str)
  | num (tok : Str)
  | bool (tok : Str)
  | null
/-- `_SymbolRef` (vfilter.go:1015-1029).  `node` is the identity of the Go struct: two
occurrences of the same text are different nodes, and each node carries its own caches
(`split_symbol`, `function`). -/
inductive Sym where
  | mk (node : Nat) (symbol : Str) (called : Bool) (params : List Arg)
/-- `_Args` (vfilter.go:790-803). -/
inductive Arg where
  | mk (name : Str) (rhs : ArgV)
/-- The right hand side of `_Args`: `{ SELECT ... }`, `[a, b]`, `[]` or an expression. -/
inductive ArgV where
  | expr (e : AndE)
  | select (q : Select)
  | array (c : Comma)
  | empty
/-- `_Select` (vfilter.go:583-596) with `_SelectExpression` (vfilter.go:804-807) inlined. -/
inductive Select where
  | mk (explain : Bool) (all : Bool) (cols : List Col) (from_ : Plugin)
      (where_ groupBy : Option Comma) (orderBy : Option (Str × Bool)) (limit : Option I64)
/-- `_AliasedExpression` (vfilter.go:809-825); `as_` is empty without `AS`. -/
inductive Col where
  | mk (body : ColBody) (as_ : Str)
/-- `*`, `{ SELECT ... }` or an expression (vfilter.go:816-818). -/
inductive ColBody where
  | star
  | expr (e : AndE)
  | select (q : Select)
/-- `Plugin` (vfilter.go:776-788). -/
inductive Plugin where
  | mk (name : Str) (call : Bool) (args : List Arg)
end

/-- `LetParameter` (vfilter.go:355-361): a name, with or without a default. -/
structure LetParam where
  name : Str
  dflt : Option ArgV

/-- The right hand side of a LET. -/
inductive LetBody where
  | expr (e : AndE)
  | select (q : Select)

/-- `VQL` (vfilter.go:364-383): a LET or a SELECT statement.  `mat` is true for `<=`. -/
inductive Stmt where
  | let_ (name : Str) (called : Bool) (params : List LetParam) (mat : Bool) (body : LetBody)
  | query (q : Select)

end Vfilter.Vql
