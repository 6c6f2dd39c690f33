import Verif.Parse
import Verif.Eval
/-!
# From parsed trees to evaluated trees

In Go the parser's structs are the evaluator's structs.  The model has two versions of them: with
comments (`Verif.Format`, for parser and formatter) and with an identity for every symbol node
(`Verif.Syntax`, for the evaluator's caches).  `low...` numbers the symbol nodes in the order in
which they are read and drops comments; `up...` drops the numbers.
-/

set_option linter.all false

namespace Vfilter.Fmt
open Vql

mutual
def lowAnd : CAnd → Nat → AndE × Nat
  | .mk _ l rs, n => let (l, n) := lowOr l n; let (rs, n) := lowAndTs rs n; (.mk l rs, n)
def lowAndTs : List CAndT → Nat → List AndT × Nat
  | [], n => ([], n)
  | .mk op t :: rs, n => let (t, n) := lowOr t n; let (rs, n) := lowAndTs rs n; (.mk op t :: rs, n)
def lowOr : COr → Nat → OrE × Nat
  | .mk _ l rs, n => let (l, n) := lowCond l n; let (rs, n) := lowOrTs rs n; (.mk l rs, n)
def lowOrTs : List COrT → Nat → List OrT × Nat
  | [], n => ([], n)
  | .mk op t :: rs, n => let (t, n) := lowCond t n; let (rs, n) := lowOrTs rs n; (.mk op t :: rs, n)
def lowCond : CCond → Nat → Cond × Nat
  | .not _ c, n => let (c, n) := lowCond c n; (.not c, n)
  | .cmp _ l none, n => let (l, n) := lowAdd l n; (.cmp l none, n)
  | .cmp _ l (some (.mk op r)), n =>
    let (l, n) := lowAdd l n; let (r, n) := lowAdd r n; (.cmp l (some (.mk op r)), n)
def lowAdd : CAdd → Nat → AddE × Nat
  | .mk _ l rs, n => let (l, n) := lowMul l n; let (rs, n) := lowAddTs rs n; (.mk l rs, n)
def lowAddTs : List CAddT → Nat → List AddT × Nat
  | [], n => ([], n)
  | .mk op t :: rs, n => let (t, n) := lowMul t n; let (rs, n) := lowAddTs rs n; (.mk op t :: rs, n)
def lowMul : CMul → Nat → MulE × Nat
  | .mk _ l rs, n => let (l, n) := lowMember l n; let (rs, n) := lowMulTs rs n; (.mk l rs, n)
def lowMulTs : List CMulT → Nat → List MulT × Nat
  | [], n => ([], n)
  | .mk op t :: rs, n => let (t, n) := lowVal t n; let (rs, n) := lowMulTs rs n; (.mk op t :: rs, n)
def lowMember : CMember → Nat → Member × Nat
  | .mk _ l rs, n => let (l, n) := lowVal l n; let (rs, n) := lowMTerms rs n; (.mk l rs, n)
def lowMTerms : List CMTerm → Nat → List MTerm × Nat
  | [], n => ([], n)
  | .range a b :: rs, n =>
    let (a, n) := lowOVal a n; let (b, n) := lowOVal b n; let (rs, n) := lowMTerms rs n
    (.range a b :: rs, n)
  | .index i :: rs, n => let (i, n) := lowVal i n; let (rs, n) := lowMTerms rs n; (.index i :: rs, n)
  | .field f :: rs, n => let (rs, n) := lowMTerms rs n; (.field f :: rs, n)
  | .empty :: rs, n => let (rs, n) := lowMTerms rs n; (.empty :: rs, n)
def lowOVal : Option CVal → Nat → Option Value × Nat
  | none, n => (none, n)
  | some v, n => let (v, n) := lowVal v n; (some v, n)
def lowComma : CComma → Nat → Comma × Nat
  | .mk _ l rs, n => let (l, n) := lowAnd l n; let (rs, n) := lowCommaTs rs n; (.mk l rs, n)
def lowCommaTs : List CCommaT → Nat → List CommaT × Nat
  | [], n => ([], n)
  | .mk _ _ none :: rs, n => let (rs, n) := lowCommaTs rs n; (.mk none :: rs, n)
  | .mk _ _ (some t) :: rs, n =>
    let (t, n) := lowAnd t n; let (rs, n) := lowCommaTs rs n; (.mk (some t) :: rs, n)
def lowVal : CVal → Nat → Value × Nat
  | .mk _ b, n => lowValB b n
def lowValB : CValB → Nat → Value × Nat
  | .sym s, n => let (s, n) := lowSym s n; (.sym s, n)
  | .sub c, n => let (c, n) := lowComma c n; (.sub c, n)
  | .str t, n => (.str t, n)
  | .num t, n => (.num t, n)
  | .bool t, n => (.bool t, n)
  | .null, n => (.null, n)
def lowSym : CSym → Nat → Sym × Nat
  | .mk _ s c ps, n => let (ps, m) := lowArgs ps (n + 1); (.mk n s c ps, m)
def lowArgs : List CArg → Nat → List Arg × Nat
  | [], n => ([], n)
  | a :: as, n => let (a, n) := lowArg a n; let (as, n) := lowArgs as n; (a :: as, n)
def lowArg : CArg → Nat → Arg × Nat
  | .mk _ name v, n => let (v, n) := lowArgV v n; (.mk name v, n)
def lowArgV : CArgV → Nat → ArgV × Nat
  | .expr e, n => let (e, n) := lowAnd e n; (.expr e, n)
  | .select q, n => let (q, n) := lowSelect q n; (.select q, n)
  | .array c, n => let (c, n) := lowComma c n; (.array c, n)
  | .empty, n => (.empty, n)
def lowOComma : Option CComma → Nat → Option Comma × Nat
  | none, n => (none, n)
  | some v, n => let (v, n) := lowComma v n; (some v, n)
def lowSelect : CSelect → Nat → Select × Nat
  | .mk _ ex all cols fr wh gb ob lim, n =>
    let (cols, n) := lowCols cols n; let (fr, n) := lowPlugin fr n
    let (wh, n) := lowOComma wh n; let (gb, n) := lowOComma gb n
    (.mk ex all cols fr wh gb ob (lim.map (BitVec.ofInt 64)), n)
def lowCols : List CCol → Nat → List Col × Nat
  | [], n => ([], n)
  | .mk _ b a :: cs, n =>
    let (b, n) := lowColB b n; let (cs, n) := lowCols cs n; (.mk b a :: cs, n)
def lowColB : CColB → Nat → ColBody × Nat
  | .star, n => (.star, n)
  | .expr e, n => let (e, n) := lowAnd e n; (.expr e, n)
  | .select q, n => let (q, n) := lowSelect q n; (.select q, n)
def lowPlugin : CPlugin → Nat → Plugin × Nat
  | .mk s c as, n => let (as, n) := lowArgs as n; (.mk s c as, n)
end

def lowParam : CLetParam → Nat → LetParam × Nat
  | .name s, n => (⟨s, none⟩, n)
  | .dflt (.mk _ s v), n => let (v, n) := lowArgV v n; (⟨s, some v⟩, n)

def lowParams : List CLetParam → Nat → List LetParam × Nat
  | [], n => ([], n)
  | p :: ps, n => let (p, n) := lowParam p n; let (ps, n) := lowParams ps n; (p :: ps, n)

def lowStmt : CStmt → Nat → Stmt × Nat
  | .let_ _ name called ps op b, n =>
    let (ps, n) := lowParams ps n
    match b with
    | .expr e => let (e, n) := lowAnd e n; (.let_ name called ps (op = bs "<=") (.expr e), n)
    | .select q => let (q, n) := lowSelect q n; (.let_ name called ps (op = bs "<=") (.select q), n)
  | .query _ q, n => let (q, n) := lowSelect q n; (.query q, n)

def lowStmts : List CStmt → Nat → List Stmt
  | [], _ => []
  | s :: ss, n => let (s, n) := lowStmt s n; s :: lowStmts ss n

mutual
def upAnd : AndE → CAnd
  | .mk l rs => .mk [] (upOr l) (upAndTs rs)
def upAndTs : List AndT → List CAndT
  | [] => []
  | .mk op t :: rs => .mk op (upOr t) :: upAndTs rs
def upOr : OrE → COr
  | .mk l rs => .mk [] (upCond l) (upOrTs rs)
def upOrTs : List OrT → List COrT
  | [] => []
  | .mk op t :: rs => .mk op (upCond t) :: upOrTs rs
def upCond : Cond → CCond
  | .not c => .not [] (upCond c)
  | .cmp l none => .cmp [] (upAdd l) none
  | .cmp l (some (.mk op r)) => .cmp [] (upAdd l) (some (.mk op (upAdd r)))
def upAdd : AddE → CAdd
  | .mk l rs => .mk [] (upMul l) (upAddTs rs)
def upAddTs : List AddT → List CAddT
  | [] => []
  | .mk op t :: rs => .mk op (upMul t) :: upAddTs rs
def upMul : MulE → CMul
  | .mk l rs => .mk [] (upMember l) (upMulTs rs)
def upMulTs : List MulT → List CMulT
  | [] => []
  | .mk op t :: rs => .mk op (upVal t) :: upMulTs rs
def upMember : Member → CMember
  | .mk l rs => .mk [] (upVal l) (upMTerms rs)
def upMTerms : List MTerm → List CMTerm
  | [] => []
  | .range a b :: rs => .range (upOVal a) (upOVal b) :: upMTerms rs
  | .index i :: rs => .index (upVal i) :: upMTerms rs
  | .field f :: rs => .field f :: upMTerms rs
  | .empty :: rs => .empty :: upMTerms rs
def upOVal : Option Value → Option CVal
  | none => none
  | some v => some (upVal v)
def upComma : Comma → CComma
  | .mk l rs => .mk [] (upAnd l) (upCommaTs rs)
def upCommaTs : List CommaT → List CCommaT
  | [] => []
  | .mk none :: rs => .mk [] [] none :: upCommaTs rs
  | .mk (some t) :: rs => .mk [] [] (some (upAnd t)) :: upCommaTs rs
def upVal : Value → CVal
  | .sym s => .mk [] (.sym (upSym s))
  | .sub c => .mk [] (.sub (upComma c))
  | .str t => .mk [] (.str t)
  | .num t => .mk [] (.num t)
  | .bool t => .mk [] (.bool t)
  | .null => .mk [] .null
def upSym : Sym → CSym
  | .mk _ s c ps => .mk [] s c (upArgs ps)
def upArgs : List Arg → List CArg
  | [] => []
  | a :: as => upArg a :: upArgs as
def upArg : Arg → CArg
  | .mk name v => .mk [] name (upArgV v)
def upArgV : ArgV → CArgV
  | .expr e => .expr (upAnd e)
  | .select q => .select (upSelect q)
  | .array c => .array (upComma c)
  | .empty => .empty
def upOComma : Option Comma → Option CComma
  | none => none
  | some v => some (upComma v)
def upSelect : Select → CSelect
  | .mk ex all cols fr wh gb ob lim =>
    .mk [] ex all (upCols cols) (upPlugin fr) (upOComma wh) (upOComma gb) ob (lim.map BitVec.toInt)
def upCols : List Col → List CCol
  | [] => []
  | .mk b a :: cs => .mk [] (upColB b) a :: upCols cs
def upColB : ColBody → CColB
  | .star => .star
  | .expr e => .expr (upAnd e)
  | .select q => .select (upSelect q)
def upPlugin : Plugin → CPlugin
  | .mk s c as => .mk s c (upArgs as)
end

/-- `_AliasedExpression.GetName` (vfilter.go:828-850). -/
def columnName (num : Str → Str) : Col → Str
  | .mk b [] => ident (trim (fCol isBetter num 0 (.mk [] (upColB b) []) (Vis.new toStringOpts false)).text)
  | .mk _ a => ident a

end Vfilter.Fmt
