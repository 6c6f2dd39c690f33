import Verif.Ops
import Verif.Scope
import Verif.Conc
/-!
# Value functions (functions/functions.go), lambdas (lambda.go), materialized queries
(materializer/in_memory.go)
-/

namespace Vfilter
variable {F X : Type} [FloatOps F]

/-! ## len -/

/-- `LenFunction.Call` (functions/functions.go:240-266) on a parsed argument.  `goLen` is
`reflect.Value.Len` of host objects that are Go maps, slices, arrays or strings. -/
def lenF (goLen : X → Option Nat) : Val F X → Nat
  | .arr l => l.length
  | .str s => s.length
  | .dict d => d.length
  | .obj x => (goLen x).getD 0
  | _ => 0

/-! ## get -/

/-- `strings.Split(s, ".")`; `cur` is the current component. -/
def splitDotAux (cur : Str) : Str → List Str
  | [] => [cur]
  | c :: r => if c = 46 then cur :: splitDotAux [] r else splitDotAux (cur ++ [c]) r

def splitDot (s : Str) : List Str := splitDotAux [] s

/-- Go's `strings.Split` for a separator that is not empty: `cur` is the part read so far, `skip` what
is left of a separator found. -/
def splitByAux (sep cur : Str) : Nat → Str → List Str
  | _, [] => [cur]
  | skip + 1, _ :: r => splitByAux sep cur skip r
  | 0, c :: r =>
    if sep.isPrefixOf (c :: r) then cur :: splitByAux sep [] (sep.length - 1) r
    else splitByAux sep (cur ++ [c]) 0 r

def splitBy (sep s : Str) : List Str := splitByAux sep [] 0 s

/-- A digit. -/
def isDigit (c : UInt8) : Bool := decide (48 ≤ c.toNat ∧ c.toNat ≤ 57)

/-- Value of a string of digits. -/
def digitsVal (s : Str) : Nat := s.foldl (fun n c => n * 10 + (c.toNat - 48)) 0

/-- Go's `strconv.Atoi` for a 64 bit `int`. -/
def atoi (s : Str) : Option I64 :=
  let (neg, ds) := match s with
    | 45 :: r => (true, r)
    | 43 :: r => (false, r)
    | _ => (false, s)
  if ds.isEmpty || !ds.all isDigit then none
  else
    let v : Int := if neg then -(digitsVal ds) else digitsVal ds
    if -(2 ^ 63) ≤ v ∧ v < 2 ^ 63 then some (BitVec.ofInt 64 v) else none

/-- One step of `_GetFunction.Call` (functions/functions.go:147-158). -/
def getStep (W : World F X) (v : Val F X) (member : Str) : Option (Val F X) :=
  let r := match atoi member with
    | some i => assocV W v (.val (.int i))
    | none => assocV W v (.val (.str member))
  if r.2 then some r.1 else none

/-- The loop of `_GetFunction.Call` (functions/functions.go:146-164). -/
def getLoop (W : World F X) (v : Val F X) : List Str → Val F X
  | [] => v
  | m :: ms => match getStep W v m with
    | some v' => getLoop W v' ms
    | none => .null

/-- `_GetFunction.Call` (functions/functions.go:128-165) with an item.  Without `item` the
first step resolves a name in the scope (140-142), an integer there is not present. -/
def getF (W : World F X) (item : Val F X) (member : Str) : Val F X :=
  getLoop W item (splitDot member)

/-- `get(member=...)` without item; `resolve` is `scope.Resolve`. -/
def getScopeF (W : World F X) (resolve : Str → Option (Val F X)) (member : Str) : Val F X :=
  match splitDot member with
  | [] => .null
  | m :: ms => match atoi m with
    | some _ => .null
    | none => match resolve m with
      | some v => getLoop W v ms
      | none => .null

/-! ## encode -/

/-- A lower case hex digit. -/
def hexChar (n : Nat) : UInt8 := if n < 10 then UInt8.ofNat (48 + n) else UInt8.ofNat (87 + n)

/-- Go's `hex.EncodeToString`. -/
def hexEncode (s : Str) : Str := s.flatMap (fun c => [hexChar (c.toNat / 16), hexChar (c.toNat % 16)])

/-- Result of `encode`. -/
inductive EncOut where
  | str (s : Str)
  | null
  | other

/-- `_EncodeFunction.Call` (functions/functions.go:182-233).  `sprint` is
`fmt.Sprintf("%v", x)` or the object's `String()`; `error` objects (207-208) and
"utf16" (223-232, `other`) are not modelled. -/
def encodeF (sprint : Val F X → Str) (v : Val F X) (typ : Str) : EncOut :=
  let s := match v with
    | .str s => s
    | v => sprint v
  if typ = bs "hex" then .str (hexEncode s)
  else if typ = bs "string" then .str s
  else if typ = bs "utf16" then .other
  else .null

/-! ## timestamp -/

/-- Go's integer division on `int64` (truncates). -/
def goDiv (a b : Int) : Int := Int.tdiv a b

/-- `_Timestamp.Call` (functions/functions.go:52-69): nanoseconds since the epoch.  The
subtraction cannot overflow. -/
def timestampF (epoch winFileTime : I64) : Val F X :=
  if epoch.toInt > 0 then .time (epoch.toInt * 1000000000)
  else if winFileTime.toInt > 0 then .time ((goDiv winFileTime.toInt 10000000 - 11644473600) * 1000000000)
  else .null

/-! ## Lambdas -/

/-- `vars` of `Lambda.Reduce` (lambda.go:47-50). -/
def lambdaVars {V : Type} : List Str → List V → OD V → OD V
  | p :: ps, v :: vs, d => lambdaVars ps vs (d.set p v)
  | _, _, d => d

/-- `Lambda.Reduce` (lambda.go:40-57) for a lambda with parameters `params` whose body is
an arbitrary function of the scope it runs in.  `assocV` is `scope.Associative` on
variable sets, dicts are `mk`.  The result is the value and the heap with the new scope
(closing it, line 53, does not change what other scopes see).  `nul` is `Null{}`. -/
def lambdaReduce {R V W : Type} [Inhabited R] (grow : Nat → Nat) (mk : OD V → R) (nul : W)
    (params : List Str) (body : Heap R V → Nat → W) (h : Heap R V) (s : Nat) (args : List V) : W :=
  if params.length ≠ args.length then nul
  else
    let h1 := h.copy s
    let sub := h.scopes.length
    body (h1.appendVars grow sub (mk (lambdaVars params args []))) sub

/-! ## Materialized queries -/

/-- `InMemoryMatrializer.Associative` (materializer/in_memory.go:64-71) in the dispatcher
(protocols/protocol_associative.go:45-119): a string key takes the column of all rows
(69-79); other keys go to the registered implementations, of which this one comes first
unless the host registers others later (scope/scope.go:591); it delegates to the slice of
rows. -/
def matAssoc (W : World F X) (rows : List (Val F X)) (k : Key F X) : Val F X × Bool :=
  match k with
  | .val (.str s) => (.arr (queryCol W rows s), true)
  | k => match searchA W.assocI (.query rows) k with
    | some r => r
    | none => assocV W (.arr rows) k

/-- One reader of a materialized query: `InMemoryMatrializer.Eval`
(materializer/in_memory.go:21-39).  `rest` are the rows not yet sent. -/
structure EmitSt (R : Type) where
  rest : List R
  out : List R
  cancelled : Bool
  closed : Bool

/-- Steps of the goroutine of `InMemoryMatrializer.Eval` (materializer/in_memory.go:25-36). -/
inductive EmitStep {R : Type} : By → EmitSt R → EmitSt R → Prop where
  | send {r rs out c} : EmitStep .consumer ⟨r :: rs, out, c, false⟩ ⟨rs, out ++ [r], c, false⟩
  | finish {out c} : EmitStep .proc ⟨[], out, c, false⟩ ⟨[], out, c, true⟩
  | abort {r rs out} : EmitStep .proc ⟨r :: rs, out, true, false⟩ ⟨r :: rs, out, true, true⟩
  | cancel {rest out cl} : EmitStep .env ⟨rest, out, false, cl⟩ ⟨rest, out, true, cl⟩

/-- A materialized query with any number of readers.  Nothing ever writes `rows`
(materializer/in_memory.go:12-14). -/
structure MatSt (R : Type) where
  rows : List R
  readers : List (EmitSt R)

/-- The query is selected from (`Eval`, a new goroutine), and the readers run in any
interleaving. -/
inductive MatStep {R : Type} : By → MatSt R → MatSt R → Prop where
  | eval {m : MatSt R} : MatStep .env m { m with readers := m.readers ++ [⟨m.rows, [], false, false⟩] }
  | run {m : MatSt R} {b : By} {i : Nat} {e e' : EmitSt R} : m.readers[i]? = some e → EmitStep b e e' →
      MatStep b m { m with readers := m.readers.set i e' }

/-- `types.Materialize` (types/stored_query.go:14-33) reads a stored query to its end: the
rows in the order delivered. -/
def materialize (delivered : List (Val F X)) : List (Val F X) :=
  delivered.foldl (fun result item => result ++ [item]) []

end Vfilter
