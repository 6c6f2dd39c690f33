import Verif.Value
/-!
# Operator dispatchers (protocols/*.go)

Every dispatcher is modelled as in the code: inlined built-in cases first, then
the registered implementations in order, then the default.  Operands are taken
after `maybeReduce` (protocols/common.go:9-15), except for the divisor, which
`Div` does not reduce.
-/

namespace Vfilter
open FloatOps

/-- A registered two operand implementation (e.g. `AddProtocol`,
protocols/protocol_add.go:12-15). -/
structure BinImpl (V R : Type) where
  applicable : V → V → Bool
  run : V → V → R

/-- A registered one operand implementation (e.g. `BoolProtocol`,
protocols/protocol_bool.go:85-88). -/
structure UnImpl (V R : Type) where
  applicable : V → Bool
  run : V → R

/-- `AddImpl(elements...)`: every element is put in front
(protocols/protocol_add.go:109-113, identical in all dispatchers). -/
def addImpl {α : Type} (impls : List α) (elements : List α) : List α :=
  elements.foldl (fun acc impl => impl :: acc) impls

/-- The `for i, impl := range self.impl { if impl.Applicable(a, b) {...} }` loop
(protocols/protocol_add.go:90-95, identical in all dispatchers). -/
def search2 {V R : Type} (impls : List (BinImpl V R)) (a b : V) : Option R :=
  match impls with
  | [] => none
  | i :: r => if i.applicable a b then some (i.run a b) else search2 r a b

/-- Same loop for one operand (protocols/protocol_bool.go:67-72). -/
def search1 {V R : Type} (impls : List (UnImpl V R)) (a : V) : Option R :=
  match impls with
  | [] => none
  | i :: r => if i.applicable a then some (i.run a) else search1 r a

/-- Key of an associative lookup: a value, or the `[]*int64{start, end}` made by a
range expression (vfilter.go:1363-1382). -/
inductive Key (F X : Type) where
  | val (v : Val F X)
  | range (s e : Option I64)

/-- A registered `AssociativeProtocol` (protocols/protocol_associative.go:25-34). -/
structure AssocImpl (F X : Type) where
  applicable : Val F X → Key F X → Bool
  run : Val F X → Key F X → Val F X × Bool

/-- The registered implementations of a scope's dispatcher (scope/dispatcher.go:24-60)
other than the built-in `_StoredQueryAdd`, `_StoredQueryBool`, `_DictEq`,
`_StoredQueryAssociative` (protocols/builtin.go:7-40), which are registered before
any other one and therefore searched last; and the reflection based behaviour of
host objects, which is a parameter. -/
structure World (F X : Type) where
  addI : List (BinImpl (Val F X) (Val F X)) := []
  subI : List (BinImpl (Val F X) (Val F X)) := []
  mulI : List (BinImpl (Val F X) (Val F X)) := []
  divI : List (BinImpl (Val F X) (Val F X)) := []
  eqI : List (BinImpl (Val F X) Bool) := []
  ltI : List (BinImpl (Val F X) Bool) := []
  gtI : List (BinImpl (Val F X) Bool) := []
  memI : List (BinImpl (Val F X) Bool) := []
  regexI : List (BinImpl (Val F X) Bool) := []
  boolI : List (UnImpl (Val F X) Bool) := []
  iterI : List (UnImpl (Val F X) (List (Val F X))) := []
  assocI : List (AssocImpl F X) := []
  /-- `DefaultAssociative` on a host object (struct fields and methods by
  reflection, protocols/protocol_associative.go:245-284), a `Scope`
  (line 56) or a `LazyRow` (line 64). -/
  objGet : X → Str → Val F X × Bool := fun _ _ => (.null, false)
  /-- methods of `time.Time` by reflection (same lines). -/
  timeGet : Int → Str → Val F X × Bool := fun _ _ => (.null, false)
  /-- the `@Items`, `@Keys`, ... dict methods (lines 83-86). -/
  dictMethod : List (Str × Val F X) → Str → Val F X × Bool := fun _ _ => (.null, false)

/-- Result of an operation that may crash the Go program. -/
inductive Outcome (α : Type) where
  | ok (a : α)
  | panic
  deriving DecidableEq, Repr, Inhabited

/-- The memory guard of string addition and repetition. -/
def memLimit : Nat := 100000000

section
variable {F X : Type} [FloatOps F]

/-! ## Arithmetic -/

/-- `intAdd` (protocols/protocol_add.go:35-48). -/
def intAdd (lhs : I64) : Val F X → Option (Val F X)
  | .int r => some (.int (lhs + r))
  | .float r => some (.float (add (ofI64 lhs) r))
  | _ => none

/-- `convertToSlice` (protocols/protocol_add.go:115-135). -/
def convertToSlice : Val F X → List (Val F X)
  | .arr l => l
  | .query rows => rows
  | v => [v]

/-- `AddDispatcher.Add`, the inlined type switch (protocols/protocol_add.go:54-88). -/
def addSwitch (a b : Val F X) : Option (Val F X) :=
  match a with
  | .str s =>
    match b with
    | .str t => some (if s.length + t.length > memLimit then .null else .str (s ++ t))
    | _ => none
  | .null => some .null
  | .int i => intAdd i b
  | .float f => (b.toFloat).map (fun g => .float (add f g))
  | _ => none

/-- `_StoredQueryAdd` (protocols/stored_query.go:84-97), searched after all other
registered implementations. -/
def storedQueryAdd (a b : Val F X) : Option (Val F X) :=
  match a, b with
  | .query r, .query r' => some (.arr (r ++ r'))
  | _, _ => none

/-- `AddDispatcher.Add` (protocols/protocol_add.go:50-107). -/
def addV (W : World F X) (a b : Val F X) : Val F X :=
  match addSwitch a b with
  | some r => r
  | none =>
    match search2 W.addI a b with
    | some r => r
    | none =>
      match storedQueryAdd a b with
      | some r => r
      | none =>
        if a.isArr || b.isArr then .arr (convertToSlice a ++ convertToSlice b) else .null

/-- `SubDispatcher.Sub` (protocols/protocol_sub.go:23-67). -/
def subV (W : World F X) (a b : Val F X) : Val F X :=
  let fallback : Val F X :=
    match a.toInt64, b.toInt64 with
    | some x, some y => .int (x - y)
    | _, _ => (search2 W.subI a b).getD .null
  let second : Val F X :=
    match b with
    | .null => .null
    | .float t => match a.toFloat with
      | some f => .float (sub f t)
      | none => fallback
    | _ => fallback
  match a with
  | .null => .null
  | .float t => match b.toFloat with
    | some g => .float (sub t g)
    | none => second
  | _ => second

/-- Go's `strings.Repeat` (documented behaviour: panics when the count is negative
or the resulting length overflows an `int`). -/
def goRepeat (s : Str) (count : I64) : Outcome Str :=
  if count.toInt < 0 then .panic
  else if s.length * count.toNat > 2 ^ 63 - 1 then .panic
  else .ok (List.replicate count.toNat s).flatten

/-- `MulDispatcher.Mul` (protocols/protocol_mul.go:25-82).  `memory` is computed in
`uint64` as in the code. -/
def mulV (W : World F X) (a b : Val F X) : Outcome (Val F X) :=
  let fallback : Outcome (Val F X) :=
    match a.toInt64, b.toInt64 with
    | some x, some y => .ok (.int (x * y))
    | _, _ => .ok ((search2 W.mulI a b).getD .null)
  let second : Outcome (Val F X) :=
    match b with
    | .null => .ok .null
    | .float t => match a.toFloat with
      | some f => .ok (.float (mul t f))
      | none => fallback
    | _ => fallback
  match a with
  | .null => .ok .null
  | .str s => match b.toInt64 with
    | some n =>
      let memory : BitVec 64 := BitVec.ofNat 64 s.length * n
      if memory.toNat > memLimit then .ok .null
      else match goRepeat s n with
        | .ok r => .ok (.str r)
        | .panic => .panic
    | none => second
  | .float t => match b.toFloat with
    | some g => .ok (.float (mul t g))
    | none => second
  | _ => second

/-- An operand as passed to a dispatcher: a value, or a `LazyExpr` that would
reduce to a value. -/
inductive Opnd (F X : Type) where
  | val (v : Val F X)
  | lazy (v : Val F X)

/-- `maybeReduce` (protocols/common.go:9-15). -/
def Opnd.reduce : Opnd F X → Val F X
  | .val v => v
  | .lazy v => v

/-- What a type switch / `utils.ToFloat` sees of an operand that was not reduced:
a `LazyExpr` matches none of the cases. -/
def Opnd.raw : Opnd F X → Option (Val F X)
  | .val v => some v
  | .lazy _ => none

/-- `DivDispatcher.Div` (protocols/protocol_div.go:23-77): `a` is reduced, `b` is
not.  Registered implementations see a lazy `b` as an object; simplified: they get
the value it stands for. -/
def divV (W : World F X) (a' b' : Opnd F X) : Val F X :=
  let a := a'.reduce
  let bFloat : Option F := b'.raw.bind Val.toFloat
  let impls : Val F X := (search2 W.divI a b'.reduce).getD .null
  let fallback : Val F X :=
    match a.toFloat, bFloat with
    | some x, some y => if eq y zero then .null else .float (div x y)
    | _, _ => impls
  let second : Val F X :=
    match b'.raw with
    | some .null => .null
    | some (.float t) => match a.toFloat with
      | some x => if eq x zero then .null else .float (div x t)
      | none => fallback
    | _ => fallback
  match a with
  | .null => .null
  | .float t => match bFloat with
    | some y => if eq y zero then .null else .float (div t y)
    | none => second
  | _ => second

/-! ## Truth -/

/-- `BoolDispatcher.Bool` (protocols/protocol_bool.go:20-76) with
`_StoredQueryBool` (protocols/stored_query.go:55-82) searched last. -/
def truthy (W : World F X) (a : Val F X) : Bool :=
  match a with
  | .null => false
  | .bool b => b
  | .int i => decide (0 < i.toInt)
  | .float f => lt zero f
  | .str s => decide (0 < s.length)
  | .dict d => decide (0 < d.length)
  | .arr l => decide (0 < l.length)
  | _ =>
    match search1 W.boolI a with
    | some r => r
    | none => match a with
      | .query rows => decide (0 < rows.length)
      | _ => false

/-! ## Comparison -/

/-- `intEq` (protocols/protocol_lt.go:45-55). -/
def intEq (lhs : I64) : Val F X → Bool
  | .bool b => lhs == (if b then 1#64 else 0#64)
  | .int r => lhs == r
  | .float r => eq (ofI64 lhs) r
  | _ => false

/-- `intLt` (protocols/protocol_lt.go:33-43). -/
def intLt (lhs : I64) : Val F X → Bool
  | .bool b => I64.lt lhs (if b then 1#64 else 0#64)
  | .int r => I64.lt lhs r
  | .float r => lt (ofI64 lhs) r
  | _ => false

/-- `intGt` (protocols/protocol_gt.go:25-35): unlike `intLt`, no `bool` case. -/
def intGt (lhs : I64) : Val F X → Bool
  | .int r => I64.lt r lhs
  | .float r => lt r (ofI64 lhs)
  | _ => false

/-- Equality of `time.Time.UnixNano()`: an `int64` that wraps around. -/
def unixNanoEq (a b : Int) : Bool := BitVec.ofInt 64 a == BitVec.ofInt 64 b

/-- `EqDispatcher.Eq`, the inlined type switch (protocols/protocol_eq.go:30-69). -/
def eqSwitch (a b : Val F X) : Option Bool :=
  match a with
  | .null => some b.isNil
  | .str s => match b with
    | .str t => some (s == t)
    | _ => none
  | .int i => some (intEq i b)
  | .bool x => match b with
    | .bool y => some (x == y)
    | _ => none
  | .float f => (b.toFloat).map (fun g => eq f g)
  | .time t => (b.toTime).map (fun u => unixNanoEq t u)
  | _ => none

/-- The numeric comparison after the switch (protocols/protocol_eq.go:71-77). -/
def eqNum (a b : Val F X) : Option Bool :=
  match a.toInt64, b.toInt64 with
  | some x, some y => some (x == y)
  | _, _ => none

mutual
/-- `EqDispatcher.Eq` (protocols/protocol_eq.go:26-93); `_DictEq` is searched after
all other registered implementations. -/
def eqV (W : World F X) (a b : Val F X) : Bool :=
  match eqSwitch a b with
  | some r => r
  | none => match eqNum a b with
    | some r => r
    | none => match a with
      | .arr la => match b with
        | .arr lb => eqArr W la lb
        | _ => (search2 W.eqI a b).getD false
      | .dict da => match b with
        | .dict db => match search2 W.eqI a b with
          | some r => r
          | none => decide (da.length = db.length) && eqDict W da db
        | _ => (search2 W.eqI a b).getD false
      | _ => (search2 W.eqI a b).getD false
/-- `_ArrayEq` (protocols/protocol_eq.go:101-117). -/
def eqArr (W : World F X) (la lb : List (Val F X)) : Bool :=
  match la with
  | [] => match lb with
    | [] => true
    | _ :: _ => false
  | x :: xs => match lb with
    | [] => false
    | y :: ys => eqV W x y && eqArr W xs ys
/-- The key loop of `_DictEq.Eq` (protocols/ordereddict.go:19-33).  The values of
`a` are read from the key list directly, which is the same for a real dict (no
duplicate keys). -/
def eqDict (W : World F X) (da db : List (Str × Val F X)) : Bool :=
  match da with
  | [] => true
  | (k, v) :: r => match OD.get db k with
    | none => false
    | some w => eqV W v w && eqDict W r db
end

/-- `LtDispatcher.Lt` (protocols/protocol_lt.go:57-154).  `ToInt64` of an integer
or boolean always succeeds, so line 78's failure branch is omitted. -/
def ltV (W : World F X) (a b : Val F X) : Bool :=
  let impls : Bool := (search2 W.ltI a b).getD false
  let second : Bool :=
    match b with
    | .null => false
    | .int rhs => if intGt rhs a then false else if intEq rhs a then false else true
    | .float t => match a.toFloat with
      | some f => lt f t
      | none => impls
    | .time t => match a.toTime with
      | some u => decide (u < t)
      | none => impls
    | _ => impls
  match a with
  | .null => false
  | .str s => match b with
    | .str t => strLt s t
    | _ => second
  | .bool x => match b with
    | .time t => decide ((if x then 1 else 0) * 1000000000 < t)
    | _ => intLt (if x then 1#64 else 0#64) b
  | .int i => match b with
    | .time t => decide (i.toInt * 1000000000 < t)
    | _ => intLt i b
  | .float f => match b.toFloat with
    | some g => lt f g
    | none => second
  | .time t => match b.toTime with
    | some u => decide (t < u)
    | none => second
  | _ => second

/-- `GtDispatcher.Gt` (protocols/protocol_gt.go:37-146).  `bool` has no case of its
own in the first switch. -/
def gtV (W : World F X) (a b : Val F X) : Bool :=
  let impls : Bool := (search2 W.gtI a b).getD false
  let second : Bool :=
    match b with
    | .null => false
    | .str t => match a with
      | .str s => strLt t s
      | _ => impls
    | .int rhs => if intLt rhs a then false else if intEq rhs a then false else true
    | .float t => match a.toFloat with
      | some f => lt t f
      | none => impls
    | .time t => match a.toTime with
      | some u => decide (t < u)
      | none => impls
    | _ => impls
  match a with
  | .null => false
  | .str s => match b with
    | .str t => strLt t s
    | _ => second
  | .int i => match b with
    | .time t => decide (t < i.toInt * 1000000000)
    | _ => intGt i b
  | .float f => match b.toFloat with
    | some g => lt g f
    | none => second
  | .time t => match b.toTime with
    | some u => decide (u < t)
    | none => second
  | _ => second

/-! ## Membership, iteration -/

/-- `MembershipDispatcher.Membership` (protocols/protocol_membership.go:26-78). -/
def memV (W : World F X) (a b : Val F X) : Bool :=
  let dflt : Bool :=
    match search2 W.memI a b with
    | some r => r
    | none => match b with
      | .arr l => l.any (fun item => eqV W a item)
      | _ => false
  match b with
  | .null => false
  | .dict d => match a with
    | .str s => (OD.get d s).isSome
    | _ => dflt
  | .str t => match a with
    | .str s => strContains t s
    | _ => dflt
  | _ => dflt

/-- Key of the default row column. -/
def valueKey : Str := bs "_value"

/-- `_SliceIterator` element conversion (protocols/protocol_iterate.go:100-117). -/
def sliceRow : Val F X → Option (Val F X)
  | .null => none
  | .dict d => some (.dict d)
  | v => some (.dict [(valueKey, v)])

/-- `IterateDispatcher.Iterate` (protocols/protocol_iterate.go:21-78): the rows
delivered when the consumer reads to the end (no cancellation). -/
def iterate (W : World F X) (a : Val F X) : List (Val F X) :=
  match a with
  | .query rows => rows
  | .dict d => [.dict d]
  | .arr l => l.filterMap sliceRow
  | _ => match search1 W.iterI a with
    | some rows => rows
    | none => if a.isNil then [] else [.dict [(valueKey, a)]]

/-! ## Associative -/

/-- `getRanges` (protocols/utils.go:3-34), in `int64`. -/
def getRanges (s e : Option I64) (len : I64) : I64 × I64 :=
  let start := match s with
    | some v => v
    | none => 0#64
  let start := if start.toInt < 0 then len + start else start
  let start := if start.toInt < 0 then 0#64 else start
  let end_ := match e with
    | some v => v
    | none => len
  let end_ := if end_.toInt < 0 then len + end_ else end_
  let end_ := if end_.toInt < 0 then 0#64 else end_
  let end_ := if end_.toInt > len.toInt then len else end_
  (start, end_)

/-- Go's `x[lo:hi]` on a sequence; `none` is the out of range panic. -/
def goSlice {α : Type} (l : List α) (lo hi : Int) : Option (List α) :=
  if 0 ≤ lo ∧ lo ≤ hi ∧ hi ≤ l.length then
    some ((l.drop lo.toNat).take (hi.toNat - lo.toNat))
  else none

/-- `a_value.Index(i)` (reflect): `none` is the out of range panic. -/
def goIndex {α : Type} (l : List α) (i : Int) : Option α :=
  if 0 ≤ i then l[i.toNat]? else none

/-- `[start:end]` of a sequence as computed in
protocols/protocol_associative.go:215-224 and 226-243.  For a slice the code
copies elements one by one with `Index(i)`, which panics exactly when the slice
expression would.  A panic is recovered (line 168) into `none`. -/
def rangeOf {α : Type} (l : List α) (s e : Option I64) : Option (List α) :=
  let r := getRanges s e (BitVec.ofNat 64 l.length)
  if r.2.toInt ≤ r.1.toInt then some [] else goSlice l r.1.toInt r.2.toInt

/-- Integer index (protocols/protocol_associative.go:187-203): `none` is the NULL /
not present result, either explicit or by recovering the index panic. -/
def indexOf {α : Type} (l : List α) (idx : I64) : Option α :=
  let len : I64 := BitVec.ofNat 64 l.length
  let idx := if idx.toInt < 0 then len + idx else idx
  if idx.toInt < 0 ∨ idx.toInt > len.toInt then none
  else goIndex l idx.toInt

/-- First applicable associative implementation (protocol_associative.go:110-116). -/
def searchA (impls : List (AssocImpl F X)) (a : Val F X) (k : Key F X) :
    Option (Val F X × Bool) :=
  match impls with
  | [] => none
  | i :: r => if i.applicable a k then some (i.run a k) else searchA r a k

/-- The exported dict methods (protocols/protocol_associative.go:14-21). -/
def dictMethods : List Str :=
  [bs "@Items", bs "@Keys", bs "@Values", bs "@Len", bs "@ToMap", bs "@String"]

/-- `DefaultAssociative` for keys that do not recurse into elements
(protocols/protocol_associative.go:167-302): integer index and range. -/
def defaultAssocFlat (a : Val F X) (k : Key F X) : Val F X × Bool :=
  match k with
  | .val kv => match kv.toInt64 with
    | some i => match a with
      | .str s => match indexOf s i with
        | some c => (.int (BitVec.ofNat 64 c.toNat), true)
        | none => (.null, false)
      | .arr l => match indexOf l i with
        | some v => (v, true)
        | none => (.null, false)
      | _ => (.null, false)
    | none => (.null, false)
  | .range s e => match a with
    | .str x => match rangeOf x s e with
      | some r => (.str r, true)
      | none => (.null, false)
    | .arr l => match rangeOf l s e with
      | some r => (.arr r, true)
      | none => (.null, false)
    | _ => (.null, false)

mutual
/-- `AssociativeDispatcher.Associative` with a string key
(protocols/protocol_associative.go:45-119, 245-298).  Dicts have no default value
in the model, so a missing key gives `nil, false` (represented by `null`). -/
def assocStr (W : World F X) (a : Val F X) (k : Str) : Val F X × Bool :=
  match a with
  | .null => (.null, true)
  | .query rows => (.arr (queryCol W rows k), true)
  | .dict d =>
    if dictMethods.contains k then W.dictMethod d (k.drop 1)
    else match OD.get d k with
      | some v => (v, true)
      | none => (.null, false)
  | .arr l => match searchA W.assocI a (.val (.str k)) with
    | some r => r
    | none => (.arr (arrCol W l k), true)
  | .time t => match searchA W.assocI a (.val (.str k)) with
    | some r => r
    | none => W.timeGet t k
  | .obj x => match searchA W.assocI a (.val (.str k)) with
    | some r => r
    | none => W.objGet x k
  | _ => match searchA W.assocI a (.val (.str k)) with
    | some r => r
    | none => (.null, false)
/-- One entry per row (protocols/protocol_associative.go:69-79). -/
def queryCol (W : World F X) (rows : List (Val F X)) (k : Str) : List (Val F X) :=
  match rows with
  | [] => []
  | r :: rs => (match assocStr W r k with
      | (v, true) => v
      | (_, false) => .null) :: queryCol W rs k
/-- Present entries only (protocols/protocol_associative.go:287-298). -/
def arrCol (W : World F X) (l : List (Val F X)) (k : Str) : List (Val F X) :=
  match l with
  | [] => []
  | x :: xs => match assocStr W x k with
    | (v, true) => v :: arrCol W xs k
    | (_, false) => arrCol W xs k
end

mutual
/-- `AssociativeDispatcher.Associative` with any key
(protocols/protocol_associative.go:45-119).  A stored query with a key that is not
a string goes to `_StoredQueryAssociative` (protocols/stored_query.go:10-48) unless
a registered implementation applies. -/
def assocV (W : World F X) (a : Val F X) (k : Key F X) : Val F X × Bool :=
  match a with
  | .null => (.null, true)
  | .query rows => match k with
    | .val (.str s) => assocStr W a s
    | _ => match searchA W.assocI a k with
      | some r => r
      | none => queryKey W rows k 0#64 []
  | _ => match k with
    | .val (.str s) => assocStr W a s
    | _ => match searchA W.assocI a k with
      | some r => r
      | none => defaultAssocFlat a k
/-- The row loop of `_StoredQueryAssociative` (protocols/stored_query.go:29-47);
`i` is the `int64` row counter, `acc` the result so far. -/
def queryKey (W : World F X) (rows : List (Val F X)) (k : Key F X) (i : I64)
    (acc : List (Val F X)) : Val F X × Bool :=
  match rows with
  | [] => (.arr acc, true)
  | r :: rs =>
    let hit : Bool := match k with
      | .val kv => match kv.toInt64 with
        | some b => i == b
        | none => false
      | .range _ _ => false
    if hit then (r, true)
    else match assocV W r k with
      | (v, true) => queryKey W rs k (i + 1) (acc ++ [v])
      | (_, false) => queryKey W rs k (i + 1) acc
end

/-! ## Regex -/

/-- The regular expression engine (Go `regexp`), a parameter. -/
structure RegexEngine where
  Re : Type
  compile : Str → Option Re
  matchString : Re → Str → Bool

/-- Scope context entries set by `Match` (key without the `__re` prefix):
`none` is the cached compile error (protocols/protocol_regex.go:88-90). -/
abbrev ReCache (E : RegexEngine) := List (Str × Option E.Re)

/-- `"(?i)"` -/
def ciPrefix : Str := bs "(?i)"

/-- `Match` (protocols/protocol_regex.go:73-99). -/
def reMatch (E : RegexEngine) (c : ReCache E) (pattern target : Str) : Bool × ReCache E :=
  match OD.get c pattern with
  | some (some re) => (E.matchString re target, c)
  | some none => (false, c)
  | none => match E.compile (ciPrefix ++ pattern) with
    | none => (false, OD.set c pattern none)
    | some re => (E.matchString re target, OD.set c pattern (some re))

/-- Patterns that match everything (protocols/protocol_regex.go:33-36). -/
def matchAll (p : Str) : Bool := p == bs "." || p == bs ".*" || p == []

mutual
/-- `RegexDispatcher.Match` (protocols/protocol_regex.go:25-65) with the cache
threaded. -/
def matchV (W : World F X) (E : RegexEngine) (pattern target : Val F X) (c : ReCache E) :
    Bool × ReCache E :=
  match pattern with
  | .str p =>
    if matchAll p then (true, c)
    else match target with
      | .str t => reMatch E c p t
      | .arr l => matchAny W E p l c
      | _ => ((search2 W.regexI pattern target).getD false, c)
  | _ => ((search2 W.regexI pattern target).getD false, c)
/-- The array loop (protocols/protocol_regex.go:43-51). -/
def matchAny (W : World F X) (E : RegexEngine) (p : Str) (l : List (Val F X)) (c : ReCache E) :
    Bool × ReCache E :=
  match l with
  | [] => (false, c)
  | x :: xs => match matchV W E (.str p) x c with
    | (true, c') => (true, c')
    | (false, c') => matchAny W E p xs c'
end

end
end Vfilter
