import Verif.Base
/-!
# Descriptions of Go types (types/introspection.go)

`TypeMap.AddType` walks over a Go type with the reflect package and records its fields and
accessor methods, and those of the types it refers to.  Go's types are a parameter: any set `T`
with the answers of the reflect package.
-/

set_option linter.all false

namespace Vfilter.Intro

/-- `reflect.Type.Kind()`, as far as the code distinguishes kinds; `list` is `Array` or `Slice`. -/
inductive Kind where
  | struct | list | map | ptr | other
  deriving DecidableEq, Repr

/-- `reflect.StructField`: name, `Anonymous`, type, and the value of the tag `vfilter`. -/
structure Field (T : Type) where
  name : Str
  anon : Bool
  type : T
  tag : Str

/-- `reflect.Method`: name, number of parameters without the receiver, types of the results. -/
structure Method (T : Type) where
  name : Str
  ins : Nat
  outs : List T

/-- What the reflect package says about the types of a program.  `methods t` is the method set of
`*t` if `t` is not a pointer, and of `t` if it is (types/introspection.go:133-137).  The compiler
rejects structs that contain themselves, so embedded structs have a depth. -/
structure Types (T : Type) where
  kind : T → Kind
  elem : T → T
  text : T → Str
  fields : T → List (Field T)
  methods : T → List (Method T)
  depth : T → Nat
  embeds : ∀ t f, kind t = .struct → f ∈ fields t → kind f.type = .struct → depth f.type < depth t

/-- `TypeReference` (types/types.go). -/
structure Ref where
  target : Str
  repeated : Bool
  tag : Str
  deriving DecidableEq, Repr

/-- `TypeMap.desc`: from type names to the `Fields` of their descriptions. -/
abbrev TMap := OD (OD Ref)

/-- `utils.IsExported` (utils/utils.go:18-32), for names that start with an ASCII character. -/
def isExported (n : Str) : Bool :=
  if n = bs "MarshalJSON" ∨ n = bs "MarshalYAML" then false
  else match n with
    | [] => false
    | c :: _ => c != 95 && !(97 ≤ c && c ≤ 122)

/-- A character of `[a-zA-Z0-9_]`. -/
def wordChar (c : UInt8) : Bool :=
  (97 ≤ c && c ≤ 122) || (65 ≤ c && c ≤ 90) || (48 ≤ c && c ≤ 57) || c == 95

/-- The submatch of `field=([a-zA-Z0-9_]+)` (types/introspection.go:13, 121-125). -/
def tagName : Str → Option Str
  | [] => none
  | c :: s =>
    if (bs "field=").isPrefixOf (c :: s) then
      match ((c :: s).drop 6).takeWhile wordChar with
      | [] => tagName s
      | m => some m
    else tagName s

variable {T : Type} (U : Types T)

/-- `canonicalTypeName` (types/introspection.go:27-29). -/
def canon (t : T) : Str := (U.text t).dropWhile (fun c => decide (c ∈ bs "*[]"))

/-- The type is looked into when a field or a result has it: it has an element type
(types/introspection.go:106-119, 167-180). -/
def linked (t : T) : Bool :=
  match U.kind t with
  | .list | .map | .ptr => true
  | _ => false

/-- The reference to a type (types/introspection.go:100-119, 162-180). -/
def refTo (t : T) (tag : Str) : Ref :=
  match U.kind t with
  | .list => ⟨canon U (U.elem t), true, tag⟩
  | .map | .ptr => ⟨canon U (U.elem t), false, tag⟩
  | _ => ⟨canon U t, false, tag⟩

/-- `len(*fields) > 0 && !InString(fields, name)` is the reason to skip a name
(types/introspection.go:95-98, 147-150). -/
def listed (members : List Str) (n : Str) : Bool := members.isEmpty || members.contains n

/-- An entry of a description: its name, the type, the tag. -/
structure Entry (T : Type) where
  name : Str
  type : T
  tag : Str

/-- What `addFields` (types/introspection.go:74-129) does with the fields of one struct; embedded
structs are expanded in place.  The first argument bounds the depth. -/
def fieldEntries (members : List Str) : Nat → T → List (Entry T)
  | 0, _ => []
  | n + 1, t =>
    if U.kind t = .struct then
      (U.fields t).flatMap fun f =>
        if f.anon then fieldEntries members n f.type
        else if isExported f.name && listed members f.name then [⟨(tagName f.tag).getD f.name, f.type, f.tag⟩]
        else []
    else []

/-- What `addMethods` (types/introspection.go:131-185) does: exported methods without parameters and
with one or two results. -/
def methodEntries (members : List Str) (t : T) : List (Entry T) :=
  (U.methods t).flatMap fun m =>
    if isExported m.name && listed members m.name && m.ins == 0 then
      match m.outs with
      | [o] => [⟨m.name, o, []⟩]
      | [o, _] => [⟨m.name, o, []⟩]
      | _ => []
    else []

/-- All entries, in order. -/
def entries (members : List Str) (t : T) : List (Entry T) :=
  fieldEntries U members (U.depth t + 1) t ++ methodEntries U members t

/-- `desc.Fields.Set` on the description of `me`, which is in the map already. -/
def setField (me : Str) (f : Str) (r : Ref) (m : TMap) : TMap :=
  m.map fun p => if p.1 = me then (p.1, p.2.set f r) else p

/-- The loops of `addFields` and `addMethods`; `go` is `addType` for the element types. -/
def addEntries (go : T → TMap → Option TMap) (me : Str) : List (Entry T) → TMap → Option TMap
  | [], m => some m
  | e :: es, m =>
    (if linked U e.type then go (U.elem e.type) m else some m).bind fun m =>
      addEntries go me es (setField me e.name (refTo U e.type e.tag) m)

/-- `addType` (types/introspection.go:60-72) with bounded recursion; `none` is not enough. -/
def addType (members : List Str) : Nat → T → TMap → Option TMap
  | 0, _, _ => none
  | n + 1, t, m =>
    if (m.get (canon U t)).isSome then some m
    else addEntries U (addType members n) (canon U t) (entries U members t) (m.set (canon U t) [])

/-- `AddType` (types/introspection.go:41-58) of a value of type `t` whose members, as the scope
sees them, are `members`: the name and the new map. -/
def addValue (members : List Str) (n : Nat) (t : T) (m : TMap) : Option (Str × TMap) :=
  let t := if U.kind t = .ptr then U.elem t else t
  (addType U members n t m).map fun m => (canon U t, m)

end Vfilter.Intro
