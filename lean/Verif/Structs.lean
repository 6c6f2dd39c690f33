import Verif.Base
/-!
# Go structs as values (protocols/protocol_associative.go)

What `DefaultAssociative` does with a struct, or a pointer to one, and a name: `Associative` and `GetMembers`.  The types and
values of the program are a parameter, with the answers of the reflect package.  `FieldByName` and
`FieldByNameFunc` are modelled after their documentation.

Simplification: names are compared as byte strings, a name that does not start with an ASCII character is exported for
`utils.IsExported` if a parameter says so.
-/
set_option linter.all false

namespace Vfilter.Structs

/-- `reflect.StructField`: name, exported (for Go), the tag `json`, and the struct type if the field is embedded and of that
type or a pointer to it. -/
structure SField (T : Type) where
  name : Str
  visible : Bool
  tag : Str
  embeds : Option T

/-- The struct types of a program, and `unicode.ToUpper(r) == r` for the first character of a name. -/
structure Types (T : Type) where
  all : List T
  mem_all : ∀ t, t ∈ all
  fields : T → List (SField T)
  upper : Str → Bool

/-- The value of a field: a nil pointer, a nil interface, or something else, with the struct that it is or points to. -/
inductive Cell (O A : Type) where
  | nilPtr
  | nilIface
  | val (v : A) (inner : Option O)

/-- A result of a method. -/
inductive Ret (A : Type) where
  | nilPtr
  | nilIface
  | val (v : A)

/-- A method: its name, the number of its parameters, and the results of a call without arguments (`none` if it panics). -/
structure Method (A : Type) where
  name : Str
  ins : Nat
  results : Option (List (Ret A))

/-- The structs of a program. -/
structure Values (T O A : Type) where
  typeOf : O → T
  cell : O → Nat → Cell O A
  methods : O → List (Method A)

variable {T O A : Type}

/-- `utils.IsExported` (utils/utils.go:18-32). -/
def isExported (U : Types T) (n : Str) : Bool :=
  if n = bs "MarshalJSON" ∨ n = bs "MarshalYAML" then false
  else match n with
    | [] => false
    | c :: r => c != 95 && (if c < 128 then !(97 ≤ c && c ≤ 122) else U.upper (c :: r))

/-- The fields of a struct, with their index. -/
def direct (U : Types T) (t : T) : List (List Nat × SField T) := (U.fields t).zipIdx.map (fun p => ([p.2], p.1))

/-- The fields at a depth of embedding, with the path of indexes to them. -/
def level (U : Types T) : Nat → T → List (List Nat × SField T)
  | 0, t => direct U t
  | d + 1, t => (U.fields t).zipIdx.flatMap fun p => match p.1.embeds with
    | some t' => (level U d t').map (fun q => (p.2 :: q.1, q.2))
    | none => []

/-- The search of `FieldByNameFunc` through `n` depths, beginning with depth `d`. -/
def findFrom (U : Types T) (m : Str → Bool) (t : T) : Nat → Nat → Option (List Nat × SField T)
  | 0, _ => none
  | n + 1, d => match (level U d t).filter (fun p => m p.2.name) with
    | [] => findFrom U m t n (d + 1)
    | [p] => some p
    | _ => none

/-- `reflect.Type.FieldByNameFunc`: the field with a name that satisfies the function, at the shallowest depth where there is
one; several of them cancel each other. -/
def find (U : Types T) (m : Str → Bool) (t : T) : Option (List Nat × SField T) := findFrom U m t U.all.length 0

/-- `reflect.Type.FieldByName`: fields of the struct come first. -/
def fieldByName (U : Types T) (n : Str) (t : T) : Option (SField T) :=
  match (U.fields t).find? (fun f => decide (f.name = n)) with
  | some f => some f
  | none => (find U (fun k => decide (k = n)) t).map (·.2)

/-- The part of a tag before the first comma. -/
def jsonName (tag : Str) : Str := tag.takeWhile (fun c => c != 44)

/-- `FieldMatchName` (protocols/protocol_associative.go:304-324). -/
def matchName (U : Types T) (t : T) (k n : Str) : Bool :=
  if n = k then true
  else match fieldByName U n t with
    | some f => decide (jsonName f.tag = k)
    | none => false

/-- `reflect.Value.FieldByIndex`; `none` is the panic on the way through an embedded nil pointer. -/
def follow (X : Values T O A) : O → List Nat → Option (Cell O A)
  | _, [] => none
  | o, [i] => some (X.cell o i)
  | o, i :: j :: p => match X.cell o i with
    | .val _ (some o') => follow X o' (j :: p)
    | _ => none

/-- The call of a method (protocols/protocol_associative.go:260-284, 301).  A panic is recovered and leaves the results unset
(lines 168-171). -/
def method (U : Types T) (X : Values T O A) (null : A) (o : O) (k : Str) : Option A × Bool :=
  match (X.methods o).find? (fun m => decide (m.name = k)) with
  | none => (some null, false)
  | some m =>
    if isExported U k && m.ins == 0 then match m.results with
      | none => (none, false)
      | some (.val v :: rest) => if rest.length ≤ 1 then (some v, true) else (some null, true)
      | some (.nilIface :: rest) => if rest.length ≤ 1 then (none, true) else (some null, true)
      | some (.nilPtr :: _) => (some null, true)
      | some [] => (some null, true)
    else (some null, false)

/-- `DefaultAssociative.Associative` with a struct and a name (protocols/protocol_associative.go:245-301): the value, `none`
for nil, and whether it is there. -/
def assoc (U : Types T) (X : Values T O A) (null : A) (o : O) (k : Str) : Option A × Bool :=
  match find U (matchName U (X.typeOf o) k) (X.typeOf o) with
  | none => method U X null o k
  | some (p, f) => match follow X o p with
    | none => (none, false)
    | some c =>
      if f.visible then match c with
        | .nilPtr => (some null, true)
        | .nilIface => (none, true)
        | .val v _ => (some v, true)
      else method U X null o k

/-- `DefaultAssociative.GetMembers` of a struct (protocols/protocol_associative.go:327-362, utils/utils.go:35-51). -/
def members (U : Types T) (X : Values T O A) (o : O) : List Str :=
  ((U.fields (X.typeOf o)).filter (fun f => isExported U f.name)).map (·.name) ++
  ((X.methods o).filter (fun m => isExported U m.name && m.ins == 0)).map (·.name)

end Vfilter.Structs
