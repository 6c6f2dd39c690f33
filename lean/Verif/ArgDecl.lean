import Verif.ODLemmas
import Verif.Args
/-!
# Declaring arguments: tags of struct fields, parsers for types, and the cache of parsers

`BuildParser` reads the struct a function or plugin wants its arguments in
(arg_parser/parser.go:370-488); `RegisterParser` adds parsers for further types
(502-508); `GetParser` remembers what was built for each struct
(arg_parser/cache.go:16-35).
-/

namespace Vfilter.ArgDecl

/-- `strings.Split(s, c)` for one ASCII character. -/
def splitOn (c : UInt8) : Str → List Str
  | [] => [[]]
  | x :: s => if x = c then [] :: splitOn c s
    else match splitOn c s with
      | h :: t => (x :: h) :: t
      | [] => [[x]]

/-- One directive of a tag (arg_parser/parser.go:391-399). -/
def addDirective (o : OD Str) (d : Str) : OD Str :=
  if d.contains 61 then
    match splitOn 61 d with
    | k :: v :: _ => OD.set o k v
    | _ => o
  else OD.set o d (bs "Y")

/-- The options of a tag (arg_parser/parser.go:388-400). -/
def options (tag : Str) : OD Str := (splitOn 44 tag).foldl addDirective []

/-- A field of the struct: its Go name, its tag `vfilter`, its type, and whether
it can be set (`CanSet`: it is exported). -/
structure SField (T : Type) where
  name : Str
  tag : Str
  type : T
  settable : Bool

/-- `FieldParser` (arg_parser/parser.go:45-50), with the parser of type `P`. -/
structure Decl (P : Type) where
  name : Str
  idx : Nat
  required : Bool
  parser : P
deriving DecidableEq, Repr

section
variable {T P K : Type}

/-- The body of the loop of `BuildParser` (arg_parser/parser.go:378-484) for field
number `i`: `none` if the field is skipped.  `special` are the parsers for types
(430-434), `kind` those for kinds of types (437-482).  The code appends the field
before it looks for its parser; on errors the parser is thrown away. -/
def declare (special kind : T → Option P) (i : Nat) (f : SField T) : POut (Option (Decl P)) :=
  if f.tag = [] ∨ f.tag = bs "-" then .ok none
  else
    let o := options f.tag
    let name := (OD.get o (bs "field")).getD f.name
    if name = [] then .panic
    else if f.settable = false then .err
    else match special f.type with
      | some p => .ok (some ⟨name, i, (OD.get o (bs "required")).isSome, p⟩)
      | none => match kind f.type with
        | some p => .ok (some ⟨name, i, (OD.get o (bs "required")).isSome, p⟩)
        | none => .err

/-- The loop, from field number `i` on. -/
def buildFrom (special kind : T → Option P) : Nat → List (SField T) → POut (List (Decl P))
  | _, [] => .ok []
  | i, f :: fs =>
    match declare special kind i f with
    | .err => .err
    | .panic => .panic
    | .ok d => match buildFrom special kind (i + 1) fs with
      | .err => .err
      | .panic => .panic
      | .ok ds => .ok (d.toList ++ ds)

/-- `BuildParser` (arg_parser/parser.go:370-488) of a struct. -/
def build (special kind : T → Option P) (fields : List (SField T)) : POut (List (Decl P)) :=
  buildFrom special kind 0 fields

/-! ## The cache -/

/-- The parsers for types (arg_parser/parser.go:35) and the cache
(arg_parser/cache.go:13), by struct type. -/
structure PSt (T P K : Type) where
  special : T → Option P
  cache : K → Option (List (Decl P))

/-- The calls. -/
inductive POp (T P K : Type) where
  /-- `RegisterParser` (arg_parser/parser.go:502-508) -/
  | register (t : T) (p : P)
  /-- `GetParser` (arg_parser/cache.go:16-35), called when arguments are extracted
  (arg_parser/args.go:69, 91) -/
  | get (k : K)

variable [DecidableEq T] [DecidableEq K]

/-- What `GetParser` gives. -/
def answer (kind : T → Option P) (structs : K → List (SField T)) (st : PSt T P K) (k : K) :
    POut (List (Decl P)) :=
  match st.cache k with
  | some ds => .ok ds
  | none => build st.special kind (structs k)

/-- One call. -/
def pstep (kind : T → Option P) (structs : K → List (SField T)) (st : PSt T P K) : POp T P K → PSt T P K
  | .register t p => { st with special := fun t' => if t' = t then some p else st.special t' }
  | .get k => match answer kind structs st k with
    | .ok ds => { st with cache := fun k' => if k' = k then some ds else st.cache k' }
    | _ => st

/-- The state after calls; nothing is cached in the beginning. -/
def after (kind : T → Option P) (structs : K → List (SField T)) (special : T → Option P)
    (h : List (POp T P K)) : PSt T P K :=
  h.foldl (pstep kind structs) ⟨special, fun _ => none⟩

end
end Vfilter.ArgDecl
