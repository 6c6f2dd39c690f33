import Verif.Ops
/-!
# Argument parsing (arg_parser/parser.go, arg_parser/args.go)
-/

namespace Vfilter

/-! ## The parser -/

/-- Outcome of parsing: a value, an `error`, or a Go panic. -/
inductive POut (B : Type) where
  | ok (b : B)
  | err
  | panic
  deriving DecidableEq, Repr

/-- `FieldParser` (arg_parser/parser.go:45-50).  `parse` is the `ParserDipatcher`
(41-43), which is given all arguments and the argument of this field; its result includes
`field_value.Set` (80-81), which panics when the types do not fit. -/
structure Field (A B : Type) where
  name : Str
  idx : Nat
  required : Bool
  parse : OD A → A → POut B

/-- The target struct: field index to value. -/
abbrev Target (B : Type) := Nat → B

/-- `target.Field(idx).Set(value)`. -/
def Target.set {B : Type} (t : Target B) (i : Nat) (b : B) : Target B :=
  fun j => if j = i then b else t j

section
variable {A B : Type}

/-- The loop over the fields, the same in `Parse` (arg_parser/parser.go:60-82) and
`ParseAsFreeForm` (105-127): the struct and the names parsed.  Simplified: the struct is
returned only on success (the code leaves a failed struct partly filled, which callers
ignore). -/
def parseLoop (args : OD A) : List (Field A B) → Target B → List Str → POut (Target B × List Str)
  | [], st, parsed => .ok (st, parsed)
  | f :: fs, st, parsed =>
    match args.get f.name with
    | none => if f.required then .err else parseLoop args fs st parsed
    | some v =>
      match f.parse args v with
      | .ok b => parseLoop args fs (st.set f.idx b) (parsed ++ [f.name])
      | .err => .err
      | .panic => .panic

/-- `Parser.Parse` (arg_parser/parser.go:56-95). -/
def parse (fields : List (Field A B)) (args : OD A) (st : Target B) : POut (Target B) :=
  match parseLoop args fields st [] with
  | .err => .err
  | .panic => .panic
  | .ok (st', parsed) =>
    if parsed.length ≠ args.length then
      if args.keys.all (fun k => parsed.contains k) then .ok st' else .err
    else .ok st'

/-- `Parser.ParseAsFreeForm` (arg_parser/parser.go:100-138): the struct and the
`kwargs` dict before `RowToDict` (`rowToDict`, Verif/Normalize.lean). -/
def parseFree (fields : List (Field A B)) (args : OD A) (st : Target B) : POut (Target B × OD A) :=
  match parseLoop args fields st [] with
  | .err => .err
  | .panic => .panic
  | .ok (st', parsed) =>
    if parsed.length ≠ args.length then
      .ok (st', (args.filter (fun p => !parsed.contains p.1)).foldl (fun d p => OD.set d p.1 p.2) [])
    else .ok (st', [])
end

/-! ## Arguments and the field types -/

variable {F X : Type} [FloatOps F]

/-- An argument: a value, or a `types.LazyExpr` with the results of `Reduce` and of
`ReduceWithScope`.  Simplified: here a lazy expression always gives the same results;
evaluation proper is in the evaluator model. -/
inductive Arg (F X : Type) where
  | val (v : Val F X)
  | lazy (reduced materialized : Val F X)

/-- `if lazy_arg, ok := arg.(types.LazyExpr); ok { arg = lazy_arg.Reduce(ctx) }`, at the
start of all parsers (e.g. arg_parser/parser.go:299-302). -/
def Arg.reduce : Arg F X → Val F X
  | .val v => v
  | .lazy v _ => v

/-- What the parsers need from the scope besides operators: `fmt.Sprintf("%v", x)` and
`scope.GetMembers` of values that are not dicts. -/
structure Print (F X : Type) where
  sprint : Val F X → Str
  members : Val F X → List Str

/-- `scope.GetMembers` (protocols/protocol_associative.go:121-147). -/
def membersOf (P : Print F X) : Val F X → List Str
  | .dict d => OD.keys d
  | .null => []
  | v => P.members v

/-- One element in `_ExtractStringArray` (arg_parser/args.go:118-140). -/
def stringElem (W : World F X) (P : Print F X) (v : Val F X) : List Str :=
  match v.toStr with
  | some s => [s]
  | none =>
    (match membersOf P v with
      | [m] => match assocStr W v m with
        | (x, true) => match x.toStr with
          | some s => [s]
          | none => []
        | (_, false) => []
      | _ => []) ++ [P.sprint v]

/-- `_ExtractStringArray` (arg_parser/args.go:104-154) on a reduced argument. -/
def extractStrings (W : World F X) (P : Print F X) : Val F X → List Str
  | .arr l => l.flatMap (stringElem W P)
  | v => match v.toStr with
    | some s => [s]
    | none => [P.sprint v]

/-- `_ExtractAnyArray` (arg_parser/args.go:156-179) on a reduced argument. -/
def extractAnys : Val F X → List (Val F X)
  | .arr l => l
  | v => [v]

/-- Types of struct fields (arg_parser/parser.go:420-485). -/
inductive FieldKind where
  | any | lazyAny | lazyExpr | dict | sliceAny | sliceStr | string | bool
  | float64 | float32 | int64 | uint64 | int
  deriving DecidableEq

/-- Parsed field values. -/
inductive FVal (F X : Type) where
  | any (v : Val F X)
  | arg (a : Arg F X)
  | dict (d : OD (Val F X))
  | anys (l : List (Val F X))
  | strs (l : List Str)
  | str (s : Str)
  | bool (b : Bool)
  | float (f : F)
  | int (i : I64)
  | uint (i : BitVec 64)

/-- `stringParser` (arg_parser/parser.go:226-268) on a reduced argument. -/
def stringParser (W : World F X) (P : Print F X) (v : Val F X) : Str :=
  let dflt : Str := match v with
    | .str s => s
    | .null => []
    | v => P.sprint v
  match v with
  | .arr _ => match extractStrings W P v with
    | [s] => s
    | _ => dflt
  | _ => dflt

/-- `dictParser` (arg_parser/parser.go:312-343) on a reduced argument.  Integers other
than `int64` and `uint64` are treated like objects by the code; the model has one kind
of integer. -/
def dictParser (W : World F X) (P : Print F X) : Val F X → POut (FVal F X)
  | .null => .ok (.dict [])
  | .dict d => .ok (.dict d)
  | .str _ => .err
  | .int _ => .err
  | v => .ok (.dict ((membersOf P v).foldl (fun env m => OD.set env m (assocStr W v m).1) []))

/-- The built-in parsers (arg_parser/parser.go:147-367) with the assignment to the
field (80-81): a `float32` field gets a `float64` value, which panics in
`reflect.Value.Set`.  Not modelled: `[]*ordereddict.Dict` and `types.StoredQuery` fields,
named types, registered parsers (they are functions in `Field`).  `truth` is
`scope.Bool`. -/
def builtinParse (W : World F X) (P : Print F X) (truth : Val F X → Bool) (k : FieldKind) (a : Arg F X) :
    POut (FVal F X) :=
  match k with
  | .any => .ok (.any (match a with
    | .val v => v
    | .lazy _ m => m))
  | .lazyAny => .ok (.arg a)
  | .lazyExpr => .ok (.arg a)
  | .dict => dictParser W P a.reduce
  | .sliceAny => .ok (.anys (extractAnys a.reduce))
  | .sliceStr => .ok (.strs (extractStrings W P a.reduce))
  | .string => .ok (.str (stringParser W P a.reduce))
  | .bool => .ok (.bool (truth a.reduce))
  | .float64 => match a.reduce.toFloat with
    | some f => .ok (.float f)
    | none => .err
  | .float32 => match a.reduce.toFloat with
    | some _ => .panic
    | none => .err
  | .int64 => match a.reduce.toInt64 with
    | some i => .ok (.int i)
    | none => .err
  | .uint64 => match a.reduce.toInt64 with
    | some i => .ok (.uint i)
    | none => .err
  | .int => match a.reduce.toInt64 with
    | some i => .ok (.int i)
    | none => .err

/-- The key of keyword expansion. -/
def starKey : Str := bs "**"

/-- `NormalizeArgs` (arg_parser/args.go:40-56). -/
def normalizeArgs (args : OD (Arg F X)) : OD (Arg F X) :=
  match args.get starKey with
  | some a => match a.reduce with
    | .dict d => d.map (fun p => (p.1, .val p.2))
    | _ => args
  | none => args

/-- `ExtractArgsWithContext` (arg_parser/args.go:58-78) after `GetParser`
(arg_parser/cache.go:16-34), which only depends on the type of the struct. -/
def extractArgs {B : Type} (fields : List (Field (Arg F X) B)) (args : OD (Arg F X)) (st : Target B) :
    POut (Target B) :=
  parse fields (normalizeArgs args) st

end Vfilter
