import Verif.Builtins
import Verif.Funcs
import Verif.Plugins
import Verif.Number
import Verif.Lower
/-!
# The package's functions and plugins as programs of the evaluator

`functions/builtin.go`, `plugins/builtins.go` and `protocols/builtin.go` put together: everything
the package registers in a new scope, except `encode` to UTF-16.  Splitting at a regular expression
(Go's `regexp`) and `fmt.Sprintf` are parameters (`Extra`).

Simplifications: plugins deliver all rows before the consumer sees the first (see `Verif.Eval`);
`foreach` runs its queries one after the other (one worker); argument errors are logged without
their exact wording; Bool of a stored query evaluates the query to its end.
-/

set_option linter.all false

namespace Vfilter.Vql
open Fmt

section
variable {F S : Type} [FloatOps F]

/-- The rows of a stored query as a materialized value, other values as they are
(`MaterializeToArray`, protocols/stored_query.go:99-112). -/
def forceP (s : Nat) (v : V F) : Prog F S (V F) :=
  if isQuery v then do
    let rows ← materializeP s v
    pure (.query rows)
  else pure v

/-- `scope.Bool` with `_StoredQueryBool` (protocols/protocol_bool.go:20-76,
protocols/stored_query.go:55-82). -/
def libTruth (W : World F Obj) (v : V F) (s : Nat) : Prog F S Bool := do
  let v ← reduceP v
  let v ← forceP s v
  pure (truthy W v)

/-- Does `Add` look into stored queries (protocols/protocol_add.go:91-104,
protocols/stored_query.go:86-97)? -/
def addForces (a b : V F) : Bool :=
  (isQuery a && isQuery b) || (isQuery a && b.isArr) || (a.isArr && isQuery b)

/-- `scope.Add`, `Sub`, `Mul`, `Div`. -/
def libArith (W : World F Obj) (op : Arith) (a b : V F) (s : Nat) : Prog F S (V F) :=
  match op with
  | .add => do
    let a ← reduceP a
    let b ← reduceP b
    if addForces a b then do
      let a ← forceP s a
      let b ← forceP s b
      pure (addV W a b)
    else pure (addV W a b)
  | op => stdArith W op a b s

/-- The members of a row (`scope.GetMembers`) with their values, for `makeDict`
(plugins/flatten.go:58-71) and `RowToDict` (utils/dict/dict.go:17-32). -/
def rowFieldsP (s : Nat) (f : V F → Prog F S (V F)) (row : V F) : Prog F S (OD (V F)) := do
  let ms ← call (.members row s)
  foldP (fun acc m => do
    match ← call (.assoc row (.val (.str m)) s) with
    | (v, true) => do
      let v ← f (v.getD .null)
      pure (OD.set acc m v)
    | (_, false) => pure acc) [] ms

/-- `normalize_value` (utils/dict/dict.go:36-142) on the values of the evaluator. -/
def normalizeP (s : Nat) : Nat → V F → Prog F S (V F)
  | 0, _ => pure .null
  | n + 1, v => match v with
    | .obj (.lazy c) => do
      let v ← call (.lazyReduce c)
      normalizeP s n v
    | .arr l => do
      let l ← mapP (normalizeP s n) l
      pure (.arr l)
    | v => if isQuery v then do
        let rows ← materializeP s v
        pure (.arr rows)
      else pure v

/-- `RowToDict` (utils/dict/dict.go:17-32). -/
def rowToDictP (s : Nat) (row : V F) : Prog F S (V F) := do
  let d ← rowFieldsP s (normalizeP s 11) row
  pure (.dict d)

/-- Types of argument fields (arg_parser/parser.go:330-441): `types.Any`, `int64`, `string`, `bool`,
`types.LazyExpr` and `types.StoredQuery`. -/
inductive FieldKind where
  | any | int | str | bool | lazy | query

/-- A field of an argument struct and its tag. -/
structure ArgField where
  name : Str
  kind : FieldKind
  required : Bool := false

/-- `NormalizeArgs` (arg_parser/args.go:37-53): the argument `**` replaces all others if it is a
dict. -/
def normalizeArgsP (args : OD (V F)) : Prog F S (OD (V F)) :=
  match OD.get args (bs "**") with
  | none => pure args
  | some v => do
    let v ← reduceP v
    match v with
    | .dict d => pure d
    | _ => pure args

/-- The single element of an array given for a string (arg_parser/parser.go:236-241 with
`_ExtractStringArray`, arg_parser/args.go:100-141): the text of a dict with one member that is a
string is added twice, so the array no longer has one element. -/
def elementTextP (fmtV : V F → Str) (s : Nat) (x : V F) : Prog F S Str :=
  match x.toStr with
  | some t => pure t
  | none => do
    let ms ← call (.members x s)
    match ms with
    | [m] => do
      match ← call (.assoc x (.val (.str m)) s) with
      | (v, true) => match (v.getD .null).toStr with
        | some _ => pure (fmtV (.arr [x]))
        | none => pure (fmtV x)
      | (_, false) => pure (fmtV x)
    | _ => pure (fmtV x)

/-- `stringParser` (arg_parser/parser.go:224-267) on a reduced argument. -/
def textP (fmtV : V F → Str) (s : Nat) : V F → Prog F S Str
  | .arr [x] => elementTextP fmtV s x
  | .str t => pure t
  | .null => pure []
  | v => pure (fmtV v)

/-- The parser of a field (arg_parser/parser.go:147-170, 224-308): `none` is an error. -/
def fieldP (W : World F Obj) (fmtV : V F → Str) (s : Nat) (v : V F) : FieldKind → Prog F S (Option (V F))
  | .any => do
    let v ← anyFieldP s v
    pure (some v)
  | .int => do
    let v ← reduceP v
    pure (v.toInt64.map .int)
  | .str => do
    let v ← reduceP v
    let t ← textP fmtV s v
    pure (some (.str t))
  | .bool => do
    let v ← reduceP v
    let b ← libTruth W v s
    pure (some (.bool b))
  | .lazy => pure (some v)
  | .query => do
    let q ← toQueryP v
    pure (some q)

/-- The loop of `Parser.Parse` (arg_parser/parser.go:60-82): the fields found, by name. -/
def parseFieldsP (W : World F Obj) (fmtV : V F → Str) (s : Nat) (args : OD (V F)) :
    List ArgField → OD (V F) → Prog F S (Option (OD (V F)))
  | [], acc => pure (some acc)
  | f :: fs, acc => match OD.get args f.name with
    | none => if f.required then pure none else parseFieldsP W fmtV s args fs acc
    | some v => do
      match ← fieldP W fmtV s v f.kind with
      | none => pure none
      | some x => parseFieldsP W fmtV s args fs (OD.set acc f.name x)

/-- `ExtractArgsWithContext` (arg_parser/args.go:55-75, arg_parser/parser.go:56-95): a log message
and `none` if the arguments are not right. -/
def parseArgsP (W : World F Obj) (fmtV : V F → Str) (name : Str) (s : Nat) (fields : List ArgField)
    (args : OD (V F)) : Prog F S (Option (OD (V F))) := do
  let args ← normalizeArgsP args
  match ← parseFieldsP W fmtV s args fields [] with
  | none => do
    prim (.log name)
    pure none
  | some r =>
    if unexpected (fields.map (·.name)) args then do
      prim (.log name)
      pure none
    else pure (some r)

/-- A parsed integer, 0 if it was not given. -/
def intOf (a : OD (V F)) (k : Str) : I64 := match OD.get a k with
  | some (.int i) => i
  | _ => 0#64

/-- A parsed string, empty if it was not given. -/
def textOf (a : OD (V F)) (k : Str) : Str := match OD.get a k with
  | some (.str t) => t
  | _ => []

/-- `dict` (functions/functions.go:22-37). -/
def dictFnP (s : Nat) (args : OD (V F)) : Prog F S (V F) := rowToDictP s (.dict args)

/-- The loop of `get` (functions/functions.go:147-164). -/
def getLoopP (s : Nat) : V F → List Str → Prog F S (V F)
  | v, [] => pure v
  | v, m :: ms => do
    let k : Key F Obj := match atoi m with
      | some i => .val (.int i)
      | none => .val (.str m)
    match ← call (.assoc v k s) with
    | (_, false) => pure .null
    | (x, true) => getLoopP s (x.getD .null) ms

/-- `get` (functions/functions.go:128-165). -/
def getFnP (W : World F Obj) (fmtV : V F → Str) (s : Nat) (args : OD (V F)) : Prog F S (V F) := do
  match ← parseArgsP W fmtV (bs "get") s
    [⟨bs "item", .any, false⟩, ⟨bs "member", .str, true⟩] args with
  | none => pure .null
  | some a => getLoopP s ((OD.get a (bs "item")).getD (.obj (.scope s))) (splitDot (textOf a (bs "member")))

/-- `len` (functions/functions.go:240-266). -/
def lenFnP (W : World F Obj) (fmtV : V F → Str) (s : Nat) (args : OD (V F)) : Prog F S (V F) := do
  match ← parseArgsP W fmtV (bs "len") s [⟨bs "list", .any, true⟩] args with
  | none => pure .null
  | some a => pure (.int (BitVec.ofNat 64 (lenF (fun _ => none) ((OD.get a (bs "list")).getD .null))))

/-- `encode` (functions/functions.go:182-233). -/
def encodeFnP (W : World F Obj) (fmtV : V F → Str) (s : Nat) (args : OD (V F)) : Prog F S (V F) := do
  match ← parseArgsP W fmtV (bs "hex") s [⟨bs "string", .any, true⟩, ⟨bs "type", .str, true⟩] args with
  | none => pure .null
  | some a => match encodeF fmtV ((OD.get a (bs "string")).getD .null) (textOf a (bs "type")) with
    | .str x => pure (.str x)
    | _ => do
      prim (.log (bs "hex"))
      pure .null

/-- `timestamp` (functions/functions.go:52-69). -/
def timestampFnP (W : World F Obj) (fmtV : V F → Str) (s : Nat) (args : OD (V F)) : Prog F S (V F) := do
  match ← parseArgsP W fmtV (bs "timestamp") s
    [⟨bs "epoch", .int, false⟩, ⟨bs "winfiletime", .int, false⟩] args with
  | none => pure .null
  | some a => pure (timestampF (intOf a (bs "epoch")) (intOf a (bs "winfiletime")))

/-- `min` and `max` (functions/aggregates.go:220-285). -/
def itemFnP (W : World F Obj) (fmtV : V F → Str) (op : V F → AggOp F Obj) (node s : Nat)
    (args : OD (V F)) : Prog F S (V F) := do
  match ← parseArgsP W fmtV (bs "min") s [⟨bs "item", .lazy, true⟩] args with
  | none => pure .null
  | some a => do
    let v ← reduceP ((OD.get a (bs "item")).getD .null)
    aggP W node s (op v)

/-- `sum` (functions/aggregates.go:167-195). -/
def sumFnP (W : World F Obj) (fmtV : V F → Str) (node s : Nat) (args : OD (V F)) : Prog F S (V F) := do
  match ← parseArgsP W fmtV (bs "sum") s [⟨bs "item", .int, true⟩] args with
  | none => pure .null
  | some a => aggP W node s (.sum (some (intOf a (bs "item"))))

/-- `scope.Iterate` (protocols/protocol_iterate.go:21-60). -/
def iterateP (W : World F Obj) (s : Nat) (v : V F) : Prog F S (List (V F)) := do
  let v ← reduceP v
  if isQuery v then call (.evalQuery v s) else pure (iterate W v)

/-- What a worker of `foreach` does with a row (plugins/foreach.go:62-93, 124-146). -/
def foreachRowP (s : Nat) (column : Str) (query : Option (V F)) (row : V F) :
    Prog F S (List (V F)) := do
  let row ← if column = [] then pure row else do
    match ← call (.assoc row (.val (.str column)) s) with
    | (v, true) => pure (v.getD .null)
    | (_, false) => pure .null
  match query with
  | none => pure [row]
  | some q => do
    let child ← prim (.copy s)
    prim (.append child row)
    evalBranchP child q

/-- `foreach` (plugins/foreach.go:10-99). -/
def foreachP (W : World F Obj) (fmtV : V F → Str) (s : Nat) (args : OD (V F)) :
    Prog F S (List (V F)) := do
  match ← parseArgsP W fmtV (bs "foreach") s
    [⟨bs "row", .lazy, true⟩, ⟨bs "query", .query, false⟩, ⟨bs "async", .bool, false⟩,
     ⟨bs "workers", .int, false⟩, ⟨bs "column", .str, false⟩] args with
  | none => pure []
  | some a => do
    let rows ← iterateP W s ((OD.get a (bs "row")).getD .null)
    let out ← mapP (foreachRowP s (textOf a (bs "column")) (OD.get a (bs "query"))) rows
    pure out.flatten

/-- `chain` (plugins/chain.go:21-62). -/
def chainP (s : Nat) (args : OD (V F)) : Prog F S (List (V F)) := do
  let qs ← mapP toQueryP (args.map (·.2))
  let out ← mapP (fun q => do
    let ns ← prim (.copy s)
    evalBranchP ns q) qs
  pure out.flatten

/-- `flatten` (plugins/flatten.go:18-56): cells that are queries are iterated in the scope of the
plugin. -/
def flattenRowP (W : World F Obj) (s : Nat) : Nat → OD (V F) → Prog F S (List (V F))
  | 0, item => pure [.dict item]
  | idx + 1, item =>
    match (OD.keys item)[idx]? with
    | none => pure []
    | some column => do
      let ms ← iterateP W s ((OD.get item column).getD .null)
      let members := ms.map unwrapMember
      if members.isEmpty then flattenRowP W s idx item
      else do
        let out ← mapP (fun m =>
          flattenRowP W s idx (OD.update (OD.mergeFrom [] item) column m)) members
        pure out.flatten

/-- `makeDict` (plugins/flatten.go:58-71). -/
def makeDictP (s : Nat) : V F → Prog F S (OD (V F))
  | .dict d => pure d
  | v => rowFieldsP s pure v

/-- `_FlattenPluginImpl.Call` (plugins/flatten.go:20-56). -/
def flattenP (W : World F Obj) (fmtV : V F → Str) (s : Nat) (args : OD (V F)) :
    Prog F S (List (V F)) := do
  match ← parseArgsP W fmtV (bs "flatten") s [⟨bs "query", .query, true⟩] args with
  | none => pure []
  | some a => do
    let rows ← evalBranchP s ((OD.get a (bs "query")).getD .null)
    let out ← mapP (fun r => do
      let d ← makeDictP s r
      flattenRowP W s (OD.keys d).length d) rows
    pure out.flatten

/-- `range` (plugins/range.go:19-53) when the loop ends within `fuel` rounds. -/
def rangeP (W : World F Obj) (fmtV : V F → Str) (fuel : Nat) (s : Nat) (args : OD (V F)) :
    Prog F S (List (V F)) := do
  match ← parseArgsP W fmtV (bs "range") s
    [⟨bs "start", .int, false⟩, ⟨bs "end", .int, true⟩, ⟨bs "step", .int, false⟩] args with
  | none => pure []
  | some a => pure ((rangeCall (intOf a (bs "start")) (intOf a (bs "end")) (intOf a (bs "step")) fuel).1.map
      fun i => .dict [(bs "_value", .int i)])

/-- `_StoredQueryAssociative` (protocols/stored_query.go:12-48). -/
def queryKeyP (s : Nat) (k : Key F Obj) (i : Nat) (acc : List (V F)) :
    List (V F) → Prog F S (Option (V F) × Bool)
  | [] => pure (some (.arr acc), true)
  | r :: rs => do
    let hit := match k with
      | .val v => match v.toInt64 with
        | some n => decide (n.toInt = (i : Int))
        | none => false
      | _ => false
    if hit then pure (some r, true)
    else do
      match ← call (.assoc r k s) with
      | (v, true) => queryKeyP s k (i + 1) (acc ++ [v.getD .null]) rs
      | (_, false) => queryKeyP s k (i + 1) acc rs

/-- The associative protocols the package registers. -/
def libAssocImpl (a : V F) (k : Key F Obj) (s : Nat) : Option (Prog F S (Option (V F) × Bool)) :=
  match a with
  | .query _ => none
  | a => if isQuery a then some (do
      let ns ← prim (.copy s)
      let rows ← call (.evalQuery a ns)
      queryKeyP s k 0 [] rows)
    else none

/-- What an application adds, and the parts of Go's library the package hands on to queries:
`regexp.Split` (`none` if the expression is not valid) and `fmt.Sprintf`. -/
structure Extra (F S : Type) where
  fns : List (Str × (Nat → Nat → OD (V F) → Prog F S (V F))) := []
  plugins : List (Str × (Nat → OD (V F) → Prog F S (List (V F)))) := []
  assocImpl : V F → Key F Obj → Nat → Option (Prog F S (Option (V F) × Bool)) := fun _ _ _ => none
  members : V F → Nat → Prog F S (List Str) := fun _ _ => pure []
  reSplit : Str → Str → Option (List Str) := fun _ _ => none
  sprintf : Str → List (V F) → Str := fun _ _ => []

/-- `split` (functions/functions.go:91-113). -/
def splitFnP (W : World F Obj) (fmtV : V F → Str) (X : Extra F S) (s : Nat) (args : OD (V F)) :
    Prog F S (V F) := do
  match ← parseArgsP W fmtV (bs "split") s
    [⟨bs "string", .str, true⟩, ⟨bs "sep", .str, false⟩, ⟨bs "sep_string", .str, false⟩] args with
  | none => pure .null
  | some a =>
    if textOf a (bs "sep") ≠ [] then
      match X.reSplit (textOf a (bs "sep")) (textOf a (bs "string")) with
      | some l => pure (.arr (l.map .str))
      | none => do
        prim (.log (bs "split"))
        pure .null
    else if textOf a (bs "sep_string") ≠ [] then
      pure (.arr ((splitBy (textOf a (bs "sep_string")) (textOf a (bs "string"))).map .str))
    else do
      prim (.log (bs "split"))
      pure .null

/-- The arguments of `fmt.Sprintf` (functions/format.go:29-43). -/
def formatArgs : Option (V F) → List (V F)
  | none => []
  | some (.arr l) => l
  | some v => [v]

/-- `format` (functions/format.go:19-46). -/
def formatFnP (W : World F Obj) (fmtV : V F → Str) (X : Extra F S) (s : Nat) (args : OD (V F)) :
    Prog F S (V F) := do
  match ← parseArgsP W fmtV (bs "format") s
    [⟨bs "format", .str, true⟩, ⟨bs "args", .any, false⟩] args with
  | none => pure (.bool false)
  | some a => pure (.str (X.sprintf (textOf a (bs "format")) (formatArgs (OD.get a (bs "args")))))

/-- `GetBuiltinFunctions` (functions/builtin.go:5-27); `none` for other names. -/
def libFn (W : World F Obj) (fmtV : V F → Str) (X : Extra F S) (name : Str) (node s : Nat) (args : OD (V F)) :
    Option (Prog F S (V F)) :=
  if name = bs "dict" then some (dictFnP s args)
  else if name = bs "timestamp" then some (timestampFnP W fmtV s args)
  else if name = bs "split" then some (splitFnP W fmtV X s args)
  else if name = bs "if" then some (do
    let args ← normalizeArgsP args
    ifFnP (libTruth W) s args)
  else if name = bs "format" then some (formatFnP W fmtV X s args)
  else if name = bs "get" then some (getFnP W fmtV s args)
  else if name = bs "encode" then some (encodeFnP W fmtV s args)
  else if name = bs "count" then some (do
    let args ← normalizeArgsP args
    itemsFnP W (fun _ => .count) node s args)
  else if name = bs "sum" then some (sumFnP W fmtV node s args)
  else if name = bs "min" then some (itemFnP W fmtV .min node s args)
  else if name = bs "max" then some (itemFnP W fmtV .max node s args)
  else if name = bs "enumerate" then some (do
    let args ← normalizeArgsP args
    itemsFnP W .enumerate node s args)
  else if name = bs "len" then some (lenFnP W fmtV s args)
  else if name = bs "scope" then some (pure (.obj (.scope s)))
  else none

/-- The names of `GetBuiltinFunctions`. -/
def libFns : List Str :=
  [bs "dict", bs "timestamp", bs "split", bs "if", bs "format", bs "get", bs "encode", bs "count",
   bs "sum", bs "min", bs "max", bs "enumerate", bs "len", bs "scope"]

/-- `GetBuiltinPlugins` (plugins/builtins.go:10-25). -/
def libPlugin (W : World F Obj) (fmtV : V F → Str) (fuel : Nat) (name : Str) (s : Nat) (args : OD (V F)) :
    Option (Prog F S (List (V F))) :=
  if name = bs "if" then some (do
    let args ← normalizeArgsP args
    ifPluginP (libTruth W) s args)
  else if name = bs "flatten" then some (flattenP W fmtV s args)
  else if name = bs "chain" then some (chainP s args)
  else if name = bs "foreach" then some (foreachP W fmtV s args)
  else if name = bs "range" then some (rangeP W fmtV fuel s args)
  else if name = bs "scope" then some (pure [.obj (.scope s)])
  else none

/-- The names of `GetBuiltinPlugins`. -/
def libPlugins : List Str :=
  [bs "if", bs "flatten", bs "chain", bs "foreach", bs "range", bs "scope"]

/-- A new scope of the package with what the application adds; functions and plugins of the
application replace the package's. -/
def libHost (W : World F Obj) (matchF : V F → V F → Bool) (fmtV : V F → Str)
    (colName : Col → Str) (num : Str → Option (V F)) (text : Select → Str) (fuel : Nat)
    (X : Extra F S) : Host F S where
  isFn n := libFns.contains n || (X.fns.map (·.1)).contains n
  isPlugin n := libPlugins.contains n || (X.plugins.map (·.1)).contains n
  fn name node s args := match OD.get X.fns name with
    | some f => f node s args
    | none => (libFn W fmtV X name node s args).getD (pure .null)
  plugin name s args := match OD.get X.plugins name with
    | some f => f s args
    | none => (libPlugin W fmtV fuel name s args).getD (pure [])
  arith := libArith W
  rel := stdRel W matchF
  truth := libTruth W
  toStr v _ := do
    let v ← reduceP v
    pure (match v with
      | .str x => x
      | v => fmtV v)
  sort k desc rows _ := pure (insertionSort (rowLess W (fun r => assocStr W r k) desc) rows)
  assocImpl a k s := match X.assocImpl a k s with
    | some p => some p
    | none => libAssocImpl a k s
  assocDefault a k _ := pure (some (defaultAssocFlat a k).1, (defaultAssocFlat a k).2)
  hostMembers := X.members
  colName := colName
  num := num
  stmtText := text

end
end Vfilter.Vql
