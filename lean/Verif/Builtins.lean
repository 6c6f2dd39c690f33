import Verif.Eval
/-!
# Built-in functions and plugins as programs of the evaluator

`functions/if.go`, `functions/scope.go`, the calling side of `functions/aggregates.go`,
`plugins/if.go`, the `scope` plugin (`plugins/builtins.go:18-24`), and the operator
dispatchers lifted to values that may be lazy expressions.  `stdHost` puts them together
with the operators of `Verif.Ops`.
-/

namespace Vfilter.Vql

section
variable {F S : Type}

/-- `anyParser` (arg_parser/parser.go:161-170). -/
def anyFieldP (s : Nat) : V F → Prog F S (V F)
  | .obj (.lazy c) => call (.lazyWith c s)
  | v => pure v

/-- `maybeReduce` (protocols/common.go:9-15). -/
def reduceP : V F → Prog F S (V F)
  | .obj (.lazy c) => call (.lazyReduce c)
  | v => pure v

/-- An argument outside the declared ones (arg_parser/parser.go:79-87). -/
def unexpected (names : List Str) (args : OD (V F)) : Bool :=
  (OD.keys args).any (fun k => !names.contains k)

/-- `types.IsNil` of an optional argument (types/null.go:18-34; nil slices and pointers
are not represented). -/
def argNil : Option (V F) → Bool
  | none => true
  | some .null => true
  | _ => false

/-- The `else` part of `_IfFunction.Call` (functions/if.go:62-80). -/
def ifElseP (s : Nat) (els : Option (V F)) : Prog F S (V F) :=
  match els with
  | none => pure .null
  | some .null => pure .null
  | some e => do
    let t ← anyFieldP s e
    match t with
    | .obj (.lazy c) => call (.lazyWith c s)
    | t => pure t

/-- The `then` part of `_IfFunction.Call` (functions/if.go:40-61): a lazy expression that
reduces to a lazy expression falls through to the `else` part. -/
def ifThenP (s : Nat) (thn els : Option (V F)) : Prog F S (V F) :=
  match thn with
  | none => pure .null
  | some .null => pure .null
  | some e => do
    let t ← anyFieldP s e
    match t with
    | .obj (.lazy c) => do
      let x ← call (.lazyWith c s)
      if isQuery x then pure x else ifElseP s els
    | t => pure t

/-- `_IfFunction.Call` (functions/if.go:28-81). -/
def ifFnP (truth : V F → Nat → Prog F S Bool) (s : Nat) (args : OD (V F)) : Prog F S (V F) :=
  match OD.get args (bs "condition") with
  | none => do
    prim (.log (bs "if: Field condition is required"))
    pure .null
  | some c => do
    let c ← anyFieldP s c
    if unexpected [bs "condition", bs "then", bs "else"] args then do
      prim (.log (bs "if: Unexpected arg"))
      pure .null
    else do
      let b ← truth c s
      if b then ifThenP s (OD.get args (bs "then")) (OD.get args (bs "else"))
      else ifElseP s (OD.get args (bs "else"))

/-- `StoredQueryWrapper.toRow` (arg_parser/args.go:229-240) on a value that is not NULL. -/
def toRowP (s : Nat) (v : V F) : Prog F S (V F) := do
  let ms ← call (.members v s)
  pure (if ms.isEmpty then .dict [(bs "_value", v)] else v)

/-- `StoredQueryWrapper.Eval` (arg_parser/args.go:199-227), NULL rows being dropped. -/
def wrapEvalP (s : Nat) : V F → Prog F S (List (V F))
  | .arr l => mapP (toRowP s) (l.filter (fun v => !Val.isNil v))
  | .null => pure []
  | v => do
    let r ← toRowP s v
    pure [r]

/-- `ToStoredQuery(arg)` (arg_parser/args.go:182-193): the query, or the value to wrap.
A lazy expression never reduces to a lazy expression (lazy.go:160-163), so the recursion is
unrolled once. -/
def toQueryP (v : V F) : Prog F S (V F) := reduceP v

/-- `Eval` of the result of `ToStoredQuery`. -/
def evalBranchP (s : Nat) (v : V F) : Prog F S (List (V F)) :=
  if isQuery v then call (.evalQuery v s) else wrapEvalP s v

/-- The optional `else` of the `if` plugin. -/
def optQueryP : Option (V F) → Prog F S (Option (V F))
  | none => pure none
  | some v => do
    let q ← toQueryP v
    pure (some q)

/-- `_IfPlugin.Call` (plugins/if.go:19-42). -/
def ifPluginP (truth : V F → Nat → Prog F S Bool) (s : Nat) (args : OD (V F)) :
    Prog F S (List (V F)) :=
  match OD.get args (bs "condition") with
  | none => do
    prim (.log (bs "if: Field condition is required"))
    pure []
  | some c => do
    let c ← anyFieldP s c
    match OD.get args (bs "then") with
    | none => do
      prim (.log (bs "if: Field then is required"))
      pure []
    | some t => do
      let t ← toQueryP t
      let e ← optQueryP (OD.get args (bs "else"))
      if unexpected [bs "condition", bs "then", bs "else"] args then do
        prim (.log (bs "if: Unexpected arg"))
        pure []
      else do
        let b ← truth c s
        if b then evalBranchP s t
        else match e with
          | some e => evalBranchP s e
          | none => pure []

/-- The key of an aggregate instance: one per syntax node
(functions/aggregates.go:82-87, vfilter.go:1997-2012). -/
def aggId (node : Nat) : Str := List.replicate node 0

variable [FloatOps F]

/-- One call of an aggregate instance on the aggregator context of the scope
(`scope.GetAggregatorCtx().Modify`). -/
def aggP (W : World F Obj) (node s : Nat) (op : AggOp F Obj) : Prog F S (V F) :=
  prim (.ag s (fun ctx => ((aggCall W ctx (aggId node) op).2.toVal, (aggCall W ctx (aggId node) op).1)))

/-- An optional argument field of type `types.Any`. -/
def optFieldP (s : Nat) : Option (V F) → Prog F S (V F)
  | none => pure .null
  | some v => anyFieldP s v

/-- `_CountFunction.Call` and `_EnumerateFunction.Call` (functions/aggregates.go:114-141,
309-337): the optional argument `items` is reduced. -/
def itemsFnP (W : World F Obj) (op : V F → AggOp F Obj) (node s : Nat) (args : OD (V F)) :
    Prog F S (V F) := do
  let item ← optFieldP s (OD.get args (bs "items"))
  if unexpected [bs "items"] args then do
    prim (.log (bs "Unexpected arg"))
    pure .null
  else aggP W node s (op item)

/-- The built-in functions in the model. -/
def stdFn (W : World F Obj) (truth : V F → Nat → Prog F S Bool) (name : Str) (node s : Nat)
    (args : OD (V F)) : Prog F S (V F) :=
  if name = bs "if" then ifFnP truth s args
  else if name = bs "scope" then pure (.obj (.scope s))
  else if name = bs "count" then itemsFnP W (fun _ => .count) node s args
  else if name = bs "enumerate" then itemsFnP W .enumerate node s args
  else pure .null

/-- `scope.Bool` on values that may be lazy (protocols/protocol_bool.go:20-76). -/
def stdTruth (W : World F Obj) (v : V F) (_s : Nat) : Prog F S Bool := do
  let v ← reduceP v
  pure (truthy W v)

/-- `scope.Add`, `Sub`, `Mul`, `Div`.  A panic (only `Mul`) is represented by NULL. -/
def stdArith (W : World F Obj) (op : Arith) (a b : V F) (_s : Nat) : Prog F S (V F) := do
  let a ← reduceP a
  match op with
  | .add => do
    let b ← reduceP b
    pure (addV W a b)
  | .sub => do
    let b ← reduceP b
    pure (subV W a b)
  | .mul => do
    let b ← reduceP b
    pure (match mulV W a b with
      | .ok v => v
      | .panic => .null)
  | .div => pure (divV W (.val a) (.val b))

/-- `scope.Membership`, `Lt`, `Eq`, `Gt`, `Match`. -/
def stdRel (W : World F Obj) (matchF : V F → V F → Bool) (op : Rel) (a b : V F) (_s : Nat) :
    Prog F S Bool := do
  let a ← reduceP a
  let b ← reduceP b
  pure (match op with
    | .mem => memV W a b
    | .lt => ltV W a b
    | .eq => eqV W a b
    | .gt => gtV W a b
    | .match_ => matchF a b)

/-- The package's own functions, plugins and operators, with a set of `sources` (plugins
that deliver fixed rows).  `fmtV` is `fmt.Sprintf("%v")`; sorting is done by insertion. -/
def stdHost (W : World F Obj) (matchF : V F → V F → Bool) (fmtV : V F → Str)
    (colName : Col → Str) (num : Str → Option (V F)) (sources : OD (List (V F))) : Host F S where
  isFn n := n = bs "if" ∨ n = bs "scope" ∨ n = bs "count" ∨ n = bs "enumerate"
  isPlugin n := n = bs "if" ∨ n = bs "scope" ∨ (OD.get sources n).isSome
  fn := stdFn W (stdTruth W)
  plugin name s args :=
    if name = bs "if" then ifPluginP (stdTruth W) s args
    else if name = bs "scope" then pure [.obj (.scope s)]
    else pure ((OD.get sources name).getD [])
  arith := stdArith W
  rel := stdRel W matchF
  truth := stdTruth W
  toStr v _ := do
    let v ← reduceP v
    pure (match v with
      | .str x => x
      | v => fmtV v)
  sort k desc rows _ := pure (insertionSort (rowLess W (fun r => assocStr W r k) desc) rows)
  assocDefault a k _ := pure (some (defaultAssocFlat a k).1, (defaultAssocFlat a k).2)
  hostMembers _ _ := pure []
  colName := colName
  num := num
  stmtText _ := []

end
end Vfilter.Vql
