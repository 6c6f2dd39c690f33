import Verif.Funcs
/-!
# The registry of a scope (scope/dispatcher.go)

Functions, plugins, operator implementations, the sorter, grouper, materializer,
explainer, loggers and the named context values of a scope live in a
`protocolDispatcher`, which several scopes share by reference.  The functions and the
plugins are Go maps, which several dispatchers share by reference.  One heap holds all
scopes, dispatchers and maps ever created.
-/

set_option linter.all false

namespace Vfilter.Disp

/-- The protocol interfaces, in the order of the type switch of `AddProtocolImpl`
(scope/dispatcher.go:273-299). -/
inductive Proto where
  | bool | eq | lt | gt | add | sub | mul | div | membership | associative | regex | iterate
  deriving DecidableEq, Repr

/-- The cases of the type switch from top to bottom (scope/dispatcher.go:273-295). -/
def Proto.all : List Proto :=
  [.bool, .eq, .lt, .gt, .add, .sub, .mul, .div, .membership, .associative, .regex, .iterate]

/-- An object passed to `AddProtocolImpl`: its identity and the protocol interfaces its
method set satisfies. -/
structure Impl where
  id : Nat
  sat : List Proto
  deriving DecidableEq, Repr

/-- The case taken by the type switch: the first satisfied interface; `none` is the
default case, which panics (scope/dispatcher.go:273-299). -/
def Impl.proto (i : Impl) : Option Proto := Proto.all.find? (fun p => decide (p ∈ i.sat))

/-- A registered function or plugin: its identity and `Info().Version`. -/
structure Reg where
  id : Nat
  version : Nat
  deriving DecidableEq, Repr

/-- `protocolDispatcher` (scope/dispatcher.go:21-56).  `fns` and `plugins` are references
to Go maps.  `Stats` is omitted. -/
structure Box (V : Type) where
  fns : Nat
  plugins : Nat
  impls : Proto → List Impl
  ctx : OD V
  sorter : Nat
  grouper : Nat
  materializer : Nat
  explainer : Option Nat
  logger : Option Nat
  tracer : Option Nat

/-- The parts of `Scope` that concern the registry (scope/scope.go:85-113). -/
structure Sc where
  box : Nat
  explain : Bool
  deriving DecidableEq, Repr

structure Heap (V : Type) where
  scopes : List Sc
  boxes : List (Box V)
  fmaps : List (OD Reg)
  pmaps : List (OD Reg)

/-- What the package registers in every new root scope: `GetBuiltinTypes` and the
materializer, `GetBuiltinFunctions` and `_GetVersion`, `GetBuiltinPlugins`
(scope/scope.go:581-591). -/
structure Builtin where
  fns : List (Str × Reg)
  plugins : List (Str × Reg)
  impls : List Impl

section
variable {V : Type}

/-- Go `m[k] = v` for every pair in order, as `AppendFunctions` and `AppendPlugins` do
(scope/dispatcher.go:206-228). -/
def setAll (m : OD Reg) (l : List (Str × Reg)) : OD Reg := l.foldl (fun m p => m.set p.1 p.2) m

/-- One round of the loop of `AddProtocolImpl`: `AddImpl` of the protocol puts the element
in front (scope/dispatcher.go:272-299, protocols/protocol_add.go:109-113). -/
def putImpl (t : Proto → List Impl) (p : Proto) (i : Impl) : Proto → List Impl :=
  fun q => if q = p then i :: t q else t q

/-- `AddProtocolImpl` (scope/dispatcher.go:268-301): the table afterwards, and whether it
panicked; the implementations before the unsupported one stay registered. -/
def addImpls (t : Proto → List Impl) : List Impl → (Proto → List Impl) × Bool
  | [] => (t, false)
  | i :: is => match i.proto with
    | some p => addImpls (putImpl t p i) is
    | none => (t, true)

/-- Calls on scopes; scopes are named by the order in which they were created. -/
inductive Op (V : Type) where
  /-- the factory `NewScope()` (scope/scope.go:572-594) -/
  | newRoot
  /-- the method `scope.NewScope()` (scope/scope.go:154-172) -/
  | newScope (s : Nat)
  /-- `scope.Copy()` (scope/scope.go:343-384) -/
  | copy (s : Nat)
  /-- `scope.ClearContext()` (scope/scope.go:181-190) -/
  | clearContext (s : Nat)
  /-- `scope.SetContext(name, value)` (scope/scope.go:192-197) -/
  | setContext (s : Nat) (name : Str) (v : V)
  /-- `scope.AppendFunctions(functions...)` with their `Info().Name` (scope/scope.go:408-411) -/
  | appendFunctions (s : Nat) (l : List (Str × Reg))
  /-- `scope.AppendPlugins(plugins...)` (scope/scope.go:415-418) -/
  | appendPlugins (s : Nat) (l : List (Str × Reg))
  /-- `scope.AddProtocolImpl(implementations...)` (scope/scope.go:389-392) -/
  | addImpls (s : Nat) (l : List Impl)
  | setSorter (s : Nat) (x : Nat)
  | setGrouper (s : Nat) (x : Nat)
  | setMaterializer (s : Nat) (x : Nat)
  /-- `scope.SetExplainer(explainer)` (scope/scope.go:612-614) -/
  | setExplainer (s : Nat) (x : Option Nat)
  | setLogger (s : Nat) (x : Option Nat)
  | setTracer (s : Nat) (x : Option Nat)
  /-- `scope.EnableExplain()` (scope/scope.go:616-621) -/
  | enableExplain (s : Nat)

/-- Change the dispatcher of a scope. -/
def Heap.onBox (h : Heap V) (s : Nat) (f : Box V → Box V) : Heap V :=
  match h.scopes[s]? with
  | none => h
  | some sc => { h with boxes := h.boxes.modify sc.box f }

/-- The dispatcher of a scope. -/
def Heap.box (h : Heap V) (s : Nat) : Option (Box V) :=
  match h.scopes[s]? with
  | none => none
  | some sc => h.boxes[sc.box]?

/-- One call.  Calls on scopes that do not exist do nothing. -/
def Heap.step (b : Builtin) (h : Heap V) : Op V → Heap V
  | .newRoot =>
    -- newprotocolDispatcher, AddProtocolImpl, AppendFunctions, AppendPlugins
    -- (scope/dispatcher.go:333-345, scope/scope.go:572-594)
    { scopes := h.scopes ++ [⟨h.boxes.length, false⟩]
      boxes := h.boxes ++ [{ fns := h.fmaps.length, plugins := h.pmaps.length,
                             impls := (Disp.addImpls (fun _ => []) b.impls).1, ctx := [],
                             sorter := 0, grouper := 0, materializer := 0, explainer := none,
                             logger := none, tracer := none }]
      fmaps := h.fmaps ++ [setAll [] b.fns]
      pmaps := h.pmaps ++ [setAll [] b.plugins] }
  | .newScope s =>
    -- dispatcher.Copy (scope/dispatcher.go:163-204): new maps with the same entries, a
    -- new table, an empty context
    match h.box s with
    | none => h
    | some x =>
      { scopes := h.scopes ++ [⟨h.boxes.length, false⟩]
        boxes := h.boxes ++ [{ x with fns := h.fmaps.length, plugins := h.pmaps.length, ctx := [] }]
        fmaps := h.fmaps ++ [(h.fmaps[x.fns]?).getD []]
        pmaps := h.pmaps ++ [(h.pmaps[x.plugins]?).getD []] }
  | .copy s =>
    match h.scopes[s]? with
    | none => h
    | some sc =>
      { h with scopes := h.scopes ++ [sc] }
  | .clearContext s =>
    -- WithNewContext (scope/dispatcher.go:136-161): the maps are shared, `explainer` is
    -- not among the fields copied
    match h.scopes[s]?, h.box s with
    | some sc, some x =>
      { h with scopes := h.scopes.set s { sc with box := h.boxes.length }
               boxes := h.boxes ++ [{ x with ctx := [], explainer := none }] }
    | _, _ => h
  | .setContext s k v => h.onBox s (fun x => { x with ctx := x.ctx.set k v })
  | .appendFunctions s l =>
    match h.box s with
    | none => h
    | some x => { h with fmaps := h.fmaps.modify x.fns (fun m => setAll m l) }
  | .appendPlugins s l =>
    match h.box s with
    | none => h
    | some x => { h with pmaps := h.pmaps.modify x.plugins (fun m => setAll m l) }
  | .addImpls s l => h.onBox s (fun x => { x with impls := (Disp.addImpls x.impls l).1 })
  | .setSorter s v => h.onBox s (fun x => { x with sorter := v })
  | .setGrouper s v => h.onBox s (fun x => { x with grouper := v })
  | .setMaterializer s v => h.onBox s (fun x => { x with materializer := v })
  | .setExplainer s v => h.onBox s (fun x => { x with explainer := v })
  | .setLogger s v => h.onBox s (fun x => { x with logger := v })
  | .setTracer s v => h.onBox s (fun x => { x with tracer := v })
  | .enableExplain s => { h with scopes := h.scopes.modify s (fun sc => { sc with explain := true }) }

/-- The heap after a history of calls, the newest call first. -/
def run (b : Builtin) : List (Op V) → Heap V
  | [] => ⟨[], [], [], []⟩
  | op :: h => (run b h).step b op

/-! ## What a scope shows -/

/-- The functions of a scope. -/
def Heap.fmap (h : Heap V) (s : Nat) : Option (OD Reg) := (h.box s).bind fun x => h.fmaps[x.fns]?

/-- The plugins of a scope. -/
def Heap.pmap (h : Heap V) (s : Nat) : Option (OD Reg) := (h.box s).bind fun x => h.pmaps[x.plugins]?

/-- `scope.GetFunction(name)` (scope/scope.go:420-422). -/
def Heap.getFunction (h : Heap V) (s : Nat) (name : Str) : Option Reg :=
  (h.fmap s).bind fun m => m.get name

/-- `scope.GetPlugin(name)` (scope/scope.go:424-426). -/
def Heap.getPlugin (h : Heap V) (s : Nat) (name : Str) : Option Reg :=
  (h.pmap s).bind fun m => m.get name

/-- `scope.GetContext(name)` (scope/scope.go:177-179). -/
def Heap.getContext (h : Heap V) (s : Nat) (name : Str) : Option V :=
  (h.box s).bind fun x => x.ctx.get name

/-- The implementations of a protocol a scope searches, in the order of the search. -/
def Heap.impls (h : Heap V) (s : Nat) (p : Proto) : List Impl :=
  match h.box s with
  | none => []
  | some x => x.impls p

/-- `scope.Explainer()` (scope/scope.go:623-631, scope/dispatcher.go:90-99); `none` is
`NULL_EXPLAINER`. -/
def Heap.explainerOf (h : Heap V) (s : Nat) : Option Nat :=
  match h.scopes[s]? with
  | none => none
  | some sc => if sc.explain then (h.boxes[sc.box]?).bind (·.explainer) else none

/-- The result of `version()`: `vqlNull` is `types.Null{}`. -/
inductive VersionResult where
  | version (n : Nat)
  | null
  | zero
  deriving DecidableEq, Repr

/-- `_GetVersion.Call` after its arguments were parsed (scope/version.go:37-62); an absent
argument is the empty string. -/
def Heap.version (h : Heap V) (s : Nat) (function plugin : Str) : VersionResult :=
  if plugin ≠ [] then
    match h.getPlugin s plugin with
    | some r => .version r.version
    | none => .null
  else if function ≠ [] then
    match h.getFunction s function with
    | some r => .version r.version
    | none => .null
  else .zero

/-- `utils.InString` (utils/utils.go:53-61). -/
def inString (l : List Str) (k : Str) : Bool := l.any (fun x => decide (x = k))

/-- The inner loop of `GetSimilarPlugins` for one part (scope/dispatcher.go:313-318);
`keys` is the order in which the Go map is ranged over. -/
def similarPart (part : Str) (result : List Str) (keys : List Str) : List Str :=
  keys.foldl (fun acc k => if strContains k part && !inString acc k then acc ++ [k] else acc) result

/-- `sort.Strings` (scope/dispatcher.go:321). -/
def insertStr (k : Str) : List Str → List Str
  | [] => [k]
  | x :: xs => if strLt k x then k :: x :: xs else x :: insertStr k xs

def sortStrings (l : List Str) : List Str := l.foldr insertStr []

/-- `GetSimilarPlugins` (scope/dispatcher.go:304-324); every part ranges over the map in
an order of its own. -/
def similarPlugins (name : Str) (orders : List (List Str)) : List Str :=
  let parts := splitBy (bs "_") name
  sortStrings ((parts.zip orders).foldl (fun acc po => similarPart po.1 acc po.2) [])

end
end Vfilter.Disp
