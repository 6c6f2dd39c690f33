/-!
# The mutexes of scopes and dispatchers

What the calls on a scope lock and unlock, in which order, and what they call
back while they hold a lock.  Go mutexes are not reentrant: a goroutine that
locks a mutex it holds already waits for ever.

A call is turned into the list of its locking steps (`Call.acts`).  Everything
between the steps is left out, except for the places where code of the
application is called (loggers, `Info` of functions and plugins, listing of
members, destructors, methods): these are given as lists of further calls, so
that the callback may do anything the API offers, and is the same whoever is
scheduled before.  A scope's dispatcher is part of the call (`ClearContext`
replaces it, scope/scope.go:180-189), so all histories of such replacements are
included.
-/

namespace Vfilter.Locks

/-- The mutexes: of a lazy method value (protocols/lazy_wrapper.go:113), of a
syntax node (vfilter.go:825, 1218, 1666), of an aggregator context
(scope/aggregators.go:10), of a scope (scope/scope.go:85; scopes are numbered in
the order in which they are created), of the destructors of a scope (31) and of
a dispatcher (scope/dispatcher.go:22). -/
inductive Lock where
  | cell (n : Nat)
  | node (n : Nat)
  | agg (n : Nat)
  | scope (n : Nat)
  | destr (n : Nat)
  | disp (n : Nat)
deriving DecidableEq, Repr

/-- The maps a dispatcher has: functions and plugins (scope/dispatcher.go:24-25).
`ClearContext` makes a dispatcher with a mutex of its own and the *same* maps
(`WithNewContext`, 142-166), so a map is not named by its dispatcher. -/
inductive Table where
  | functions (n : Nat)
  | plugins (n : Nat)
deriving DecidableEq, Repr

/-- A dispatcher: the number of its mutex, and of its pair of maps. -/
structure Disp where
  mutex : Nat
  maps : Nat
deriving DecidableEq, Repr

/-- The function or the plugin map. -/
def Disp.table (d : Disp) (plugin : Bool) : Table :=
  if plugin then .plugins d.maps else .functions d.maps

/-- A locking step: a mutex is locked or unlocked; an access to a map, for
writing or only for reading, begins or ends. -/
inductive Act where
  | lock (l : Lock)
  | unlock (l : Lock)
  | enter (t : Table) (write : Bool)
  | leave (t : Table) (write : Bool)
deriving DecidableEq, Repr

/-- Calls.  Lists of calls are what the application's code does when called
back. -/
inductive Call where
  /-- Calls that only hold the mutex of the scope for a moment: `Copy`
  (scope/scope.go:343-383), `AppendVars` (394-403), `StackDepth`, `IncDepth`,
  `DecDepth`, `GetDepth`, `EnableExplain`, `SetAggregatorCtx`, `ClearContext`,
  `SetContext`. -/
  | touch (s : Nat)
  /-- `IsClosed` (scope/scope.go:483-488): the mutex of the destructors is taken
  while the scope's is held. -/
  | isClosed (s : Nat)
  /-- `AddDestructor` (scope/scope.go:465-481).  On a closed scope the refusal
  is logged with the scope locked; `print` is what the logger does. -/
  | addDestructor (s : Nat) (d : Disp) (closed : Bool) (print : List Call)
  /-- `Close` (scope/scope.go:493-565) of a scope with the given parent: the
  children are closed, the scope leaves its parent, the destructors are taken
  and run, in rounds (`rounds`: what the destructors of each round do), and the
  scope is marked.  No lock is held meanwhile.  In the code each destructor is a
  goroutine that is waited for up to 60 seconds; here it is waited for without
  limit. -/
  | close (s : Nat) (children : List Call) (parent : Option Nat) (rounds : List Call)
  /-- `GetAggregatorCtx` (scope/scope.go:125-138): the scope and its parents are
  locked one inside the other, up to one that has a context (`chain`). -/
  | aggregatorCtx (chain : List Nat)
  /-- `Resolve` (scope/scope.go:630-644): the variables are looked at unlocked
  (`look`).  If the scope is too deep, `look` is the lookup of the name $Query
  and the message that is logged (251-265), and the scope is not locked again. -/
  | resolve (s : Nat) (deep : Bool) (look : List Call)
  /-- `PrintVars` (scope/scope.go:199-212), called for every name that is not
  found (vfilter.go:1196-1204, 1766-1776): the members of the variables are
  listed with the scope locked. -/
  | printVars (s : Nat) (members : List Call)
  /-- `Explainer` (scope/scope.go:620-628): asks the dispatcher, with the scope
  locked, if explaining is on. -/
  | explainer (s : Nat) (d : Disp) (enabled : Bool)
  /-- `NewScope` (scope/scope.go:154-171): the maps of the dispatcher are copied
  with the scope locked, but not the dispatcher (scope/dispatcher.go:168-206). -/
  | newScope (s : Nat) (d : Disp)
  /-- `Log`, `Error`, `Debug`, `Warn` (scope/scope.go:432-446,
  scope/dispatcher.go:254-263): the logger is called unlocked. -/
  | log (d : Disp) (print : List Call)
  /-- Calls that only hold the mutex of the dispatcher for a moment:
  `SetSorter`, `SetGrouper`, `SetMaterializer`, `SetExplainer`, `GetLogger`
  (scope/dispatcher.go:66-119), `AddProtocolImpl` (275-311). -/
  | settings (d : Disp)
  /-- `AppendFunctions`, `AppendPlugins` (scope/dispatcher.go:208-230), for one
  function or plugin: `Info` is called with the dispatcher locked. -/
  | append (d : Disp) (plugin : Bool) (info : List Call)
  /-- `Describe` (scope/dispatcher.go:125-140): `Info` of everything registered
  is called with the dispatcher locked (`plugins`, `functions`). -/
  | describe (d : Disp) (plugins functions : List Call)
  /-- `Info` of a plugin by name (scope/dispatcher.go:242-252): the same. -/
  | info (d : Disp) (info : List Call)
  /-- The function version() (scope/version.go:42-60): `Info` is called with
  nothing locked. -/
  | version (d : Disp) (plugin : Bool) (info : List Call)
  /-- `GetSimilarPlugins` (scope/dispatcher.go:314-332). -/
  | similar (d : Disp)
  /-- `GetFunction`, `GetPlugin` (scope/dispatcher.go:232-240): the map is read
  without locking anything. -/
  | find (d : Disp) (plugin : Bool)
  /-- `AggregatorCtx.Modify` (scope/aggregators.go:14-23): the modifier is called
  with the context locked. -/
  | modify (a : Nat) (modifier : List Call)
  /-- Looking at what a syntax node remembers: `GetName`, `Plugin.Eval`,
  `getFunction`, `callFunction` (vfilter.go:828-852, 1218-1224, 1739-1748,
  1968-1971, 2009-2011). -/
  | remember (n : Nat)
  /-- `_Value.Reduce` of a number that cannot be read (vfilter.go:1641-1667): the
  message is logged with the node locked. -/
  | badNumber (n : Nat) (d : Disp) (print : List Call)
  /-- `LazyFunctionWrapper.Reduce` (protocols/lazy_wrapper.go:121-131): the
  method is called with the value locked. -/
  | method (c : Nat) (run : List Call)

/-- A step between locking and unlocking. -/
def under (l : Lock) (body : List Act) : List Act := .lock l :: body ++ [.unlock l]

/-- An access to a map. -/
def access (t : Table) (write : Bool) : List Act := [.enter t write, .leave t write]

/-- The mutexes of a chain of scopes, one inside the other. -/
def nested : List Nat → List Act
  | [] => []
  | s :: rest => under (.scope s) (nested rest)

mutual
/-- The locking steps of a call. -/
def Call.acts : Call → List Act
  | .touch s => under (.scope s) []
  | .isClosed s => under (.scope s) (under (.destr s) [])
  | .addDestructor s d true print =>
    under (.scope s) (under (.destr s) [] ++ under (.disp d.mutex) [] ++ allActs print)
  | .addDestructor s _ false _ => under (.scope s) (under (.destr s) [] ++ under (.destr s) [])
  | .close s children parent rounds =>
    under (.scope s) [] ++ allActs children ++
      (match parent with | some p => under (.scope p) [] | none => []) ++
      under (.destr s) [] ++ allActs rounds ++ under (.destr s) []
  | .aggregatorCtx chain => nested chain
  | .resolve s deep look =>
    under (.scope s) [] ++ (if deep then [] else under (.scope s) []) ++ allActs look
  | .printVars s members => under (.scope s) (allActs members)
  | .explainer s d true => under (.scope s) (under (.disp d.mutex) [])
  | .explainer s _ false => under (.scope s) []
  | .newScope s d =>
    under (.scope s) (access (d.table false) false ++ access (d.table true) false)
  | .log d print => under (.disp d.mutex) [] ++ allActs print
  | .settings d => under (.disp d.mutex) []
  | .append d plugin info => under (.disp d.mutex) (allActs info ++ access (d.table plugin) true)
  | .describe d plugins functions =>
    under (.disp d.mutex)
      (([.enter (d.table true) false] ++ allActs plugins ++ [.leave (d.table true) false]) ++
        ([.enter (d.table false) false] ++ allActs functions ++ [.leave (d.table false) false]))
  | .info d info => under (.disp d.mutex) (access (d.table true) false ++ allActs info)
  | .version d plugin info =>
    under (.disp d.mutex) (access (d.table plugin) false) ++ allActs info
  | .similar d => under (.disp d.mutex) (access (d.table true) false)
  | .find d plugin => access (d.table plugin) false
  | .modify a modifier => under (.agg a) (allActs modifier)
  | .remember n => under (.node n) [] ++ under (.node n) []
  | .badNumber n d print => under (.node n) (under (.disp d.mutex) [] ++ allActs print)
  | .method c run => under (.cell c) (allActs run)

/-- The steps of calls made one after the other. -/
def allActs : List Call → List Act
  | [] => []
  | c :: rest => c.acts ++ allActs rest
end

/-- A goroutine: the steps before it, the mutexes it holds, and the accesses it
is in the middle of. -/
structure Gor where
  todo : List Act
  holds : List Lock
  inside : List (Table × Bool)
deriving DecidableEq, Repr

/-- A goroutine that is about to make some calls. -/
def Gor.start (calls : List Call) : Gor := ⟨allActs calls, [], []⟩

/-- The next step of goroutine `i`; `none` if it has none, or waits for a mutex
that is held (sync.Mutex). -/
def step (gs : List Gor) (i : Nat) : Option (List Gor) :=
  match gs[i]? with
  | none => none
  | some g => match g.todo with
    | [] => none
    | .lock l :: rest =>
      if gs.any (fun h => h.holds.contains l) then none
      else some (gs.set i ⟨rest, l :: g.holds, g.inside⟩)
    | .unlock l :: rest => some (gs.set i ⟨rest, g.holds.erase l, g.inside⟩)
    | .enter t w :: rest => some (gs.set i ⟨rest, g.holds, (t, w) :: g.inside⟩)
    | .leave t w :: rest => some (gs.set i ⟨rest, g.holds, g.inside.erase (t, w)⟩)

/-- An execution: the goroutine that makes each step. -/
def run (gs : List Gor) : List Nat → Option (List Gor)
  | [] => some gs
  | i :: is => match step gs i with
    | some gs' => run gs' is
    | none => none

end Vfilter.Locks
