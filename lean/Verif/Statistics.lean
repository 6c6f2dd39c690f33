import Verif.Base
/-!
# The statistics of a scope (types/stats.go)

Five counters that any number of goroutines increment with `atomic.AddUint64` and read with `atomic.LoadUint64`.  The
counters belong to the dispatcher (scope/dispatcher.go:27, 121-123), which scopes share with their copies; `NewScope` and
`ClearContext` make dispatchers with counters of their own (143, 181, 340).

Only the steps on counters are modelled; everything goroutines do otherwise lies between them.
-/

namespace Vfilter.Statistics

/-- The counters (types/stats.go:11-25). -/
inductive Ctr where
  | rows
  | plugins
  | functions
  | protocol
  | copies
deriving DecidableEq, Repr

/-- An atomic step on a counter of dispatcher `d`. -/
inductive Act where
  | inc (d : Nat) (c : Ctr)
  | load (d : Nat) (c : Ctr)
deriving DecidableEq, Repr

/-- What a goroutine does with statistics. -/
inductive Call where
  /-- a plugin sends a row (vfilter.go:1159) -/
  | row (d : Nat)
  /-- a plugin is called (vfilter.go:1283) -/
  | plugin (d : Nat)
  /-- a function is called (vfilter.go:1859, 1888, 1996, 2014) -/
  | function (d : Nat)
  /-- a scope is copied (scope/scope.go:347) -/
  | copy (d : Nat)
  /-- `Snapshot` (types/stats.go:47-54) -/
  | snapshot (d : Nat)
deriving DecidableEq, Repr

/-- The steps of a call (types/stats.go:27-54).  `IncProtocolSearch` (39-41) is not called by anything. -/
def Call.acts : Call → List Act
  | .row d => [.inc d .rows]
  | .plugin d => [.inc d .plugins]
  | .function d => [.inc d .functions]
  | .copy d => [.inc d .copies]
  | .snapshot d => [.load d .rows, .load d .plugins, .load d .functions, .load d .protocol, .load d .copies]

/-- A goroutine: the steps before it and what it has read. -/
structure Gor where
  todo : List Act
  got : List (Nat × Ctr × BitVec 64)
deriving DecidableEq, Repr

/-- The counters of all dispatchers, and the goroutines. -/
structure St where
  mem : Nat → Ctr → BitVec 64
  gors : List Gor

/-- Goroutines that are about to make calls; all counters are zero. -/
def St.start (calls : List (List Call)) : St := ⟨fun _ _ => 0#64, calls.map (fun cs => ⟨cs.flatMap Call.acts, []⟩)⟩

/-- A counter is incremented. -/
def bump (mem : Nat → Ctr → BitVec 64) (d : Nat) (c : Ctr) : Nat → Ctr → BitVec 64 :=
  fun d' c' => if d' = d ∧ c' = c then mem d' c' + 1#64 else mem d' c'

/-- The next step of goroutine `i`. -/
def St.step (s : St) (i : Nat) : St :=
  match s.gors[i]? with
  | none => s
  | some g => match g.todo with
    | [] => s
    | .inc d c :: rest => ⟨bump s.mem d c, s.gors.set i ⟨rest, g.got⟩⟩
    | .load d c :: rest => ⟨s.mem, s.gors.set i ⟨rest, g.got ++ [(d, c, s.mem d c)]⟩⟩

/-- An execution: the goroutine that makes each step. -/
def St.run (s : St) (sched : List Nat) : St := sched.foldl St.step s

end Vfilter.Statistics
