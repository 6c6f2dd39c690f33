import Verif.Conc
/-!
# Nested queries: goroutines connected by channels

Every goroutine between the source of a query and its reader is a `Stage`: it waits for a row on its
input, sends some rows for it, and waits again; when its input is closed it may send further rows, and it
closes its output.  The channels are unbuffered, so a send and the matching receive are one step.  What a
goroutine sends may depend on all rows it has received before (aggregate functions, groups, a counter), but
not on what other goroutines do meanwhile.
-/
set_option linter.all false

namespace Vfilter.Pipe

/-- What a goroutine does if the context is cancelled while it sends. -/
inductive SendQuit where
  /-- It does not look at the context. -/
  | never
  /-- It gives up what it has to send and waits for the next row. -/
  | skip
  /-- It returns. -/
  | quit
  deriving DecidableEq

/-- A goroutine with an input and an output channel. -/
structure Stage (V : Type) where
  /-- The rows sent for a row, given the rows received before. -/
  emit : List V → V → List V
  /-- It returns after having sent these. -/
  last : List V → V → Bool := fun _ _ => false
  /-- The rows sent when the input is closed. -/
  flush : List V → List V := fun _ => []
  /-- It cancels the context of its input when it returns. -/
  cancels : Bool := false
  /-- If waiting for a row ends with the context: the rows it then still sends before it returns. -/
  waitQuit : Option (List V → List V) := none
  sendQuit : SendQuit

/-- Where a goroutine is. -/
inductive Pc (V : Type) where
  | waiting
  /-- Rows to send; then it waits for the next row, or returns. -/
  | sending (rows : List V) (done : Bool)
  | closed

/-- Goroutines that together deliver rows on one channel. -/
inductive Net (V : Type) where
  /-- A goroutine, the rows it has received, where it is, whether its context is cancelled, its input. -/
  | stage (s : Stage V) (hist : List V) (pc : Pc V) (cancelled : Bool) (inp : Net V)
  /-- Channels read one after the other; the second is not started yet. -/
  | seq (a b : Net V)
  /-- The first channel is closed, the second is being read. -/
  | after (a b : Net V)
  /-- A closed channel. -/
  | nil

variable {V : Type}

/-- The channel is closed. -/
def Net.closed : Net V → Bool
  | .stage _ _ .closed _ _ => true
  | .stage _ _ _ _ _ => false
  | .seq _ _ => false
  | .after _ b => b.closed
  | .nil => true

/-- The context of these goroutines is cancelled. -/
def Net.cancel : Net V → Net V
  | .stage s h pc _ t => .stage s h pc true t.cancel
  | .seq a b => .seq a.cancel b.cancel
  | .after a b => .after a.cancel b.cancel
  | .nil => .nil

/-- The reader turns to the next channel. -/
def Net.next : Net V → Option (Net V)
  | .seq a b => match a.next with
    | some a' => some (.seq a' b)
    | none => if a.closed then some (.after a b) else none
  | .after a b => match b.next with
    | some b' => some (.after a b')
    | none => none
  | _ => none

/-- A step of one of the goroutines; `some v` if it is sending `v` to the reader. -/
inductive NStep : Option V → Net V → Net V → Prop where
  | inner {s h pc c t t'} : NStep none t t' → NStep none (.stage s h pc c t) (.stage s h pc c t')
  | recv {s h c t t' v} : NStep (some v) t t' →
      NStep none (.stage s h .waiting c t) (.stage s (h ++ [v]) (.sending (s.emit h v) (s.last h v)) c t')
  | next {s h c t t'} : t.next = some t' → NStep none (.stage s h .waiting c t) (.stage s h .waiting c t')
  | eof {s h c t} : t.closed = true →
      NStep none (.stage s h .waiting c t) (.stage s h (.sending (s.flush h) true) c t)
  | send {s h v vs d c t} : NStep (some v) (.stage s h (.sending (v :: vs) d) c t) (.stage s h (.sending vs d) c t)
  | again {s h c t} : NStep none (.stage s h (.sending [] false) c t) (.stage s h .waiting c t)
  | done {s h c t} : NStep none (.stage s h (.sending [] true) c t)
      (.stage s h .closed c (if s.cancels then t.cancel else t))
  | quitWait {s h t f} : s.waitQuit = some f →
      NStep none (.stage s h .waiting true t) (.stage s h (.sending (f h) true) true t)
  | skip {s h v vs d t} : s.sendQuit = .skip →
      NStep none (.stage s h (.sending (v :: vs) d) true t) (.stage s h (.sending [] d) true t)
  | quit {s h v vs d t} : s.sendQuit = .quit →
      NStep none (.stage s h (.sending (v :: vs) d) true t) (.stage s h (.sending [] true) true t)
  | left {l a a' b} : NStep l a a' → NStep l (.seq a b) (.seq a' b)
  | right {l a b b'} : NStep l b b' → NStep l (.after a b) (.after a b')
  | old {a a' b} : NStep none a a' → NStep none (.after a b) (.after a' b)

/-- A running query, the rows read from it, and whether its context was cancelled. -/
structure Run (V : Type) where
  net : Net V
  out : List V
  cancelled : Bool

/-- Steps of a running query. -/
inductive RStep : By → Run V → Run V → Prop where
  | work {n n' o c} : NStep none n n' → RStep .proc ⟨n, o, c⟩ ⟨n', o, c⟩
  | read {n n' o c v} : NStep (some v) n n' → RStep .consumer ⟨n, o, c⟩ ⟨n', o ++ [v], c⟩
  | cancel {n o} : RStep .env ⟨n, o, false⟩ ⟨n.cancel, o, true⟩

/-- No goroutine is left.  Channels that were never read from have none. -/
def Net.ended : Net V → Bool
  | .stage _ _ .closed _ t => t.ended
  | .stage _ _ _ _ _ => false
  | .seq a _ => a.ended
  | .after a b => a.ended && b.ended
  | .nil => true

/-! ## The goroutines of queries -/

/-- A source that sends a list (plugins/generic.go:42-52, vfilter.go:1336-1360). -/
def srcS (rows : List V) : Stage V := { emit := fun _ _ => [], flush := fun _ => rows, sendQuit := .quit }

/-- The row loop of SELECT (vfilter.go:688-713, 718-770); `f` gives the row, `none` if WHERE rejects it. -/
def selS (f : List V → V → Option V) : Stage V :=
  { emit := fun h v => (f h v).toList, waitQuit := some fun _ => [], sendQuit := .skip }

/-- Passing rows on: `_From.Eval` (vfilter.go:1152-1171), `_StoredQuery.Eval` (stored.go:64-84), chain
(plugins/chain.go:41-57). -/
def fwdS : Stage V := { emit := fun _ v => [v], sendQuit := .quit }

/-- `VQL.Eval` (vfilter.go:498-522). -/
def stmtS : Stage V := { emit := fun _ v => [v], waitQuit := some fun _ => [], sendQuit := .quit }

/-- LIMIT (vfilter.go:618-646): `count` is one more than the number of rows sent. -/
def limS (n : Int) : Stage V :=
  { emit := fun _ v => [v], last := fun h _ => decide ((h.length : Int) + 2 > n), cancels := true, sendQuit := .quit }

/-- GROUP BY (grouper/grouper.go:19-75, vfilter_group.go:29-74); `g` gives the rows of the groups. -/
def grpS (g : List V → List V) : Stage V := { emit := fun _ _ => [], flush := g, sendQuit := .quit }

/-- The goroutine feeding the sorter (vfilter.go:667-678). -/
def feedS : Stage V := { emit := fun _ v => [v], sendQuit := .never }

/-- The sorter (sort/sort.go:25-58): if cancelled while collecting it sends what it has. -/
def srtS (srt : List V → List V) : Stage V :=
  { emit := fun _ _ => [], flush := srt, waitQuit := some srt, sendQuit := .quit }

/-- flatten (plugins/flatten.go:32-50). -/
def flatS (f : V → List V) : Stage V := { emit := fun _ v => f v, sendQuit := .quit }

/-- Queries built from others. -/
inductive Query (V : Type) where
  /-- A source of rows. -/
  | src (rows : List V)
  /-- `SELECT … FROM q WHERE …`. -/
  | select (f : List V → V → Option V) (q : Query V)
  /-- `SELECT … FROM q … GROUP BY …`. -/
  | group (g : List V → List V) (q : Query V)
  /-- The query with ORDER BY. -/
  | order (srt : List V → List V) (q : Query V)
  /-- The query with LIMIT. -/
  | limit (n : Int) (q : Query V)
  /-- A stored query used as a source. -/
  | stored (q : Query V)
  /-- `flatten(query={q})`. -/
  | flatten (f : V → List V) (q : Query V)
  /-- `chain(a={a}, b={b})`. -/
  | chain (a b : Query V)
  /-- A statement. -/
  | stmt (q : Query V)

/-- A goroutine at its start. -/
def start (s : Stage V) (t : Net V) : Net V := .stage s [] .waiting false t

/-- The goroutines of a query. -/
def Query.net : Query V → Net V
  | .src rows => start (srcS rows) .nil
  | .select f q => start (selS f) (start fwdS q.net)
  | .group g q => start (grpS g) (start fwdS q.net)
  | .order srt q => start (srtS srt) (start feedS q.net)
  | .limit n q => start (limS n) q.net
  | .stored q => start fwdS q.net
  | .flatten f q => start (flatS f) q.net
  | .chain a b => start fwdS (.seq a.net (.seq b.net .nil))
  | .stmt q => start stmtS q.net

/-- A query at its start. -/
def Query.start (q : Query V) : Run V := ⟨q.net, [], false⟩

end Vfilter.Pipe
