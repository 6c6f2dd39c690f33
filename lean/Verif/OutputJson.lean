import Verif.Base
/-!
# OutputJSON (api.go:105-125)

The loop that collects the rows of a query, charges the throttler of the scope after each row (scope/scope.go:245-249)
and encodes the rows at the end, as a state machine beside the query that sends the rows, the ticks of the throttler
(throttle.go:15-28; a tick is kept if nobody waits for it, one at most) and the caller who may cancel the query.

Simplifications: the rows of the query are given; when the query is cancelled it may end after any of them (C39).
Encoder and `RowToDict` are functions.
-/

namespace Vfilter.OutputJson

/-- The throttler of the scope: none, one that ticks, one that is closed. -/
inductive Thr where
  | none
  | ticking
  | closed
deriving DecidableEq, Repr

/-- Where the loop is: at `range output_chan` (api.go:113), in `ChargeOp` (118), after the loop (121), returned. -/
inductive At (B : Type) where
  | receiving
  | charging
  | encoding
  | done (b : B)

/-- The state.  `todo` are the rows the query has not sent yet, `acc` is `result`; `tick` tells if a tick is waiting. -/
structure St (R D B : Type) where
  todo : List R
  sent : List R
  acc : List D
  pos : At B
  thr : Thr
  tick : Bool
  ticks : Nat
  charges : Nat
  cancelled : Bool

variable {R D B : Type}

/-- The call begins (api.go:110-111). -/
def St.init (rows : List R) (thr : Thr) : St R D B := ⟨rows, [], [], .receiving, thr, false, 0, 0, false⟩

/-- What can happen next. -/
inductive Step (dict : R → D) (enc : List D → B) : St R D B → St R D B → Prop
  /-- a row is received, converted and appended (api.go:113-115) -/
  | row {s r rest} (hp : s.pos = .receiving) (h : s.todo = r :: rest) :
    Step dict enc s { s with todo := rest, sent := s.sent ++ [r], acc := s.acc ++ [dict r], pos := .charging }
  /-- `ChargeOp` without a throttler, or with one that is closed (throttle.go:18) -/
  | free {s} (hp : s.pos = .charging) (h : s.thr ≠ .ticking) :
    Step dict enc s { s with pos := .receiving, charges := s.charges + 1 }
  /-- `ChargeOp` takes a tick (throttle.go:17) -/
  | take {s} (hp : s.pos = .charging) (h : s.thr = .ticking) (ht : s.tick = true) :
    Step dict enc s { s with pos := .receiving, charges := s.charges + 1, tick := false }
  /-- the ticker ticks; the tick is dropped if one is waiting -/
  | tick {s} (h : s.thr = .ticking) : Step dict enc s { s with tick := true, ticks := s.ticks + 1 }
  /-- the throttler is closed -/
  | closeThr {s} (h : s.thr = .ticking) : Step dict enc s { s with thr := .closed }
  /-- the query has sent its rows, or was cancelled, and closes its channel -/
  | eof {s} (hp : s.pos = .receiving) (h : s.todo = [] ∨ s.cancelled = true) : Step dict enc s { s with pos := .encoding }
  /-- the rows are encoded (api.go:121-122) -/
  | encode {s} (hp : s.pos = .encoding) : Step dict enc s { s with pos := .done (enc s.acc) }
  /-- the caller cancels -/
  | cancel {s} : Step dict enc s { s with cancelled := true }

end Vfilter.OutputJson
