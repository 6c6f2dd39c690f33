import Verif.Base
/-!
# Goroutines and channels as state machines

Each operator is a machine whose steps are labelled with who performs them.  All Go
channels involved are unbuffered, so a send and the matching receive are one step.  An
input is another operator's output channel: it delivers its remaining rows one by one and
is then closed; once the context is cancelled it may be closed early.  A `select` with
several ready cases is a nondeterministic choice.
-/

namespace Vfilter

/-- Who performs a step: the goroutines of the operator itself, the operator's input, the
reader of its output, or the environment (cancellation and timers). -/
inductive By where
  | proc | input | consumer | env
  deriving DecidableEq

/-- Executions: zero or more steps. -/
inductive Steps {σ : Type} (step : By → σ → σ → Prop) : σ → σ → Prop where
  | refl {s} : Steps step s s
  | tail {s t u b} : Steps step s t → step b t u → Steps step s u

/-! ## The row loop of SELECT (vfilter.go:688-713, 718-770) -/

/-- State of the row loop.  `hold` is the transformed row being sent
(vfilter.go:731-737, 759-765). -/
structure SelSt (R O : Type) where
  input : List R
  hold : Option O
  out : List O
  cancelled : Bool
  closed : Bool

/-- `_Select.Eval` (vfilter.go:688-713) with `processSingleRow` (vfilter.go:718-770); `f` is the
transformation, `none` if the WHERE clause rejects the row. -/
inductive SelStep {R O : Type} (f : R → Option O) : By → SelSt R O → SelSt R O → Prop where
  | recv {r rs out c o} : f r = some o →
      SelStep f .input ⟨r :: rs, none, out, c, false⟩ ⟨rs, some o, out, c, false⟩
  | reject {r rs out c} : f r = none →
      SelStep f .input ⟨r :: rs, none, out, c, false⟩ ⟨rs, none, out, c, false⟩
  | send {rs o out c} : SelStep f .consumer ⟨rs, some o, out, c, false⟩ ⟨rs, none, out ++ [o], c, false⟩
  /-- `case <-ctx.Done(): return` in `processSingleRow` (vfilter.go:732, 760): only this row is given up. -/
  | drop {rs o out} : SelStep f .proc ⟨rs, some o, out, true, false⟩ ⟨rs, none, out, true, false⟩
  | finish {out c} : SelStep f .proc ⟨[], none, out, c, false⟩ ⟨[], none, out, c, true⟩
  /-- `case <-ctx.Done(): return` (vfilter.go:700). -/
  | abort {rs out} : SelStep f .proc ⟨rs, none, out, true, false⟩ ⟨rs, none, out, true, true⟩
  | inputEnds {r rs out h} : SelStep f .input ⟨r :: rs, h, out, true, false⟩ ⟨[], h, out, true, false⟩
  | cancel {rs h out cl} : SelStep f .env ⟨rs, h, out, false, cl⟩ ⟨rs, h, out, true, cl⟩

/-! ## LIMIT (vfilter.go:618-646) -/

/-- State of the LIMIT goroutine.  `taken` are the rows received from the sub query,
`subCancelled` is the state of the sub context. -/
structure LimSt (R : Type) where
  input : List R
  hold : Option R
  count : Int
  taken : List R
  out : List R
  cancelled : Bool
  subCancelled : Bool
  closed : Bool

/-- The LIMIT goroutine (vfilter.go:619-643).  `count` starts at 1. -/
inductive LimStep {R : Type} (limit : Int) : By → LimSt R → LimSt R → Prop where
  | recv {r rs n tk out c sc} :
      LimStep limit .input ⟨r :: rs, none, n, tk, out, c, sc, false⟩
        ⟨rs, some r, n, tk ++ [r], out, c, sc, false⟩
  /-- `output_chan <- row`, `count += 1`, `if count > limit { return }` with the deferred `cancel()`
  and `close(output_chan)`. -/
  | sendLast {r rs n tk out c sc} : n + 1 > limit →
      LimStep limit .consumer ⟨rs, some r, n, tk, out, c, sc, false⟩
        ⟨rs, none, n + 1, tk, out ++ [r], c, true, true⟩
  | send {r rs n tk out c sc} : ¬ n + 1 > limit →
      LimStep limit .consumer ⟨rs, some r, n, tk, out, c, sc, false⟩
        ⟨rs, none, n + 1, tk, out ++ [r], c, sc, false⟩
  | abort {r rs n tk out sc} :
      LimStep limit .proc ⟨rs, some r, n, tk, out, true, sc, false⟩
        ⟨rs, none, n, tk, out, true, true, true⟩
  | finish {n tk out c sc} :
      LimStep limit .proc ⟨[], none, n, tk, out, c, sc, false⟩ ⟨[], none, n, tk, out, c, true, true⟩
  | inputEnds {r rs h n tk out} :
      LimStep limit .input ⟨r :: rs, h, n, tk, out, true, true, false⟩ ⟨[], h, n, tk, out, true, true, false⟩
  | cancel {rs h n tk out sc cl} :
      LimStep limit .env ⟨rs, h, n, tk, out, false, sc, cl⟩ ⟨rs, h, n, tk, out, true, true, cl⟩

/-! ## ORDER BY (vfilter.go:654-681, sort/sort.go:12-60) -/

/-- The goroutine feeding the sorter (vfilter.go:667-678). -/
inductive Feeder (R : Type) where
  | reading
  | sending (r : R)
  | closed

/-- The sorter goroutine (sort/sort.go:25-58). -/
inductive Sorter (R : Type) where
  | collecting (items : List R)
  | dumping (rest : List R)
  | closed

/-- State of ORDER BY. -/
structure OrdSt (R : Type) where
  input : List R
  feeder : Feeder R
  sorter : Sorter R
  out : List R
  cancelled : Bool

/-- ORDER BY; `srt` is `sort.Sort` on the collected rows.  The feeder's send has no cancellation
case (vfilter.go:676). -/
inductive OrdStep {R : Type} (srt : List R → List R) : By → OrdSt R → OrdSt R → Prop where
  | recv {r rs s out c} : OrdStep srt .input ⟨r :: rs, .reading, s, out, c⟩ ⟨rs, .sending r, s, out, c⟩
  | feederEnd {s out c} : OrdStep srt .proc ⟨[], .reading, s, out, c⟩ ⟨[], .closed, s, out, c⟩
  | collect {r rs items out c} :
      OrdStep srt .proc ⟨rs, .sending r, .collecting items, out, c⟩ ⟨rs, .reading, .collecting (items ++ [r]), out, c⟩
  | inputClosed {rs items out c} :
      OrdStep srt .proc ⟨rs, .closed, .collecting items, out, c⟩ ⟨rs, .closed, .dumping (srt items), out, c⟩
  | sortCancel {rs f items out} :
      OrdStep srt .proc ⟨rs, f, .collecting items, out, true⟩ ⟨rs, f, .dumping (srt items), out, true⟩
  | dump {rs f r rest out c} :
      OrdStep srt .consumer ⟨rs, f, .dumping (r :: rest), out, c⟩ ⟨rs, f, .dumping rest, out ++ [r], c⟩
  | dumpCancel {rs f r rest out} :
      OrdStep srt .proc ⟨rs, f, .dumping (r :: rest), out, true⟩ ⟨rs, f, .closed, out, true⟩
  | dumpEnd {rs f out c} : OrdStep srt .proc ⟨rs, f, .dumping [], out, c⟩ ⟨rs, f, .closed, out, c⟩
  | inputEnds {r rs f s out} : OrdStep srt .input ⟨r :: rs, f, s, out, true⟩ ⟨[], f, s, out, true⟩
  | cancel {rs f s out} : OrdStep srt .env ⟨rs, f, s, out, false⟩ ⟨rs, f, s, out, true⟩

/-! ## GROUP BY (grouper/grouper.go:15-76, vfilter_group.go:26-83) -/

/-- A row is added to the bin of its key, a new bin comes last (grouper/grouper.go:44-66).  A bin is
kept as the rows that were put into it. -/
def addBin {R K : Type} [DecidableEq K] (k : K) (r : R) : List (K × List R) → List (K × List R)
  | [] => [(k, [r])]
  | b :: bs => if b.1 = k then (b.1, b.2 ++ [r]) :: bs else b :: addBin k r bs

/-- The grouper goroutine (grouper/grouper.go:19-75): filling the bins, sending their rows, or
finished with the output closed. -/
inductive Grouper (R K O : Type) where
  | filling (bins : List (K × List R))
  | dumping (rest : List O)
  | closed

/-- State of GROUP BY. -/
structure GrpSt (R K O : Type) where
  input : List R
  pc : Grouper R K O
  out : List O
  cancelled : Bool

/-- GROUP BY.  `key` is the group of a row, `none` if the WHERE clause rejects it
(vfilter_group.go:29-74); `row` is the row of a group as a function of the rows put into it, the last
materialized row (grouper/grouper.go:61-66).  `GetNextRow` ranges over its input and does not look at
the context (vfilter_group.go:29), sending does (grouper/grouper.go:70-75). -/
inductive GrpStep {R K O : Type} [DecidableEq K] (key : R → Option K) (row : List R → O) :
    By → GrpSt R K O → GrpSt R K O → Prop where
  | put {r rs k bins out c} : key r = some k →
      GrpStep key row .input ⟨r :: rs, .filling bins, out, c⟩ ⟨rs, .filling (addBin k r bins), out, c⟩
  | reject {r rs bins out c} : key r = none →
      GrpStep key row .input ⟨r :: rs, .filling bins, out, c⟩ ⟨rs, .filling bins, out, c⟩
  | inputClosed {bins out c} :
      GrpStep key row .proc ⟨[], .filling bins, out, c⟩ ⟨[], .dumping (bins.map fun b => row b.2), out, c⟩
  | dump {rs o rest out c} :
      GrpStep key row .consumer ⟨rs, .dumping (o :: rest), out, c⟩ ⟨rs, .dumping rest, out ++ [o], c⟩
  | dumpCancel {rs o rest out} :
      GrpStep key row .proc ⟨rs, .dumping (o :: rest), out, true⟩ ⟨rs, .closed, out, true⟩
  | dumpEnd {rs out c} : GrpStep key row .proc ⟨rs, .dumping [], out, c⟩ ⟨rs, .closed, out, c⟩
  | inputEnds {r rs pc out} : GrpStep key row .input ⟨r :: rs, pc, out, true⟩ ⟨[], pc, out, true⟩
  | cancel {rs pc out} : GrpStep key row .env ⟨rs, pc, out, false⟩ ⟨rs, pc, out, true⟩

/-! ## chain (plugins/chain.go:21-62) -/

/-- State of the chain goroutine: queries not yet started, the rows the running query has still
to deliver, the row being sent. -/
structure ChainSt (R : Type) where
  queries : List (List R)
  cur : Option (List R)
  hold : Option R
  out : List R
  cancelled : Bool
  closed : Bool

/-- `_ChainPlugin.Call` (plugins/chain.go:33-57). -/
inductive ChainStep {R : Type} : By → ChainSt R → ChainSt R → Prop where
  | start {q qs out c} : ChainStep .proc ⟨q :: qs, none, none, out, c, false⟩ ⟨qs, some q, none, out, c, false⟩
  | recv {r rs qs out c} :
      ChainStep .input ⟨qs, some (r :: rs), none, out, c, false⟩ ⟨qs, some rs, some r, out, c, false⟩
  | send {cur r qs out c} :
      ChainStep .consumer ⟨qs, cur, some r, out, c, false⟩ ⟨qs, cur, none, out ++ [r], c, false⟩
  | abort {cur r qs out} :
      ChainStep .proc ⟨qs, cur, some r, out, true, false⟩ ⟨qs, cur, none, out, true, true⟩
  | next {qs out c} : ChainStep .proc ⟨qs, some [], none, out, c, false⟩ ⟨qs, none, none, out, c, false⟩
  | finish {out c} : ChainStep .proc ⟨[], none, none, out, c, false⟩ ⟨[], none, none, out, c, true⟩
  | inputEnds {r rs h qs out} :
      ChainStep .input ⟨qs, some (r :: rs), h, out, true, false⟩ ⟨qs, some [], h, out, true, false⟩
  | cancel {qs cur h out cl} : ChainStep .env ⟨qs, cur, h, out, false, cl⟩ ⟨qs, cur, h, out, true, cl⟩

/-! ## The statement itself (vfilter.go:494-525) -/

/-- State of the goroutine that passes the rows of a query on. -/
structure FwdSt (R : Type) where
  input : List R
  hold : Option R
  out : List R
  cancelled : Bool
  closed : Bool

/-- `VQL.Eval` for a query (vfilter.go:498-522): both waiting for a row and sending it end with the
context. -/
inductive FwdStep {R : Type} : By → FwdSt R → FwdSt R → Prop where
  | recv {r rs out c} : FwdStep .input ⟨r :: rs, none, out, c, false⟩ ⟨rs, some r, out, c, false⟩
  | send {rs r out c} : FwdStep .consumer ⟨rs, some r, out, c, false⟩ ⟨rs, none, out ++ [r], c, false⟩
  | abort {rs h out} : FwdStep .proc ⟨rs, h, out, true, false⟩ ⟨rs, none, out, true, true⟩
  | finish {out c} : FwdStep .proc ⟨[], none, out, c, false⟩ ⟨[], none, out, c, true⟩
  | inputEnds {r rs h out} : FwdStep .input ⟨r :: rs, h, out, true, false⟩ ⟨[], h, out, true, false⟩
  | cancel {rs h out cl} : FwdStep .env ⟨rs, h, out, false, cl⟩ ⟨rs, h, out, true, cl⟩

/-! ## flatten (plugins/flatten.go:18-53) -/

/-- State of the flatten goroutine; `buf` are the rows of the current row not sent yet. -/
structure FlatSt (R O : Type) where
  input : List R
  buf : List O
  out : List O
  cancelled : Bool
  closed : Bool

/-- `_FlattenPluginImpl.Call` (plugins/flatten.go:32-50); `f` is `flatten` on a row.  Waiting for a row does
not look at the context, sending does. -/
inductive FlatStep {R O : Type} (f : R → List O) : By → FlatSt R O → FlatSt R O → Prop where
  | recv {r rs out c} : FlatStep f .input ⟨r :: rs, [], out, c, false⟩ ⟨rs, f r, out, c, false⟩
  | send {rs o buf out c} : FlatStep f .consumer ⟨rs, o :: buf, out, c, false⟩ ⟨rs, buf, out ++ [o], c, false⟩
  | abort {rs o buf out} : FlatStep f .proc ⟨rs, o :: buf, out, true, false⟩ ⟨rs, [], out, true, true⟩
  | finish {out c} : FlatStep f .proc ⟨[], [], out, c, false⟩ ⟨[], [], out, c, true⟩
  | inputEnds {r rs buf out} : FlatStep f .input ⟨r :: rs, buf, out, true, false⟩ ⟨[], buf, out, true, false⟩
  | cancel {rs buf out cl} : FlatStep f .env ⟨rs, buf, out, false, cl⟩ ⟨rs, buf, out, true, cl⟩

/-! ## range (plugins/range.go:25-47) -/

/-- State of the range goroutine. -/
structure RngSt where
  i : I64
  out : List I64
  cancelled : Bool
  closed : Bool

/-- `RangePlugin.Call` (plugins/range.go:39-46). -/
inductive RngStep (stop step : I64) : By → RngSt → RngSt → Prop where
  | send {i out c} : i.toInt < stop.toInt →
      RngStep stop step .consumer ⟨i, out, c, false⟩ ⟨i + step, out ++ [i], c, false⟩
  | abort {i out} : i.toInt < stop.toInt → RngStep stop step .proc ⟨i, out, true, false⟩ ⟨i, out, true, true⟩
  | finish {i out c} : ¬ i.toInt < stop.toInt → RngStep stop step .proc ⟨i, out, c, false⟩ ⟨i, out, c, true⟩
  | cancel {i out cl} : RngStep stop step .env ⟨i, out, false, cl⟩ ⟨i, out, true, cl⟩

/-! ## foreach (plugins/foreach.go) -/

/-- The main goroutine of foreach (plugins/foreach.go:27-96): waiting for a row, in
`pool.RunScope` (lines 93, 121-123), in `pool.Close` (lines 51, 125-128), or finished with the output
channel closed. -/
inductive FeMain (R : Type) where
  | wait
  | handing (i : Nat) (r : R)
  | closing
  | closed

/-- A pool worker (plugins/foreach.go:154-171): waiting, running the query of row `i` with rows still to
be sent, or returned. -/
inductive FeWorker (R : Type) where
  | idle
  | running (i : Nat) (items : List R)
  | exited

/-- State of foreach.  Rows and output carry the position of the input row (not in the code, used
to state where a result came from). -/
structure FeSt (R : Type) where
  rows : List (Nat × R)
  main : FeMain R
  workers : List (FeWorker R)
  out : List (Nat × R)
  cancelled : Bool

/-- foreach with the pool (plugins/foreach.go:22-187).  `col` is the column selection (lines 68-75),
`f` is the query, `hasQuery` tells if there is one.  Receiving a result row and sending it on
(lines 136-151) is one step; a cancelled worker drops the rest of its rows. -/
inductive FeStep {R : Type} (hasQuery : Bool) (col : R → R) (f : R → List R) :
    By → FeSt R → FeSt R → Prop where
  | take {i r rs ws out c} : hasQuery = true →
      FeStep hasQuery col f .input ⟨(i, r) :: rs, .wait, ws, out, c⟩ ⟨rs, .handing i (col r), ws, out, c⟩
  /-- no query: the row itself is the output (lines 77-84) -/
  | direct {i r rs ws out c} : hasQuery = false →
      FeStep hasQuery col f .consumer ⟨(i, r) :: rs, .wait, ws, out, c⟩ ⟨rs, .wait, ws, out ++ [(i, col r)], c⟩
  | rowsEnd {ws out c} : FeStep hasQuery col f .proc ⟨[], .wait, ws, out, c⟩ ⟨[], .closing, ws, out, c⟩
  | mainCancel {rs ws out} :
      FeStep hasQuery col f .proc ⟨rs, .wait, ws, out, true⟩ ⟨rs, .closing, ws, out, true⟩
  | handoff {rs i r ws out c w} : ws[w]? = some .idle →
      FeStep hasQuery col f .proc ⟨rs, .handing i r, ws, out, c⟩ ⟨rs, .wait, ws.set w (.running i (f r)), out, c⟩
  | emit {rs m ws out c w i x xs} : ws[w]? = some (.running i (x :: xs)) →
      FeStep hasQuery col f .consumer ⟨rs, m, ws, out, c⟩
        ⟨rs, m, ws.set w (.running i xs), out ++ [(i, x)], c⟩
  | queryEnd {rs m ws out c w i} : ws[w]? = some (.running i []) →
      FeStep hasQuery col f .proc ⟨rs, m, ws, out, c⟩ ⟨rs, m, ws.set w .idle, out, c⟩
  | queryCancel {rs m ws out w i xs} : ws[w]? = some (.running i xs) →
      FeStep hasQuery col f .proc ⟨rs, m, ws, out, true⟩ ⟨rs, m, ws.set w .idle, out, true⟩
  /-- the channel of scopes is closed (line 165) -/
  | workerEnd {rs ws out c w} : ws[w]? = some .idle →
      FeStep hasQuery col f .proc ⟨rs, .closing, ws, out, c⟩ ⟨rs, .closing, ws.set w .exited, out, c⟩
  /-- `case <-ctx.Done()` (line 158) -/
  | workerCancel {rs m ws out w} : ws[w]? = some .idle →
      FeStep hasQuery col f .proc ⟨rs, m, ws, out, true⟩ ⟨rs, m, ws.set w .exited, out, true⟩
  /-- `wg.Wait()` returns, then `close(output_chan)` -/
  | finish {rs ws out c} : (∀ w ∈ ws, w = .exited) →
      FeStep hasQuery col f .proc ⟨rs, .closing, ws, out, c⟩ ⟨rs, .closed, ws, out, c⟩
  | cancel {rs m ws out} : FeStep hasQuery col f .env ⟨rs, m, ws, out, false⟩ ⟨rs, m, ws, out, true⟩

/-- The number of workers started for the `async` and `workers` arguments (plugins/foreach.go:37-50,
181: a loop up to `size`, so none if it is negative). -/
def feWorkers (async : Bool) (workers : I64) : Nat :=
  let w := if async ∧ workers = 0#64 then 100#64 else workers
  let w := if w = 0#64 then 1#64 else w
  w.toInt.toNat

/-- The start of foreach on the given rows. -/
def feInit {R : Type} (rows : List R) (workers : Nat) : FeSt R :=
  ⟨rows.zipIdx.map (fun p => (p.2, p.1)), .wait, List.replicate workers .idle, [], false⟩

/-! ## GetResponseChannel (api.go:22-102) -/

/-- What happens after `ship_payload` returns. -/
inductive Ship (R : Type) where
  /-- full buffer: the received row is added (api.go:89-96) -/
  | add (r : R)
  /-- the periodic flush (api.go:76-81) -/
  | flush
  /-- the deferred call (api.go:65) -/
  | final

/-- Program counter of the goroutine. -/
inductive RespPc (R : Type) where
  | loop
  | ship (k : Ship R)
  | closed

/-- One part that was sent: part number and rows (the payload is the encoder's result for
these rows). -/
structure Part (R : Type) where
  part : Nat
  rows : List R
  deriving DecidableEq

structure RespSt (R : Type) where
  input : List R
  buf : List R
  part : Nat
  sent : List (Part R)
  pc : RespPc R
  cancelled : Bool

/-- State after `ship_payload` with the given buffer. -/
def afterShip {R : Type} (s : RespSt R) (buf : List R) : Ship R → RespSt R
  | .add r => ⟨s.input, buf ++ [r], s.part, s.sent, .loop, s.cancelled⟩
  | .flush => ⟨s.input, buf, s.part, s.sent, .loop, s.cancelled⟩
  | .final => ⟨s.input, buf, s.part, s.sent, .closed, s.cancelled⟩

/-- `GetResponseChannel` (api.go:22-102) with batch size `m`; `enc` tells if the encoder succeeds.
Rows stand for their `RowToDict` conversion.  The send of a part has no cancellation case
(api.go:59). -/
inductive RespStep {R : Type} (m : Int) (enc : List R → Bool) : By → RespSt R → RespSt R → Prop where
  | row {r rs buf p sent c} : ¬ (buf.length : Int) ≥ m →
      RespStep m enc .input ⟨r :: rs, buf, p, sent, .loop, c⟩ ⟨rs, buf ++ [r], p, sent, .loop, c⟩
  | rowFull {r rs buf p sent c} : (buf.length : Int) ≥ m →
      RespStep m enc .input ⟨r :: rs, buf, p, sent, .loop, c⟩ ⟨rs, buf, p, sent, .ship (.add r), c⟩
  | deadline {rs buf p sent c} : buf.length > 0 →
      RespStep m enc .env ⟨rs, buf, p, sent, .loop, c⟩ ⟨rs, buf, p, sent, .ship .flush, c⟩
  | rowsEnd {buf p sent c} :
      RespStep m enc .proc ⟨[], buf, p, sent, .loop, c⟩ ⟨[], buf, p, sent, .ship .final, c⟩
  | abort {rs buf p sent} :
      RespStep m enc .proc ⟨rs, buf, p, sent, .loop, true⟩ ⟨rs, buf, p, sent, .ship .final, true⟩
  | deliver {rs buf p sent c k} : enc buf = true →
      RespStep m enc .consumer ⟨rs, buf, p, sent, .ship k, c⟩
        (afterShip ⟨rs, buf, p + 1, sent ++ [⟨p, buf⟩], .ship k, c⟩ [] k)
  | encodeFails {rs buf p sent c k} : enc buf = false →
      RespStep m enc .proc ⟨rs, buf, p, sent, .ship k, c⟩ (afterShip ⟨rs, buf, p, sent, .ship k, c⟩ buf k)
  | cancel {rs buf p sent pc} :
      RespStep m enc .env ⟨rs, buf, p, sent, pc, false⟩ ⟨rs, buf, p, sent, pc, true⟩

/-! ## The throttler (throttle.go) -/

/-- A goroutine calling `Close` (throttle.go:22-28): before the test of `running`, between the test and
`close(done)` (two steps), returned, or panicked. -/
inductive Closer where
  | start
  | stopping
  | closing
  | returned
  | panicked
  deriving DecidableEq

/-- `TimeThrottler` (throttle.go:9-13).  `buf` tells if a tick is waiting in the ticker's channel (it has
room for one); `ticks` counts the ticks put there, `admitted` the `ChargeOp` calls that took
one, `passed` those that returned because of `done`. -/
structure ThrSt where
  running : Bool
  stopped : Bool
  doneClosed : Bool
  buf : Bool
  ticks : Nat
  admitted : Nat
  passed : Nat
  closers : List Closer

/-- The throttler's steps. -/
inductive ThrStep : By → ThrSt → ThrSt → Prop where
  | tick {s : ThrSt} : s.stopped = false → s.buf = false →
      ThrStep .env s { s with buf := true, ticks := s.ticks + 1 }
  /-- `ChargeOp` by a tick (throttle.go:17) -/
  | charge {s : ThrSt} : s.buf = true →
      ThrStep .consumer s { s with buf := false, admitted := s.admitted + 1 }
  /-- `ChargeOp` after close (throttle.go:18) -/
  | pass {s : ThrSt} : s.doneClosed = true →
      ThrStep .consumer s { s with passed := s.passed + 1 }
  | call {s : ThrSt} : ThrStep .env s { s with closers := s.closers ++ [.start] }
  | test {s : ThrSt} {i} : s.closers[i]? = some .start →
      ThrStep .proc s { s with closers := s.closers.set i (if s.running then .stopping else .returned) }
  /-- `ticker.Stop()`, `running = false` -/
  | stop {s : ThrSt} {i} : s.closers[i]? = some .stopping →
      ThrStep .proc s { s with stopped := true, running := false, closers := s.closers.set i .closing }
  /-- `close(done)`, which panics if it is closed already -/
  | close {s : ThrSt} {i} : s.closers[i]? = some .closing →
      ThrStep .proc s { s with doneClosed := true,
                               closers := s.closers.set i (if s.doneClosed then .panicked else .returned) }

/-- `NewTimeThrottler` for a rate below 100 (throttle.go:30-48). -/
def thrInit : ThrSt := ⟨true, false, false, false, 0, 0, 0, []⟩

/-- Can `ChargeOp` return? -/
def ThrSt.chargeReady (s : ThrSt) : Prop := s.buf = true ∨ s.doneClosed = true

end Vfilter
