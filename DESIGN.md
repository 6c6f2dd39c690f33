# Formal model of Velocidex/vfilter in Lean 4

Source: `/repo` (read as text, never built or run).  Model and proofs:
`/verif/lean/Verif/*.lean`, built by `lake build` in `/verif/lean`.

## 1. Method

* Code is modelled function by function as total Lean functions (pure code) or
  as explicit step relations / state machines (goroutines, channels, timers,
  scope trees).  Every definition has a comment citing the Go file and lines and
  every simplification.
* Specifications are separate definitions (`Spec` sections / files) that do not
  mention the model's helpers.
* Where the code does not satisfy the English property, the model reproduces
  what the code does, the negation is proved with a concrete witness
  (`..._refuted`), and the part that does hold is proved under an explicit
  hypothesis with the suffix `_partial`.
* Every property theorem is followed by an `example` showing a non trivial
  instance of its hypotheses.

## 2. Modules

| module | models (files of /repo) |
|---|---|
| `Base` | byte strings, 64 bit integers, ordered dicts (`OD`, github.com/Velocidex/ordereddict), float64 interface users |
| `Float`, `F64` | operations of float64 used by the code (`FloatOps`), their laws (`LawfulFloat`), a concrete IEEE-754 binary64 model |
| `Value`, `Ops`, `Registry` | values; the dispatchers of protocols/*.go (Add Sub Mul Div Bool Eq Lt Gt Membership Associative Iterate Regex); registration and copying (scope/dispatcher.go, Copy of each dispatcher) |
| `Logic` | AND / OR chains and comparison operands with arbitrary effects (vfilter.go:1451-1599) |
| `Scope`, `ScopeLemmas` | scope/scope.go: variable stacks on shared Go slices, Copy, AppendVars, Resolve, parents and children, destructors, Close, aggregator contexts (scope/aggregators.go, aggregators/aggregators.go) |
| `Text` | string literals, identifiers, tokenizer positions, error snippets, statement splitting (vfilter.go, utils/, tokenizer.go) |
| `Plugins` | range, flatten (plugins/range.go, plugins/flatten.go) |
| `Conc` | chain, foreach, flatten, range, LIMIT, ORDER BY feeder, SELECT pipeline, grouper, the goroutine of a statement, response batching, throttler as state machines over all schedules |
| `Aggregates` | functions/aggregates.go, sort/sort.go |
| `Args` | arg_parser/parser.go, arg_parser/args.go |
| `Normalize` | utils/dict/dict.go |
| `Funcs` | functions/functions.go (len, get, encode helpers in scope), lambda.go, materializer/in_memory.go |
| `Syntax` | the grammar structs of vfilter.go |
| `Eval` | the evaluator: vfilter.go (VQL.Eval, _Select, Plugin, all expression nodes, _SymbolRef), lazy.go, stored.go, vfilter_group.go, grouper/grouper.go, types/stored_query.go, protocols/protocol_associative.go, scope.Resolve |
| `Format` | visitor.go (the formatter with its trial layouts, comments, call sites) over syntax trees that keep comments, reformat/visitor.go |
| `Outline` | outline.go |
| `Parse` | the lexer rules of vfilter.go:149-178 and the grammar in the struct tags, on a model of participle's combinators |
| `LexLemmas`, `RoundTrip`, `RoundLex`, `RoundText`, `RoundTok`, `RoundParse`, `RoundGram`, `RoundStmt`, `RoundEnd`, `RoundFinal` | facts about lexer, parser and formatter: printed trees are read back (C49) |
| `RoundGood`, `RoundRead`, `RoundParsed`, `RoundNorm`, `RoundWhole`, `RoundDec` | every tree the parser returns satisfies the conditions of the round trip, up to the printed form of numbers |
| `LayoutText`, `LayoutWalk`, `LayoutAll` | the same for every layout: whatever the options and the choices of the trial layouts, and whether or not lines are trimmed, the text has the tokens of the tree |
| `ParseFuel` | every grammar function reads a prefix of its input; the recursion bound used by `parse` is always enough and a larger one changes nothing |
| `StmtJoin`, `StmtStay` | a statement is read the same when further statements follow it (rules for the parser combinators; every grammar function) |
| `LexJoin` | the tokens of two texts joined by a newline are the tokens of the first followed by those of the second |
| `StmtLast` | only operators have the text of operators; a statement ends with a word, a literal, a closing bracket or a comma |
| `StmtMulti` | the tokens of several statements and comments are read as these; the tokens of several lines |
| `Props/Statements` | C44 for texts |
| `UpLow`, `Checkpoint` | numbering of syntax nodes loses nothing; scope/marshal.go, marshal/, marshal.go: checkpoints of a scope over any JSON codec |
| `F64Text`, `RoundNum` | decimal text of doubles and integers: the printed form is a number token with the same value |
| `Builtins` | functions/if.go, functions/scope.go, count/enumerate calls, plugins/if.go, scope plugin, operators lifted to lazy values |
| `Number` | vfilter.go:1641-1663 (number literals), decimal text of numbers |
| `Lower` | from parsed statements to the evaluator's syntax, and back for column names (vfilter.go:828-850) |
| `Library` | all functions and plugins the package registers except UTF-16 `encode`, as programs of the evaluator, with the parsing of their arguments including `**` (functions/builtin.go, plugins/builtins.go, protocols/stored_query.go, arg_parser/); `regexp.Split` and `fmt.Sprintf` are parameters |
| `EvalLib` | the package's functions and plugins keep the rules the evaluator's theorems ask of a host |
| `Props/Split` | C64 |
| `Dispatch`, `Props/Dispatch` | the registries of scopes: functions, plugins, protocols, context, settings; suggestions; version() (C65-C67) |
| `Props/ScopeLife` | C68 |
| `Introspect`, `Props/Introspect` | types/introspection.go over any set of types with the answers of the reflect package (C69) |
| `Sources`, `Props/Sources` | plugins/generic.go, materializer/in_memory.go, types/stored_query.go as machines (C71); protocols/lazy_wrapper.go with its mutex (C70) |
| `LexGap`, `Props/Spacing` | texts with blanks and comments between their words (C75) |
| `Props/Precedence` | which operator takes which operands (C76) |
| `Explain`, `Props/Explain`, `Props/Stats` | the row loop with the calls of the explainer, explained scopes, the log lines, RowsScanned (C77, C78) |
| `Props/LazyArgs` | when arguments of functions are evaluated (C79) |
| `ScopeConc`, `Props/ScopeConc`, `Props/ScopeConcEnd` | Copy, AddDestructor and Close as steps of any number of goroutines (C80) |
| `AggConc`, `Props/AggConc` | aggregate functions called by any number of goroutines (C81) |
| `Structs`, `Props/Structs`, `Props/EvalStructs` | fields and methods of Go structs by name, structs as source rows (C82) |
| `Letters`, `LexCase`, `EvalLetters`, `Props/LetterCase` | keywords written with other upper and lower case letters (C83) |
| `Props/CallArgs` | what is logged about the arguments of LET queries (C84) |
| `LazyConc`, `Props/LazyConc` | lazy.go `LazyRowImpl.Get`, `MaterializedLazyRow` called by several goroutines (C85) |
| `F64Near`, `Props/Literal` | rounding gives the nearest double; what the numbers in a query stand for (C86) |
| `F64Exact`, `Props/MixedNum` | doubles as rational numbers; integers and floats compared and combined by value (C87) |
| `KeyText`, `Props/GroupKeys` | the text of a value (`types.ToString`, `%v` of floats); GROUP BY groups by value for keys of one kind (C88) |
| `CallSite`, `Props/CallSite` | which function a call in a query calls: lookup, the copy kept by the call, nil results (C89) |
| `LazyWord`, `Props/LazyWord` | the cached value of a lazy argument, read and written by several goroutines word by word (C90) |
| `RowScopes`, `Props/RowScopes` | the scopes of a row in SELECT and GROUP BY, and what is attached to them (C91) |
| `Props/ArgOrder` | arguments and defaults in other orders (C92) |
| `Locks`, `Props/Locks` | the mutexes of scopes, dispatchers, contexts and nodes, and the maps of functions and plugins (C93, C94) |
| `ArgDecl`, `Props/ArgDecl` | tags of struct fields, `BuildParser`, `RegisterParser` and the cache of parsers (C95) |
| `NodeCache`, `Props/NodeCache` | what syntax nodes remember when goroutines share them (C96) |
| `VarSlices`, `Props/VarSlices` | the rows of scopes as Go slices with their arrays (C97) |
| `CloseTime`, `Props/CloseTime` | the time `Close` waits for destructors (C98) |
| `ChildList`, `Props/ChildList` | the list of children of a scope and its compaction (C99) |
| `ThrottleScopes`, `Props/ThrottleScopes` | the throttlers of scopes (C100) |
| `OutputJson`, `Props/OutputJson` | OutputJSON with a throttler (C101) |
| `Statistics`, `Props/Statistics` | the counters of a dispatcher (C102) |
| `Pipe`, `Props/Pipe` | goroutines of nested queries connected by channels, to any depth (C74) |
| `Props/EvalHistogram` | GROUP BY queries with aggregate columns end to end (C30) |
| `Props/EvalFns`, `Props/EvalFns2`, `Props/EvalAdd`, `Props/EvalLibrary` | the package's functions and plugins called in queries, and `+` of stored queries (C04, C31, C36-C38, C40, C52, C53, C61, C64, C72, C73) |
| `Golden`, `GoldenFormat` | checks, not proofs: the project's recorded test cases run through lexer, parser, evaluator and formatter of the model |
| `EvalLemmas`, `EvalFrame`, `EvalNames`, `EvalSelect`, `EvalExpr`, `EvalLazy`, `EvalDemo`, `EvalTerm`, `EvalTermStd` | facts about the evaluator |
| `EvalWithin`, `EvalReach`, `EvalOnce`, `EvalWithinStd`, `EvalWithinLib`, `Props/EvalPackage` | what an evaluation can reach: the part of the heap it can read and change is closed under references, everything else stays as it is (C29, C30) |
| `EvalSim`, `EvalSimPrim`, `EvalSimBody`, `EvalSimOps`, `EvalSimLib`, `EvalSimStd` | two executions side by side: corresponding heaps, values and syntax trees, and a simulation for the whole evaluator and all functions and plugins (C49, C56) |
| `EvalUses`, `EvalReprint`, `EvalNumbered` | the names a program uses; a program and its printed form correspond; symbols have different numbers |
| `Props/*` | one theorem group per property, named `Cnn_...` |

## 3. Per property plan

| property | modelled / proof approach |
|---|---|
| C01-C05 | dispatcher functions over all values, case analysis on constructors; integers are 64 bit vectors, floats an abstract structure |
| C06 | Bool dispatcher, registration history as list; independent truth table |
| C07-C09 | Eq/Lt/Gt dispatchers by recursion on values; witnesses for the asymmetries and the unhandled operator |
| C10 | evaluation in an arbitrary effect state, induction on the chain |
| C11-C13 | getRanges over 64 bit integers vs. a Python style spec over `Int`; induction on lists |
| C14-C17 | dispatcher functions; regex cache as state machine over any history |
| C18-C19 | scope heap, invariant over all operation histories |
| C20-C21 | scope tree state machine with children lists, compaction and destructor rounds |
| C22 | fuelled evaluator; depth bound invariant, divergence witness for the uncovered recursion |
| C23 | scope chain with context heap |
| C24 | marshal and unmarshal as programs of the evaluator, over any JSON codec and any order of items; the text of a definition is read back by the machinery of C49 |
| C25-C29 | SELECT pipeline as functions over rows with an explicit cell heap for lazy columns |
| C30-C31 | grouper fold, aggregate folds, induction over the row stream |
| C32 | swap based sorting; permutation for every comparator, sortedness for the library's insertion sort |
| C33-C35 | evaluator theorems |
| C36-C38, C40-C42 | list functions, induction; foreach as step relation over all schedules |
| C39 | step relations with cancellation; deadlock witnesses |
| C43 | state machine over all event sequences |
| C44-C48 | byte level functions |
| C49 | lexer, parser and formatter on bytes: the printer's text is split into the tokens it was made of, the grammar functions read these tokens back by induction on the tree; a Hoare logic for the parser shows that parsed trees qualify; error analysis for seventeen digit decimals |
| C50 | layout engine with arbitrary choices |
| C51 | recursion over syntax trees |
| C52-C54 | field list fold |
| C55-C56 | evaluator with per node caches in the state; C56 by simulation of two executions |
| C57-C61 | direct models |
| C69 | walk over an arbitrary type graph; measure: types not yet described |
| C72-C73 | exact characterisation of the runs of a call |
| C95 | induction over directives and fields; invariant of the cache |
| C96 | invariant: the number of calls told to negate is that of filled nodes with a minus sign |
| C97 | simulation of arrays by lists; invariant: lookups on the array of a scope are not longer than its slice |
| C98 | invariants of time, of the numbers of those that run and of the steps made |
| C99 | invariant: the number kept is that of the empty places |
| C100 | histories of C20 with one more field for each scope |
| C101 | state machine, invariant and measure |
| C102 | interleavings of atomic steps; counter plus increments left is constant |
| C93 | order of the mutexes; of the goroutines that wait, one waits for the last mutex in the order |
| C94 | invariant: who is in a map holds its mutex |
| C92 | the relation between executions of C56, induction over the arguments |
| C91 | invariants of the scope tree over sequences of scope operations |
| C90 | invariants of a state machine with two words per interface |
| C89 | induction over histories, one call site at a time |
| C88 | injectivity of the printed text by reading it back; groups by text turned into groups by value |
| C87 | rational arithmetic: exact conversion up to 2^53, round-half-even as nearest double for both signs |
| C86 | arithmetic of round-half-even over all fractions, the lexer rule by rule |
| C85 | invariants over all schedules of a small-step system |
| C84 | decomposition of a run, names in a dictionary without repetition |
| C83 | naturality of every grammar function under a change of tokens; every lexer rule matches the same length; `EvalSim` for rows |
| C82 | a shortest chain of embedded types has no repetition; the fields that match at a depth as a filter |
| C81 | one shape of change per step; the log of each context is a run of the sequential model; one instance per call site as an invariant |
| C80 | invariants of the state machine, one shape of change per step; a conserved quantity for registrations; a measure for the end |
| C79 | the call lemma of `EvalIf`; an invariant of the evaluator: a kept value stays |
| C77, C78 | one invariant per state machine over all schedules; simulation in both directions with the row loop of `Conc`; induction over histories of scopes |
| C76 | binary trees to and from the levels of the grammar; the reader of C19, and one lemma per level of evaluation |
| C75 | every lexer rule gives the same match in front of a blank; induction on the text and its pieces |
| C74 | trees of goroutines; invariant by recursion on the tree, termination by accessibility of every state |
| C70-C71 | step relations; mutual exclusion invariant, measures for progress |
| C02-C04, C09-C13, C45, C62 in the evaluator | `Props.EvalOps`: operators applied by `body` to arbitrary operand expressions; chains of any length as inductive relations over the operands visited |
| C32 in the evaluator | `Props.EvalOrder`: ORDER BY as a call of the host's sorter on the rows of the query without it |

## 4. How the evaluator is modelled

`Verif.Eval` writes every Go method as a program over two kinds of requests: calls of
other methods (`Call`) and accesses to the heap (`Prim`).  `run n` executes with recursion
depth at most `n` and gives `none` exactly if that is not enough, so "`Runs`" (for some
`n`) is the usual big step semantics, it is deterministic and monotone in `n`
(`EvalLemmas`).  The heap (`St`) holds scopes with their variable stacks, depth, parent and
aggregator context, the cells of lazy expressions and lazy rows with their caches, the
caches in syntax nodes (`-x`, the function found by name), the log, and an arbitrary state
of the embedding application.

The embedding application (`Host`) is a parameter: its functions, plugins, operators and
associative implementations are arbitrary programs of the same kind.  Where a theorem needs
more, it says so: `Host.Polite` (only changes scopes it created), `SortOK` (the sorter
returns rows it was given), `Total` (finishes on data), `Host.Within` (uses only the values it is
given).  `stdHost` is the instance with the
package's own functions and operators and is shown to satisfy all of them.

Deliberate simplifications of the evaluator model:

* Evaluation is sequential: a query's rows are a list, computed in the order in which an
  unbuffered pipeline without cancellation delivers them.  Interleavings, cancellation and
  leaks are the subject of `Conc` and `Pipe`, where the rows are opaque.  `C74_rows` says that on
  every schedule the goroutines of nested queries give the rows of this sequential order, as long
  as they share no state; if they do (a variable changed by one and read by another) the order of
  their steps may show.
* Go panics inside the evaluator that the code recovers from are NULL results; panics that
  are not recovered (string repetition) are `Outcome.panic` in `Ops` and NULL in `stdHost`.
* Scope closing, throttling (`ChargeOp`), explain calls and statistics do not appear in
  `Eval`; they are modelled separately (`Scope`, `Conc`) or not at all (explain, stats).
* The text of log messages is abbreviated; that a message is written is modelled.
* Reflection on Go structs (fields and methods of host objects) is a parameter of `Eval`; `Structs` models it, and
  `withStructs` is an application with structs.
* Theorems about evaluation quantify over all syntax trees, including ones the grammar
  cannot produce; parsing is modelled separately (`Parse`).

* A nil slice is an empty array.  The one place found where this shows: a `{ SELECT }` column
  without rows is a nil slice, which reads as NULL from the emitted row.

Validation: 255 statements of the recorded test runs (fixtures/vql_queries.golden,
fixtures/multi_vql_queries.golden) and all 27 cases of reformat/fixtures/formatting.golden
are parsed, executed or formatted and printed by the model during the build, and agree
(`Golden`, `GoldenFormat`; the header of `Golden` lists what is left out).

What an evaluation can reach (`EvalWithin`).  A value can refer to scopes, lazy expressions,
lazy rows and syntax nodes of the heap.  `Know` is a set of heap objects, `Closed K st` says
that nothing in `K` refers outside of `K`.  A program that is given values of `K` only changes
objects of `K` and new ones (`runs_within`).  For the row being processed a finer statement is
needed, since its columns can refer to the row: two nested closed sets, the outer with the row,
the inner without (`Tr`, `runs_sp`).  `evals` in the state is a ghost: it records the column
evaluations and no program reads it.

Two executions side by side (`EvalSim`).  `Corr` is a partial bijection between the heap objects
of two executions; values correspond if they have the same shape and refer to corresponding
objects, heaps if corresponding objects have corresponding contents.  `run_sim` says that
corresponding programs in corresponding heaps finish together with corresponding results, for
every host whose functions, plugins and operators respect correspondence (`HostR`); the
functions and plugins of the package do (`stdHost_r`, `libHost_r`).  A host that looks at
addresses of objects does not.  What has to correspond is a parameter (`Cfg`): for C56 aggregator
contexts and the application's state are ignored and aggregates are forbidden; for C49 everything
is compared and the two trees may write numbers differently.

## 5. Not modelled

* The inside of participle (the parser generator; its combinators are modelled in `Parse` from
  their documented behaviour), the regular expression engine, JSON encoding, `fmt`
  formatting of arbitrary values, Go's `sort.Sort` beyond 12 elements (enters through its
  documented contract `SortContract`), `time`.
* explain/, scope/stats.go,
  arg_parser/cache.go beyond what C54's cache theorems say, types/ interfaces.
* The Go scheduler is modelled as arbitrary interleaving of channel operations; data races
  on unsynchronised memory are outside the model.

## 6. Trusted base

* Lean 4.33.0 kernel.  Every theorem depends on no axioms other than `propext`,
  `Classical.choice` and `Quot.sound` (`#print axioms`); no `sorry`, no `native_decide`,
  no `bv_decide`, no axioms of our own.
* Fidelity of the hand translation from Go to Lean, definition by definition, each with the
  lines it models.
* The behaviour of dependencies as stated in the comments of the model: ordereddict (`Set`
  on an existing key moves it to the end, `Update` keeps the position, `MergeFrom` sets each
  key), Go maps (arbitrary iteration order), slices (`append` shares a backing array while
  capacity lasts), channels and `select`, two's complement integers, IEEE-754 doubles,
  `sort.Sort` (contract), `reflect` (documentation of `FieldByName` and `FieldByNameFunc`), regexp and JSON (parameters).

## 7. Findings: where the code differs from the properties

Each is proved as a theorem unless marked (read).

| | finding | theorem |
|---|---|---|
| a | `LET Foo = scope().Foo SELECT * FROM Foo` recurses for ever at constant scope depth (protocol_associative.go:56, vfilter.go:1319-1325) | `C22_refuted` |
| b | a default argument that calls its own definition, `LET f(x=f()) = e`, recurses for ever: defaults are evaluated in the caller's scope (vfilter.go:1852, stored.go:186-208) | `C22_default_refuted` |
| c | `-x` is negated only the first time its syntax node is evaluated (vfilter.go:1747-1755, 1787-1818) | `C55_refuted` |
| d | evaluating the same parsed query again on the same scope continues `count()` | `C56_refuted` |
| e | an aggregate referred to in WHERE through a column alias counts in the enclosing context | `C30_where_aggregate_refuted` |
| f | the `if` plugin evaluates both branches when they are expressions | `C35` group |
| g | `Eq` is asymmetric for some pairs of kinds; `Gt` with a boolean on the left is inverted; `"abc" < 5` and `"abc" > 5` are both true | `C07`, `C08` groups |
| h | `<>` is accepted but always FALSE; `5 OR 1` is 5 | `C09`, `C10` groups |
| i | `1 / 0.0` is Inf, `0 / 2.0` is NULL, a lazy divisor gives NULL | `C04` group |
| j | repeating a string a negative number of times panics | `C03` group |
| k | ORDER BY: a NULL key is compared as the empty string, which is incomparable with floats; `DESC` uses a reflexive `less`; rows without the key compare as equal to everything | `C32` group |
| l | LIMIT 0 emits one row | `C26` group |
| m | foreach with negative workers, or cancelled at the wrong time, never finishes | `C39` group |
| n | chain and SELECT may deliver a non-prefix after cancellation | `C39` group |
| o | concurrent Close of the throttler closes a channel twice | `C58` group |
| p | copying a scope that is closed is not noticed; destructors that add destructors are cut off after 10 rounds | `C20`, `C21` groups |
| q | malformed hex escapes are decoded wrongly; `Unquote_ident` and `SplitIdent` disagree on backslashes; token end offsets count runes | `C45`-`C48` groups |
| r | `range` wraps around at 2^63; flatten drops NULL elements | `C40`, `C37` groups |
| s | `**` arguments replace explicit ones; `[]string` arguments duplicate elements of single member dicts | `C52`-`C54` groups |
| t | min and max are not extremal over mixed kinds, and NULL resets max | `C31` group |
| u | RowToDict leaves lazy values inside dicts and query rows | `C60` group |
| v | a repeated lambda parameter: the last argument wins; parameter names keep backquotes | `C57` group |
| w | NULL and array source rows shadow names of enclosing scopes | `C28` group |
| x | a LET parameter without a default that is not passed falls through to the caller's variables; extra arguments are bound as well | `C34` group |
| y | a call keeps a copy of the function it found first: functions registered later and those of other scopes are not called there (vfilter.go:1968-2008) | `C89_refuted`, `C89_site` |
| z | the grouper does not close the scope of a row it keeps; what WHERE and the group key attach to it runs only at the end of the query (vfilter_group.go:27, 74, grouper/grouper.go:47-81) | `C91_group_held`, `C91_held_refuted` |
| aa | formatting without line breaks puts what follows a `--` or `//` comment on the same line, so it is swallowed: `SELECT a +⏎-- c⏎ b AS X FROM y` becomes `SELECT a + -- c b AS X⏎FROM y` (visitor.go, comments inside trial layouts) | `C49_reformat_comment_refuted` |
| ab | comments in front of an AND chain, of a comparison's left operand and in lambda parameter lists are dropped by the formatter; so are comments in front of the value of an argument | `C49_reformat_comment_lost_refuted` |
| ac | `* AS x` loses its alias, `x[]` is printed as `x.`, `LET X()` as `LET X`, a LET parameter in backticks without backticks, `LET f(a, a=5)` as `LET f(a=5, a=5)`, a number that is out of range as FALSE | `C49_..._refuted` |
| ad | call sites are listed twice when lines are broken; comments collected inside trial layouts are lost (read) | |
| ae | ReFormatVQL strips blanks at the ends of lines inside string literals | `C49_reformat_string_refuted` |
| af | the outline misses calls in call arguments, WHERE, GROUP BY and source arguments | `C51_nested_refuted`, `C51_where_refuted` |
| ag | a `{ SELECT }` column without rows reads as NULL, not as an empty list (nil slice; protocols/protocol_associative.go:99-101, test case `empty subselects should produce null`) (read) | |
| ah | checkpoints: NULL variables are not restored, integers come back as doubles, default arguments are dropped, a definition is restored under its own name, names with backslashes change, parameters that need backquotes make the definition unreadable, and one value that JSON refuses ends everything | `C24_..._refuted` |
| ai | `SELECT 1 AS a, count() AS a` evaluates the last of two columns of the same name twice (lazy.go:105-113) | `C29_duplicate_refuted` |
| aj | `MultiParseWithComments`: two comments behind a statement that ends with a list of expressions are a syntax error (each of the nested optional comments of the next expression takes one, vfilter.go:898-1048, beyond the lookahead of one) | `C44_list_comments_refuted` |
| ak | `MultiParseWithComments`: a comment behind a list that ends with a comma is lost | `C44_comma_comment_refuted` |
| al | two statements that parse alone may not parse on two lines: `a['''x']` is an empty string and a string only as long as no `'''` follows | `C44_unclosed_refuted` |
| am | a string argument given as an array with one dict of one string member is not that string: the text of the dict is added behind the member (a `continue` is missing in arg_parser/args.go:124-136) | `C54_query_as_string_refuted` |
| an | bad arguments: `format` returns FALSE, the other functions NULL; `encode` reports them under the name `hex`, `max` under the name `min` (functions/functions.go:189, aggregates.go:272, format.go:27) | `C52_report_refuted`, `C52_missing_evaluates` |
| ao | ClearContext loses the explainer (scope/dispatcher.go:136-161 does not copy it) | `C65_clear_context_refuted` |
| ap | AddProtocolImpl registers an object only with the first protocol of its type switch that the object implements (scope/dispatcher.go:268-301) | `C65_all_protocols_refuted` |
| aq | `_StoredQuery.Call` closes its scope while its query runs: destructors of plugins in the query may be refused or run too early (stored.go:101) | `C68_refuted`, `C68_call_outcomes` |
| ar | the type of a struct field by value is referred to and not described (types/introspection.go:100-119) | `C69_by_value_refuted` |
| as | a list of pointers to a struct describes the struct without its fields, for good (types/introspection.go:60-72, 106-112) | `C69_pointer_list_refuted` |
| at | the member names of the described value also filter the fields of the types it refers to (types/introspection.go:109, 116) | `C69_members_refuted` |
| au | the value of a method that returned a nil interface is not kept: the method is called again (protocols/lazy_wrapper.go:125, 137) | `C70_nil_refuted` |
| av | `timestamp(epoch=0)`, and every time before 1970, is NULL (functions/functions.go:61-67) | `C72_before_epoch_refuted` |
| aw | `SELECT … FROM chain(a={…}, b={… ORDER BY …}) LIMIT 1`: chain may start `b` with the cancelled context, the sorter returns at once and the goroutine feeding it blocks forever (plugins/chain.go:41-57, vfilter.go:667-678) | `C74_all_end_refuted` |
| ax | a default `{ SELECT }` of a LET parameter written in back quotes is bound under the name with the quotes, so the parameter has no value (stored.go:201 uses `arg.Left` where the other cases use `name`) | `C34_quoted_default_refuted` |
| ay | a comment between GROUP and BY, or ORDER and BY, makes a query that is not parsed, although a line break may stand there (one lexer pattern, vfilter.go:168-169) | `C75_comment_within_group_by_refuted` |
| az | `a -1` and `a-1` are not parsed, `a - 1` is: the number pattern takes the sign (vfilter.go:172) | `C75_blank_left_out_refuted` |
| ba | OR binds tighter than AND, unlike SQL, C and Go; the table in the comment (vfilter.go:942-950) also has `* /` below `+ -`, which the grammar has not | `C76_or_before_and_refuted` |
| bb | `a < b < c` is read as `a < c`: the repetition `{ @@ }` fills one pointer, so all but the last comparison are dropped without an error (vfilter.go:995-1000) | `C76_chained_comparison_refuted` |
| bc | `2 * a[0]` is not parsed, `a[0] * 2` and `2 + a[0]` are (`_OpFactor.Factor` is a `_Value`, vfilter.go:917-920) | `C76_index_behind_times_refuted` |
| bd | EXPLAIN announces a query with LIMIT twice, with ORDER BY too three times: `_Select.Eval` calls itself on a copy without the clause and reports `StartQuery` each time (vfilter.go:612, 625-632, 672-675) | `C77_announced_once_refuted`, `C77_announcements` |
| be | EXPLAIN of a GROUP BY query reports no rows, neither taken nor emitted nor rejected (vfilter_group.go) | `C77_group_by_refuted` |
| bf | `LoggingExplainer.RejectRow` and `Log` pass the text as the format of `scope.Log`, so percent signs in a WHERE clause are garbled (explain/logging_explainer.go:97-104) | `C77_logged_refuted` |
| bg | an argument asked for with `ReduceWithScope`, as the argument parser does for arguments of any type, is evaluated each time; only `Reduce` keeps the value (lazy.go:143-178, arg_parser/parser.go:161-170) | `C79_again_refuted` |
| bh | an argument `x=[a, b]` is evaluated before the function is called, `x=(a, b)` when it asks (vfilter.go:1976-1983) | `C79_array_refuted` |
| bi | a destructor accepted after the last `RemoveDestructors` of `Close` and before `SetDestroyed` is neither refused nor run (scope/scope.go:539-549) | `C80_lost_refuted` |
| bj | a second `Close` returns although a destructor taken by the first one has not run (scope/scope.go:545) | `C80_returns_early_refuted` |
| bk | a copy made after `Close` has read the list of children stays open (scope/scope.go:498) | `C80_copy_missed_refuted` |
| bl | a child leaves its parent before its destructors run, so a `Close` of the parent by another goroutine does not wait for them (scope/scope.go:517-549) | `C80_child_first_refuted` |
| bm | `callFunction` looks for the function of the call site and stores its copy in two locked sections, so two goroutines that make the first call each make an aggregator, and count() gives 1 twice (vfilter.go:1968-2008) | `C81_race_refuted` |
| bn | a struct field whose name is the json tag of another field is listed by `GetMembers` and not found by `Associative`: both match and `FieldByNameFunc` finds neither (protocols/protocol_associative.go:251, 304-324) | `C82_tag_clash_refuted` |
| bo | fields of embedded structs can be read and are not listed, so `SELECT *` leaves them out (protocols/protocol_associative.go:331-338) | `C82_promoted_not_listed_refuted` |
| bp | a field of an embedded struct hides a method of the struct itself, in Go it is the other way round (protocols/protocol_associative.go:250-261) | `C82_own_method_refuted` |
| bq | `utils.IsExported` takes names that begin with a letter without case as exported, Go does not (utils/utils.go:29-30) | `C82_no_case_refuted` |
| br | the letters of AND, OR, TRUE and FALSE are kept in the tree and printed: a column without AS is named after them, and `$Query` shows them, all other keywords are printed in upper case (vfilter.go:828-850, 978, 990, 1043) | `C83_name_refuted` |
| bs | `checkCallingArgs` looks for missing arguments only if fewer names are given than there are parameters, so `q(a=1, c=1)` for `LET q(a, b) = SELECT ..` does not report `b` (stored.go:143) | `C84_masked_refuted` |
| bt | the arguments of LET functions, and of LET queries called inside expressions, are never checked: `_SymbolRef.Reduce` does not go through `Call`, and nothing else calls `StoredExpression.Call` (vfilter.go:1840-1900, stored.go:211, 238) | `C84_expression_refuted` |
| bu | `LazyRowImpl` has a mutex that is never used: two goroutines that read a column at the same time both evaluate it and may be given different values (lazy.go:60-76) | `C85_twice_refuted` |
| bv | `MaterializedLazyRow` does not store the columns it evaluates in the row, so a later `Get` evaluates them again (lazy.go:104-109) | `C85_materialized_refuted` |
| bw | numbers are read with base 0: `010` is 8, `08` is the double 8.0, and an octal number that does not fit into 64 bits is read again as a decimal one (vfilter.go:1648-1659) | `C86_zeros_refuted`, `C86_not_octal`, `C86_octal_refuted` |
| bx | comparing an integer beyond 2^53 with a float converts the integer and can call different numbers equal: `9007199254740993 = 9007199254740992.0` (protocols/protocol_lt.go:33-55) | `C87_beyond_refuted`, `C31_max_mixed_refuted` |
| by | GROUP BY compares the printed keys: 1, 1.0 and "1" share a group, as do NULL and "Null", ["a b"] and ["a", "b"]; 1000000 and 1000000.0 (printed as 1e+06), and 0.0 and -0.0, are equal and kept apart (vfilter_group.go:67, types/string.go:47-49) | `C88_kinds_refuted` |
| bz | `CopyFunction` makes an empty value of a function type without `Copy`, so the fields of the registered function are lost (vfilter.go:2042-2045) | `C89_refuted` |
| ca | the result of a call is tested with `types.IsNil` the first time and with `== nil` later, so a nil slice, map or pointer is NULL for the first row only (vfilter.go:1995, 2018) | `C89_refuted` |
| cb | `LazyExprImpl.Value` is read and written without a lock (lazy.go:173-177). Workers of `foreach` that share an argument of the enclosing call can read an interface with the type of one value and the data of another, or without data | `C90_torn_refuted`, `C90_half_refuted`, `C90_once_refuted` |
| cc | a lazy argument whose value is a Go nil is evaluated again by every `Reduce` (lazy.go:173) | `C90_nil_refuted` |
| cd | with GROUP BY the scope of the columns is closed before the columns are evaluated (vfilter_group.go:70, grouper/grouper.go:78): functions in columns cannot attach destructors, the same query without GROUP BY accepts them | `C91_group_late`, `C91_group_refuted` |
| ce | a scope that such a column copies from its closed scope is not closed with the query or the root; destructors attached to it do not run | `C91_copies_refuted` |
| cf | the defaults of a LET function are evaluated in the order in which Go visits a map (stored.go:190): after `LET g = count()`, a call `f()` of `LET f(a=g, b=g) = a` gives 1 or 2 at random | `C92_defaults_refuted` |
| cg | a function or plugin whose `Info` logs cannot be registered or described: the dispatcher is locked while `Info` is called (scope/dispatcher.go:125-140, 208-230, 242-252) and logging locks it again, so the call never returns | `C93_info_logs_refuted` |
| ch | mutexes are taken in both orders: `Explainer` and a refused `AddDestructor` lock the scope and then the dispatcher, `Describe` locks the dispatcher and then, through `Info`, the scope: deadlock with two goroutines | `C93_info_reads_refuted` |
| ci | a logger is called with the scope locked when a closed scope refuses a destructor (scope/scope.go:470-476), members are listed with the scope locked when a name is not found (199-212): code of the application that uses the scope there never returns | `C93_logger_refuted`, `C93_members_refuted` |
| cj | `GetFunction` and `GetPlugin` read Go maps without a lock (scope/dispatcher.go:232-240), as does `NewScope` (168-178): registering while a query runs can end the program | `C94_lookup_refuted`, `C94_new_scope_refuted` |
| ck | after `ClearContext` two dispatchers with different mutexes share the same maps (scope/dispatcher.go:142-166) | `C94_clear_context_refuted` |
| cl | the documentation in a tag ends at its first comma; what follows is read as directives (arg_parser/parser.go:391-404), so `doc=...,required` makes an optional argument required; descriptions take the first `field=` anywhere in the tag and only its letters, digits and underscores, so they can show a name that is refused as unexpected | `C95_doc_refuted` |
| cm | `RegisterParser` has no effect on structs whose parser is in the cache (arg_parser/cache.go:16-37), and the map it writes is read by `BuildParser` under another mutex (parser.go:430, 503) | `C95_register_refuted` (the first part) |
| cn | with several workers it depends on the schedule for which row `-x` is negated (vfilter.go:1739-1749, see c) | `C96_minus_once`, `C96_minus_refuted` |
| co | `ChargeOp` reads the throttler, `CheckForOverflow` the depth and `SetLogger`/`SetTracer` write the logger without the lock of the scope (scope/scope.go:115-117, 145-147, 245-249, 256); proved for the throttler | `C100_race_refuted` |
| cp | a destructor that needs more than 60 seconds runs at the same time as those of the scope that were registered before it, and still when `Close` has returned (scope/scope.go:547-560) | `C98_late_refuted` |
| cq | a throttler is not used by scopes that were copied before it was set; scopes made with `NewScope` keep it after it is closed; set on a closed scope it is used and never closed (scope/scope.go:166, 238-243, 357, 465-481) | `C100_copies_refuted`, `C100_new_scope_refuted`, `C100_set_late`, `C100_leak_refuted` |
| cr | `OutputJSON` gives the rows so far and no error if the query is cancelled (api.go:113-122) | `C101_cancel_refuted` |
| cs | `Snapshot` reads the counters one after the other, and `IncProtocolSearch` is never called, so ProtocolSearch is always 0 (types/stats.go:39-54) | `C102_snapshot_refuted`, `C102_protocol_refuted` |
