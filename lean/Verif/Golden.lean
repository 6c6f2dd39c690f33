import Verif.Library
import Verif.Parse
/-!
# The project's own test cases, run in the model

Not proofs: these checks compare the model with the recorded behaviour of the implementation.
Each case of `vqlTests` and `multiVQLTest` (vfilter_test.go:531-1378) is parsed, executed and
printed by the model; the expected rows are those of fixtures/vql_queries.golden and
fixtures/multi_vql_queries.golden, written without line breaks and with other quotes.

Left out: cases that use the test program's objects with methods or its struct with JSON tags,
the case `empty subselects should produce null` (a nil slice is not distinguished from an empty
one in the model), the cases with bytes outside ASCII, and the five cases that run into the
recursion limit (they agree as well but take long).
-/
set_option linter.all false

namespace Vfilter.Golden
open Vfilter Vfilter.Vql Vfilter.Fmt


/-- Values of the run. -/
abbrev VF := V F64
/-- The state of the test program: the root environment and the counter. -/
structure HS where
  env : OD VF
  count : Nat := 0

/-- No protocols beyond the built-in ones. -/
def W0 : World F64 Obj := {}

def toChars (s : Str) : String := String.join (s.map fun c => String.singleton (Char.ofNat c.toNat))
def isSub (p s : Str) : Bool := (List.range (s.length + 1)).any fun i => (s.drop i).take p.length == p
def lowS (s : Str) : Str := s.map fun c => if 65 ≤ c && c ≤ 90 then c + 32 else c
/-- Stands in for regular expressions: the ones in the test cases are plain text. -/
def matchF (a b : VF) : Bool := match a, b with
  | .str p, .str s => isSub (lowS p) (lowS s)
  | _, _ => false
def fmtV : VF → Str
  | .str s => s
  | .int i => fmtI64 i
  | .float f => fmtF64 f
  | .bool b => if b then bs "true" else bs "false"
  | .null => bs "Null"
  | _ => bs "?"

def reduceAny (v : VF) : Prog F64 HS VF := match v with
  | .obj (.lazy c) => call (.lazyReduce c)
  | v => pure v

def hexd (n : Nat) : UInt8 := if n < 10 then (48 + n).toUInt8 else (87 + n).toUInt8
def hexStr (s : Str) : Str := s.flatMap fun c => [hexd (c.toNat / 16), hexd (c.toNat % 16)]

/-- A string argument of a function of the test program. -/
def strField (s : Nat) (args : OD VF) (k : Str) : Prog F64 HS (Option Str) := match OD.get args k with
  | none => pure none
  | some v => do
    match ← fieldP W0 fmtV s v .str with
    | some (.str t) => pure (some t)
    | _ => pure none

/-- `fmt.Sprintf` for the verbs in the test cases. -/
def sprintf (f : Str) : List VF → Str
  | [.str x] => if f = bs "%x" ∨ f = bs "%02x" then hexStr x else x
  | [a] => fmtV a
  | _ => f

def fltField (s : Nat) (args : OD VF) (k : Str) : Prog F64 HS F64 := do
  match OD.get args k with
  | none => pure (F64.ofI64 0)
  | some v => do
    let v ← anyFieldP s v
    let v ← reduceAny v
    pure (v.toFloat.getD (F64.ofI64 0))

def rangeLoop : Nat → F64 → F64 → List VF
  | 0, _, _ => []
  | n+1, a, b => if F64.lt b a then [] else .dict [(bs "value", .float a)] :: rangeLoop n (F64.add a (F64.ofI64 1)) b

def d (l : List (String × VF)) : VF := .dict (l.map fun p => (bs p.1, p.2))
def n (k : Nat) : VF := .int (BitVec.ofNat 64 k)
def sv (s : String) : VF := .str (bs s)

/-- Functions and plugins of the test program (vfilter_test.go:310-450, 1389-1467). -/
def extra : Extra F64 HS where
  fns := [
   (bs "func_foo", fun _ _ args => match OD.get args (bs "return") with
      | some v => reduceAny v
      | none => pure (n 1)),
   (bs "counter", fun _ _ _ => prim (.host (fun h => (n (h.count+1), {h with count := h.count+1})))),
   (bs "panic", fun _ s args => do
      if unexpected [bs "column", bs "value"] args then pure .null
      else
      let v ← match OD.get args (bs "value") with | some v => anyFieldP s v | none => pure .null
      let c ← match OD.get args (bs "column") with | some v => anyFieldP s v | none => pure .null
      let v' ← reduceAny v
      let c' ← reduceAny c
      if eqV W0 v' c' then pure (sv "PANIC") else pure v),
   (bs "set_env", fun _ s args => do
      let k ← strField s args (bs "column")
      let v ← match OD.get args (bs "value") with | some v => anyFieldP s v | none => pure .null
      prim (.host (fun h => (.bool true, {h with env := OD.set h.env (k.getD []) v}))))]
  plugins := [
   (bs "test", fun _ _ => pure [d [("foo", n 0), ("bar", n 0)], d [("foo", n 2), ("bar", n 1)], d [("foo", n 4), ("bar", n 2)]]),
   (bs "range", fun s args => do
      let a ← fltField s args (bs "start")
      let b ← fltField s args (bs "end")
      pure (rangeLoop 200 a b)),
   (bs "dict", fun s args => do
      let r ← mapP (fun p : Str × VF => do
        let v ← reduceAny p.2
        pure (p.1, v)) args
      pure [.dict r]),
   (bs "groupbytest", fun _ _ => pure [
      d [("foo", n 1), ("bar", n 5), ("baz", sv "a")],
      d [("foo", n 2), ("bar", n 5), ("baz", sv "b")],
      d [("foo", n 3), ("bar", n 2), ("baz", sv "c")],
      d [("foo", n 4), ("bar", n 2), ("baz", sv "d")]])]
  sprintf := sprintf
  assocImpl := fun a k s => match a, k with
    | .obj (.host 0), .val (.str k) => some do
      let r ← prim (.host (fun h => (match OD.get h.env k with
        | some v => (.arr [v], h)
        | none => (.arr [], h))))
      match r with
      | .arr [v] => pure (some v, true)
      | _ => pure (none, false)
    | _, _ => none

def fmtSel (q : Select) : Str := (fSelect isBetter numberText (upSelect q) (Vis.new toStringOpts false)).text

/-- `makeTestScope` (vfilter_test.go:1389-1467) without the objects with methods. -/
def host : Host F64 HS := libHost W0 matchF fmtV (columnName numberText) numberV (fun _ => []) 1000 extra

/-- The environment of `makeScope` (vfilter_test.go:415-428). -/
def env0 : OD VF := [(bs "const_foo", n 1), (bs "three_int64", n 3),
  (bs "my_list_obj", d [("my_list", .arr [n 1, n 2, n 3, d [("Foo", sv "Bar")]])]),
  (bs "env_var", sv "EnvironmentData"),
  (bs "foo", d [("bar", d [("baz", n 5)]), ("bar2", n 7)]),
  (bs "RootEnv", .obj (.host 0))]

/-- The scope of a test. -/
def st0 : St F64 HS := {
  scopes := [{ vars := [d [("NULL", .null)], .obj (.host 0), d [("ArrayValue", .arr [n 1, n 2, n 3])]], ag := some 0 }]
  ctxs := [[]]
  host := ⟨env0, 0⟩ }

def js (s : Str) : String := "'" ++ toChars s ++ "'"
mutual
/-- A value as the golden files write it, with other quotes. -/
def json : VF → String
  | .null => "null"
  | .bool b => if b then "true" else "false"
  | .int i => toString i.toInt
  | .float f => toChars (fmtF64 f)
  | .str s => js s
  | .time t => "time " ++ toString t
  | .arr l => "[" ++ ", ".intercalate (jsons l) ++ "]"
  | .query l => "[" ++ ", ".intercalate (jsons l) ++ "]"
  | .dict d => "{" ++ ", ".intercalate (jfields d) ++ "}"
  | .obj _ => "object"
def jsons : List VF → List String
  | [] => []
  | v :: l => json v :: jsons l
def jfields : List (Str × VF) → List String
  | [] => []
  | (k, v) :: l => (js k ++ ": " ++ json v) :: jfields l
end

/-- Runs statements one after the other; prints each statement and its rows. -/
def runAll : List (Stmt × CStmt) → St F64 HS → List String
  | [], _ => []
  | (x, c) :: ss, st =>
    match Vql.exec (H := host) 20000 (do
        let rows ← stmtP host x 0
        mapP (rowToDictP 0) rows) st with
    | none => ["out of fuel"]
    | some (rows, st) => toChars (formatStmt numberText c) ::
        (if rows.isEmpty then "null" else json (.arr rows)) :: runAll ss st

/-- What the model prints for a query text. -/
def output (q : String) : List String :=
  match Fmt.multiParse limitVal (bs q) with
  | none => ["parse error"]
  | some cs => runAll ((lowStmts cs 1).zip cs) st0

-- query with dicts
#guard output "select * from test()" =
  ["SELECT * FROM test()",
   "[{'foo': 0, 'bar': 0}, {'foo': 2, 'bar': 1}, {'foo': 4, 'bar': 2}]"]
-- query with ints
#guard output "select * from range(start=10, end=12)" =
  ["SELECT * FROM range(start=10, end=12)",
   "[{'value': 10}, {'value': 11}, {'value': 12}]"]
-- query with wild card followed by comma
#guard output "select *, 1 AS Extra from test()" =
  ["SELECT *, 1 AS Extra FROM test()",
   "[{'foo': 0, 'bar': 0, 'Extra': 1}, {'foo': 2, 'bar': 1, 'Extra': 1}, {'foo': 4, 'bar': 2, 'Extra': 1}]"]
-- aliases with shadowed var
#guard output "select env_var as EnvVar, foo as FooColumn from test()" =
  ["SELECT env_var AS EnvVar, foo AS FooColumn FROM test()",
   "[{'EnvVar': 'EnvironmentData', 'FooColumn': 0}, {'EnvVar': 'EnvironmentData', 'FooColumn': 2}, {'EnvVar': 'EnvironmentData', 'FooColumn': 4}]"]
-- aliases with non-shadowed var
#guard output "select foo as FooColumn from range(start=1, end=2)" =
  ["SELECT foo AS FooColumn FROM range(start=1, end=2)",
   "[{'FooColumn': {'bar': {'baz': 5}, 'bar2': 7}}, {'FooColumn': {'bar': {'baz': 5}, 'bar2': 7}}]"]
-- condition on aliases
#guard output "select foo as FooColumn from test() where FooColumn = 2" =
  ["SELECT foo AS FooColumn FROM test() WHERE FooColumn = 2",
   "[{'FooColumn': 2}]"]
-- condition on aliases with not
#guard output "select foo as FooColumn from test() where NOT FooColumn = 2" =
  ["SELECT foo AS FooColumn FROM test() WHERE NOT FooColumn = 2",
   "[{'FooColumn': 0}, {'FooColumn': 4}]"]
-- condition on non aliases
#guard output "select foo as FooColumn from test() where foo = 4" =
  ["SELECT foo AS FooColumn FROM test() WHERE foo = 4",
   "[{'FooColumn': 4}]"]
-- dict plugin
#guard output "select * from dict(env_var=15, foo=5, `field with space`='value')" =
  ["SELECT * FROM dict(env_var=15, foo=5, `field with space`='value')",
   "[{'env_var': 15, 'foo': 5, 'field with space': 'value'}]"]
-- dict plugin with invalid column
#guard output "select no_such_column from dict(env_var=15, foo=5)" =
  ["SELECT no_such_column FROM dict(env_var=15, foo=5)",
   "[{'no_such_column': null}]"]
-- dict plugin with invalid column in expression
#guard output "select no_such_column + 'foo' from dict(env_var=15, foo=5)" =
  ["SELECT no_such_column + 'foo' FROM dict(env_var=15, foo=5)",
   "[{'no_such_column + 'foo'': null}]"]
-- mix from env and plugin
#guard output "select env_var + param as ConCat from dict(param='param')" =
  ["SELECT env_var + param AS ConCat FROM dict(param='param')",
   "[{'ConCat': 'EnvironmentDataparam'}]"]
-- subselects
#guard output "select param from dict(param={select * from range(start=3, end=5)})" =
  ["SELECT param FROM dict(param={ SELECT * FROM range(start=3, end=5) })",
   "[{'param': [{'value': 3}, {'value': 4}, {'value': 5}]}]"]
-- subselects addition
#guard output "select q1.value + q2.value as Sum from\n                         dict(q1={select * from range(start=3, end=5)},\n                              q2={select * from range(start=10, end=14)})" =
  ["SELECT q1.value + q2.value AS Sum FROM dict(q1={ SELECT * FROM range(start=3, end=5) }, q2={ SELECT * FROM range(start=10, end=14) })",
   "[{'Sum': [3, 4, 5, 10, 11, 12, 13, 14]}]"]
-- Functions in select expression
#guard output "select func_foo(return=q1 + 4) from dict(q1=3)" =
  ["SELECT func_foo(return=q1 + 4) FROM dict(q1=3)",
   "[{'func_foo(return=q1 + 4)': 7}]"]
-- Subselect in column.
#guard output "select bar, {select * from dict(column=bar)} as Query\n                 from test()" =
  ["SELECT bar, { SELECT * FROM dict(column=bar) } AS Query FROM test()",
   "[{'bar': 0, 'Query': 0}, {'bar': 1, 'Query': 1}, {'bar': 2, 'Query': 2}]"]
-- Subselect functions in filter.
#guard output "select bar, {select * from dict(column=bar)} as Query\n                 from test() where 1 in Query.column" =
  ["SELECT bar, { SELECT * FROM dict(column=bar) } AS Query FROM test() WHERE 1 IN Query.column",
   "null"]
-- Subselect in columns
#guard output "select bar, { select column from dict(column=bar) } AS subquery from test()\n                        " =
  ["SELECT bar, { SELECT column FROM dict(column=bar) } AS subquery FROM test()",
   "[{'bar': 0, 'subquery': 0}, {'bar': 1, 'subquery': 1}, {'bar': 2, 'subquery': 2}]"]
-- Foreach plugin
#guard output "\n            select * from foreach(\n                row={\n                   select * from test()\n                }, query={\n                   select bar, foo, value from range(start=bar, end=foo)\n                })" =
  ["SELECT * FROM foreach(row={ SELECT * FROM test() }, query={ SELECT bar, foo, value FROM range(start=bar, end=foo) })",
   "[{'bar': 0, 'foo': 0, 'value': 0}, {'bar': 1, 'foo': 2, 'value': 1}, {'bar': 1, 'foo': 2, 'value': 2}, {'bar': 2, 'foo': 4, 'value': 2}, {'bar': 2, 'foo': 4, 'value': 3}, {'bar': 2, 'foo': 4, 'value': 4}]"]
-- Foreach plugin with array
#guard output "\n            select * from foreach(\n                row=[dict(bar=1, foo=2), dict(foo=1, bar=2)],\n                query={\n                   select bar, foo from scope()\n                })" =
  ["SELECT * FROM foreach(row=[dict(bar=1, foo=2), dict(foo=1, bar=2)], query={ SELECT bar, foo FROM scope() })",
   "[{'bar': 1, 'foo': 2}, {'bar': 2, 'foo': 1}]"]
-- Foreach plugin with single object
#guard output "\n            select * from foreach(\n                row=dict(bar=1, foo=2),\n                query={\n                   select bar, foo from scope()\n                })" =
  ["SELECT * FROM foreach(row=dict(bar=1, foo=2), query={ SELECT bar, foo FROM scope() })",
   "[{'bar': 1, 'foo': 2}]"]
-- Foreach fully materializes row before passing to query 
#guard output "\n           SELECT Evaluated FROM foreach(row={\n                SELECT value,\n                       set_env(column=\"Evaluated\", value=TRUE)\n                FROM range(start=1, end=10)\n           },\n              query={\n                SELECT value from scope()\n              }) LIMIT 1\n        " =
  ["SELECT Evaluated FROM foreach(row={ SELECT value, set_env(column=\"Evaluated\", value=TRUE) FROM range(start=1, end=10) }, query={ SELECT value FROM scope() }) LIMIT 1",
   "[{'Evaluated': true}]"]
-- Foreach with non row elements
#guard output "SELECT * FROM foreach(row=1, query='hello')" =
  ["SELECT * FROM foreach(row=1, query='hello')",
   "[{'_value': 'hello'}]"]
-- Foreach with non row elements
#guard output "SELECT * FROM foreach(row=1, query=[1,2,3,4])" =
  ["SELECT * FROM foreach(row=1, query=[1, 2, 3, 4])",
   "[{'_value': 1}, {'_value': 2}, {'_value': 3}, {'_value': 4}]"]
-- Foreach with non row elements
#guard output "SELECT * FROM foreach(row=[1,2,3], query={SELECT _value FROM scope()})" =
  ["SELECT * FROM foreach(row=[1, 2, 3], query={ SELECT _value FROM scope() })",
   "[{'_value': 1}, {'_value': 2}, {'_value': 3}]"]
-- Foreach with no query - single object
#guard output "SELECT * FROM foreach(row=dict(X=1))" =
  ["SELECT * FROM foreach(row=dict(X=1))",
   "[{'X': 1}]"]
-- Foreach with no query - array of objects
#guard output "SELECT * FROM foreach(row=[dict(X=1), dict(X=2)])" =
  ["SELECT * FROM foreach(row=[dict(X=1), dict(X=2)])",
   "[{'X': 1}, {'X': 2}]"]
-- Foreach with no query - select with column
#guard output "SELECT * FROM foreach(row={ SELECT dict(X=1) AS X FROM scope()}, column='X')" =
  ["SELECT * FROM foreach(row={ SELECT dict(X=1) AS X FROM scope() }, column='X')",
   "[{'X': 1}]"]
-- Foreach with no query - with null
#guard output "SELECT * FROM foreach(row=NULL)" =
  ["SELECT * FROM foreach(row=NULL)",
   "null"]
-- Foreach with no query - with null in array
#guard output "SELECT * FROM foreach(row=[NULL, NULL, dict(X=1)])" =
  ["SELECT * FROM foreach(row=[NULL, NULL, dict(X=1)])",
   "[{'X': 1}]"]
-- Query plugin with dots
#guard output "Select * from Artifact.Linux.Sys()" =
  ["SELECT * FROM Artifact.Linux.Sys()",
   "null"]
-- Order by
#guard output "select * from test() order by foo" =
  ["SELECT * FROM test() ORDER BY foo",
   "[{'foo': 0, 'bar': 0}, {'foo': 2, 'bar': 1}, {'foo': 4, 'bar': 2}]"]
-- Order by desc
#guard output "select * from test() order by foo DESC" =
  ["SELECT * FROM test() ORDER BY foo DESC",
   "[{'foo': 4, 'bar': 2}, {'foo': 2, 'bar': 1}, {'foo': 0, 'bar': 0}]"]
-- Limit
#guard output "select * from test() limit 1" =
  ["SELECT * FROM test() LIMIT 1",
   "[{'foo': 0, 'bar': 0}]"]
-- Limit and order
#guard output "select * from test() order by foo desc limit 1" =
  ["SELECT * FROM test() ORDER BY foo DESC LIMIT 1",
   "[{'foo': 4, 'bar': 2}]"]
-- Comments Simple
#guard output "// This is a single line comment\nselect * from test() limit 1" =
  ["SELECT * FROM test() LIMIT 1",
   "[{'foo': 0, 'bar': 0}]"]
-- Comments SQL Style
#guard output "-- This is a single line comment in sql style\nselect * from test() limit 1" =
  ["SELECT * FROM test() LIMIT 1",
   "[{'foo': 0, 'bar': 0}]"]
-- Comments Multiline
#guard output "/* This is a multiline comment\nthis is the rest of the comment */\nselect * from test() limit 1" =
  ["SELECT * FROM test() LIMIT 1",
   "[{'foo': 0, 'bar': 0}]"]
-- Not combined with AND
#guard output "select * from test() WHERE 1 and not foo = 2" =
  ["SELECT * FROM test() WHERE 1  and NOT foo = 2",
   "[{'foo': 0, 'bar': 0}, {'foo': 4, 'bar': 2}]"]
-- Not combined with AND 2
#guard output "select * from test() WHERE 0 and not foo = 2" =
  ["SELECT * FROM test() WHERE 0  and NOT foo = 2",
   "null"]
-- Not combined with OR
#guard output "select * from test() WHERE 1 or not foo = 20" =
  ["SELECT * FROM test() WHERE 1 or NOT foo = 20",
   "[{'foo': 0, 'bar': 0}, {'foo': 2, 'bar': 1}, {'foo': 4, 'bar': 2}]"]
-- Not combined with OR 2
#guard output "select * from test() WHERE 0 or not foo = 20" =
  ["SELECT * FROM test() WHERE 0 or NOT foo = 20",
   "[{'foo': 0, 'bar': 0}, {'foo': 2, 'bar': 1}, {'foo': 4, 'bar': 2}]"]
-- Group by 1
#guard output "select foo, bar from groupbytest() GROUP BY bar" =
  ["SELECT foo, bar FROM groupbytest() GROUP BY bar",
   "[{'foo': 2, 'bar': 5}, {'foo': 4, 'bar': 2}]"]
-- Group by *
#guard output "select * from groupbytest() GROUP BY bar" =
  ["SELECT * FROM groupbytest() GROUP BY bar",
   "[{'foo': 2, 'bar': 5, 'baz': 'b'}, {'foo': 4, 'bar': 2, 'baz': 'd'}]"]
-- Group by count
#guard output "select foo, bar, count(items=bar) from groupbytest() GROUP BY bar" =
  ["SELECT foo, bar, count(items=bar) FROM groupbytest() GROUP BY bar",
   "[{'foo': 2, 'bar': 5, 'count(items=bar)': 2}, {'foo': 4, 'bar': 2, 'count(items=bar)': 2}]"]
-- Group by count with *
#guard output "select *, count(items=bar) from groupbytest() GROUP BY bar" =
  ["SELECT *, count(items=bar) FROM groupbytest() GROUP BY bar",
   "[{'foo': 2, 'bar': 5, 'baz': 'b', 'count(items=bar)': 2}, {'foo': 4, 'bar': 2, 'baz': 'd', 'count(items=bar)': 2}]"]
-- Group by count with where
#guard output "select foo, bar, count(items=bar) from groupbytest() WHERE foo < 4 GROUP BY bar" =
  ["SELECT foo, bar, count(items=bar) FROM groupbytest() WHERE foo < 4 GROUP BY bar",
   "[{'foo': 2, 'bar': 5, 'count(items=bar)': 2}, {'foo': 3, 'bar': 2, 'count(items=bar)': 1}]"]
-- Group by min
#guard output "select foo, bar, min(item=foo) from groupbytest() GROUP BY bar" =
  ["SELECT foo, bar, min(item=foo) FROM groupbytest() GROUP BY bar",
   "[{'foo': 2, 'bar': 5, 'min(item=foo)': 1}, {'foo': 4, 'bar': 2, 'min(item=foo)': 3}]"]
-- Group by max
#guard output "select foo, bar, max(item=foo) from groupbytest() GROUP BY bar" =
  ["SELECT foo, bar, max(item=foo) FROM groupbytest() GROUP BY bar",
   "[{'foo': 2, 'bar': 5, 'max(item=foo)': 2}, {'foo': 4, 'bar': 2, 'max(item=foo)': 4}]"]
-- Group by enumrate of string
#guard output "select baz, bar, enumerate(items=baz) from groupbytest() GROUP BY bar" =
  ["SELECT baz, bar, enumerate(items=baz) FROM groupbytest() GROUP BY bar",
   "[{'baz': 'b', 'bar': 5, 'enumerate(items=baz)': ['a', 'b']}, {'baz': 'd', 'bar': 2, 'enumerate(items=baz)': ['c', 'd']}]"]
-- Groupby evaluates each row twice
#guard output "SELECT * FROM chain(\na={ SELECT count() FROM scope()},\nb={\n     SELECT count(), count(items=bar), bar FROM groupbytest() GROUP BY bar\n})" =
  ["SELECT * FROM chain(a={ SELECT count() FROM scope() }, b={ SELECT count(), count(items=bar), bar FROM groupbytest() GROUP BY bar })",
   "[{'count()': 1}, {'count()': 2, 'count(items=bar)': 2, 'bar': 5}, {'count()': 2, 'count(items=bar)': 2, 'bar': 2}]"]
-- Lazy row evaluation (Shoud panic if foo=2
#guard output "select foo, panic(column=foo, value=2) from test() where foo = 4" =
  ["SELECT foo, panic(column=foo, value=2) FROM test() WHERE foo = 4",
   "[{'foo': 4, 'panic(column=foo, value=2)': 2}]"]
-- Quotes strings
#guard output "select 'foo\\'s quote' from scope()" =
  ["SELECT 'foo\\'s quote' FROM scope()",
   "[{''foo\\'s quote'': 'foo's quote'}]"]
-- Hex quotes
#guard output "SELECT format(format='%x', args=\"\\x01\\x02\\xf0\\xf1\") FROM scope()" =
  ["SELECT format(format='%x', args=\"\\x01\\x02\\xf0\\xf1\") FROM scope()",
   "[{'format(format='%x', args=\"\\x01\\x02\\xf0\\xf1\")': '0102f0f1'}]"]
-- Test get()
#guard output "select get(item=[dict(foo=3), 2, 3, 4], member='0.foo') AS Foo from scope()" =
  ["SELECT get(item=[dict(foo=3), 2, 3, 4], member='0.foo') AS Foo FROM scope()",
   "[{'Foo': 3}]"]
-- Array concatenation
#guard output "SELECT (1,2) + (3,4) FROM scope()" =
  ["SELECT (1, 2) + (3, 4) FROM scope()",
   "[{'(1, 2) + (3, 4)': [1, 2, 3, 4]}]"]
-- Array concatenation to any
#guard output "SELECT (1,2) + 4 FROM scope()" =
  ["SELECT (1, 2) + 4 FROM scope()",
   "[{'(1, 2) + 4': [1, 2, 4]}]"]
-- Array concatenation with if
#guard output "SELECT (1,2) + if(condition=1, then=(3,4)) AS Field FROM scope()" =
  ["SELECT (1, 2) + if(condition=1, then=(3, 4)) AS Field FROM scope()",
   "[{'Field': [1, 2, 3, 4]}]"]
-- Array empty with if
#guard output "SELECT if(condition=1, then=[]) AS Field FROM scope()" =
  ["SELECT if(condition=1, then=[]) AS Field FROM scope()",
   "[{'Field': []}]"]
-- Array concatenation with Null
#guard output "SELECT (1,2) + if(condition=0, then=(3,4)) AS Field FROM scope()" =
  ["SELECT (1, 2) + if(condition=0, then=(3, 4)) AS Field FROM scope()",
   "[{'Field': [1, 2, null]}]"]
-- Spurious line feeds and tabs
#guard output "SELECT  \n1\n+\n2\tAS\nFooBar\t\n FROM\n scope(\n)\nWHERE\n FooBar >\n1\nAND\nTRUE\n" =
  ["SELECT 1 + 2 AS FooBar FROM scope() WHERE FooBar > 1  AND TRUE",
   "[{'FooBar': 3}]"]
-- If function and comparison expression
#guard output "SELECT if(condition=1 + 1 = 2, then=2, else=3), if(condition=1 + 2 = 2, then=2, else=3) FROM scope()" =
  ["SELECT if(condition=1 + 1 = 2, then=2, else=3), if(condition=1 + 2 = 2, then=2, else=3) FROM scope()",
   "[{'if(condition=1 + 1 = 2, then=2, else=3)': 2, 'if(condition=1 + 2 = 2, then=2, else=3)': 3}]"]
-- If function and subselects
#guard output "SELECT if(condition=1, then={ SELECT * FROM test() }) FROM scope()" =
  ["SELECT if(condition=1, then={ SELECT * FROM test() }) FROM scope()",
   "[{'if(condition=1, then={ SELECT * FROM test() })': [{'foo': 0, 'bar': 0}, {'foo': 2, 'bar': 1}, {'foo': 4, 'bar': 2}]}]"]
-- If function should be lazy
#guard output "SELECT if(condition=FALSE, then=panic(column=3, value=3)) from scope()" =
  ["SELECT if(condition=FALSE, then=panic(column=3, value=3)) FROM scope()",
   "[{'if(condition=FALSE, then=panic(column=3, value=3))': null}]"]
-- If function should be lazy
#guard output "SELECT if(condition=TRUE, else=panic(column=7, value=7)) from scope()" =
  ["SELECT if(condition=TRUE, else=panic(column=7, value=7)) FROM scope()",
   "[{'if(condition=TRUE, else=panic(column=7, value=7))': null}]"]
-- If function should be lazy with sub query
#guard output "SELECT if(condition=TRUE, then={ SELECT * FROM test() LIMIT 1}) from scope()" =
  ["SELECT if(condition=TRUE, then={ SELECT * FROM test() LIMIT 1  }) FROM scope()",
   "[{'if(condition=TRUE, then={ SELECT * FROM test() LIMIT 1  })': [{'foo': 0, 'bar': 0}]}]"]
-- If function should be lazy with sub query
#guard output "SELECT if(condition=FALSE, then={ SELECT panic(column=8, value=8) FROM test()}) from scope()" =
  ["SELECT if(condition=FALSE, then={ SELECT panic(column=8, value=8) FROM test() }) FROM scope()",
   "[{'if(condition=FALSE, then={ SELECT panic(column=8, value=8) FROM test() })': null}]"]
-- If function should be lazy
#guard output "SELECT if(condition=TRUE, else={ SELECT panic(column=9, value=9) FROM test()}) from scope()" =
  ["SELECT if(condition=TRUE, else={ SELECT panic(column=9, value=9) FROM test() }) FROM scope()",
   "[{'if(condition=TRUE, else={ SELECT panic(column=9, value=9) FROM test() })': null}]"]
-- If function should be lazy WRT stored query 1/2
#guard output "LET bomb = SELECT panic(column=1, value=1) FROM scope()" =
  ["LET bomb = SELECT panic(column=1, value=1) FROM scope()",
   "null"]
-- If function should be lazy WRT stored query 2/2
#guard output "SELECT if(condition=FALSE, then=bomb) FROM scope()" =
  ["SELECT if(condition=FALSE, then=bomb) FROM scope()",
   "[{'if(condition=FALSE, then=bomb)': null}]"]
-- If plugin and arrays
#guard output "SELECT * FROM if(condition=1, then=[dict(Foo=1), dict(Foo=2)])" =
  ["SELECT * FROM if(condition=1, then=[dict(Foo=1), dict(Foo=2)])",
   "[{'Foo': 1}, {'Foo': 2}]"]
-- If plugin and dict
#guard output "SELECT * FROM if(condition=1, then=dict(Foo=2))" =
  ["SELECT * FROM if(condition=1, then=dict(Foo=2))",
   "[{'Foo': 2}]"]
-- Columns with space in them
#guard output "SELECT foo as `column with space` FROM dict(foo='hello world')" =
  ["SELECT foo AS `column with space` FROM dict(foo='hello world')",
   "[{'column with space': 'hello world'}]"]
-- Alternatives with the OR shortcut operator
#guard output "SELECT get(member='Foo') || get(member='Bar') || 'Hello' FROM scope()" =
  ["SELECT get(member='Foo') || get(member='Bar') || 'Hello' FROM scope()",
   "[{'get(member='Foo') || get(member='Bar') || 'Hello'': 'Hello'}]"]
-- Alternatives with the OR shortcut operator false
#guard output "SELECT NULL || '', NULL || FALSE, NULL || 'X', 'A' || 'B', 'A' || FALSE, 'A' || '' || 'B' FROM scope()" =
  ["SELECT NULL || '', NULL || FALSE, NULL || 'X', 'A' || 'B', 'A' || FALSE, 'A' || '' || 'B' FROM scope()",
   "[{'NULL || ''': '', 'NULL || FALSE': false, 'NULL || 'X'': 'X', ''A' || 'B'': 'A', ''A' || FALSE': 'A', ''A' || '' || 'B'': 'A'}]"]
-- Alternatives with AND shortcut operator
#guard output "SELECT NULL && '', TRUE && 'XX', 'A' && 'B', 'A' && FALSE, ((FALSE && 1) || 2), TRUE && 1 || 2 FROM scope()" =
  ["SELECT NULL  && '', TRUE  && 'XX', 'A'  && 'B', 'A'  && FALSE, ((FALSE  && 1) || 2), TRUE  && 1 || 2 FROM scope()",
   "[{'NULL  && ''': false, 'TRUE  && 'XX'': 'XX', ''A'  && 'B'': 'B', ''A'  && FALSE': false, '((FALSE  && 1) || 2)': 2, 'TRUE  && 1 || 2': 1}]"]
-- Whitespace in the query
#guard output "SELECT * FROM\ntest()" =
  ["SELECT * FROM test()",
   "[{'foo': 0, 'bar': 0}, {'foo': 2, 'bar': 1}, {'foo': 4, 'bar': 2}]"]
-- Query with LET
#guard output "LET X = SELECT * FROM test()  SELECT * FROM X" =
  ["LET X = SELECT * FROM test()",
   "null",
   "SELECT * FROM X",
   "[{'foo': 0, 'bar': 0}, {'foo': 2, 'bar': 1}, {'foo': 4, 'bar': 2}]"]
-- MultiSelect
#guard output "SELECT 'Bar' AS Foo FROM scope() SELECT 'Foo' AS Foo FROM scope()" =
  ["SELECT 'Bar' AS Foo FROM scope()",
   "[{'Foo': 'Bar'}]",
   "SELECT 'Foo' AS Foo FROM scope()",
   "[{'Foo': 'Foo'}]"]
-- LET with index
#guard output "LET X = SELECT * FROM test() SELECT X[0], X[1].bar FROM scope()" =
  ["LET X = SELECT * FROM test()",
   "null",
   "SELECT X[0], X[1].bar FROM scope()",
   "[{'X[0]': {'foo': 0, 'bar': 0}, 'X[1].bar': 1}]"]
-- LET with extra columns
#guard output "LET X = SELECT * FROM test() SELECT *, 1 FROM X" =
  ["LET X = SELECT * FROM test()",
   "null",
   "SELECT *, 1 FROM X",
   "[{'foo': 0, 'bar': 0, '1': 1}, {'foo': 2, 'bar': 1, '1': 1}, {'foo': 4, 'bar': 2, '1': 1}]"]
-- LET with extra columns before *
#guard output "LET X = SELECT * FROM test() SELECT 1, *, 2 FROM X" =
  ["LET X = SELECT * FROM test()",
   "null",
   "SELECT 1, *, 2 FROM X",
   "[{'1': 1, 'foo': 0, 'bar': 0, '2': 2}, {'1': 1, 'foo': 2, 'bar': 1, '2': 2}, {'1': 1, 'foo': 4, 'bar': 2, '2': 2}]"]
-- LET with extra columns before * and override
#guard output "LET X = SELECT * FROM test() SELECT 1000 + foo as foo, *, 2 FROM X" =
  ["LET X = SELECT * FROM test()",
   "null",
   "SELECT 1000 + foo AS foo, *, 2 FROM X",
   "[{'foo': 1000, 'bar': 0, '2': 2}, {'foo': 1002, 'bar': 1, '2': 2}, {'foo': 1004, 'bar': 2, '2': 2}]"]
-- LET materialized with extra columns
#guard output "LET X <= SELECT * FROM test() SELECT *, 1 FROM X" =
  ["LET X <= SELECT * FROM test()",
   "null",
   "SELECT *, 1 FROM X",
   "[{'foo': 0, 'bar': 0, '1': 1}, {'foo': 2, 'bar': 1, '1': 1}, {'foo': 4, 'bar': 2, '1': 1}]"]
-- Column name with space
#guard output "LET X <= SELECT 2 AS `Hello World` FROM scope() SELECT `Hello World`, `Hello World` + 4 AS Foo, X.`Hello World` FROM X" =
  ["LET X <= SELECT 2 AS `Hello World` FROM scope()",
   "null",
   "SELECT `Hello World`, `Hello World` + 4 AS Foo, X.`Hello World` FROM X",
   "[{'Hello World': 2, 'Foo': 6, 'X.`Hello World`': [2]}]"]
-- Group by with columns with spaces
#guard output "LET X = SELECT foo, bar AS `Foo Bar` FROM groupbytest() SELECT * FROM X GROUP BY `Foo Bar`" =
  ["LET X = SELECT foo, bar AS `Foo Bar` FROM groupbytest()",
   "null",
   "SELECT * FROM X GROUP BY `Foo Bar`",
   "[{'foo': 2, 'Foo Bar': 5}, {'foo': 4, 'Foo Bar': 2}]"]
-- Order by with columns with spaces
#guard output "LET X = SELECT foo AS `Foo Bar` FROM groupbytest() SELECT * FROM X ORDER BY `Foo Bar` DESC" =
  ["LET X = SELECT foo AS `Foo Bar` FROM groupbytest()",
   "null",
   "SELECT * FROM X ORDER BY `Foo Bar` DESC",
   "[{'Foo Bar': 4}, {'Foo Bar': 3}, {'Foo Bar': 2}, {'Foo Bar': 1}]"]
-- LET with expression
#guard output "LET X = 'Hello world' SELECT X FROM scope()" =
  ["LET X = 'Hello world'",
   "null",
   "SELECT X FROM scope()",
   "[{'X': 'Hello world'}]"]
-- LET with expression lazy
#guard output "LET X = panic() SELECT 1 + 1 FROM scope()" =
  ["LET X = panic()",
   "null",
   "SELECT 1 + 1 FROM scope()",
   "[{'1 + 1': 2}]"]
-- LET materialize with expression
#guard output "LET X <= 'Hello world' SELECT X FROM scope()" =
  ["LET X <= 'Hello world'",
   "null",
   "SELECT X FROM scope()",
   "[{'X': 'Hello world'}]"]
-- Serialization (Unexpected arg aborts parsing)
#guard output "SELECT panic(value=1, column=1, colume='X'), func_foo() FROM scope()" =
  ["SELECT panic(value=1, column=1, colume='X'), func_foo() FROM scope()",
   "[{'panic(value=1, column=1, colume='X')': null, 'func_foo()': 1}]"]
-- LET with expression lazy - string concat
#guard output "LET X = 'hello' SELECT X + 'world', 'world' + X, 'hello world' =~ X FROM scope()" =
  ["LET X = 'hello'",
   "null",
   "SELECT X + 'world', 'world' + X, 'hello world' =~ X FROM scope()",
   "[{'X + 'world'': 'helloworld', ''world' + X': 'worldhello', ''hello world' =~ X': true}]"]
-- Lazy expression in arrays
#guard output "LET X = count() SELECT (1, X), dict(foo=X, bar=[1,X]) FROM scope()" =
  ["LET X = count()",
   "null",
   "SELECT (1, X), dict(foo=X, bar=[1, X]) FROM scope()",
   "[{'(1, X)': [1, 1], 'dict(foo=X, bar=[1, X])': {'foo': 3, 'bar': [1, 2]}}]"]
-- Calling stored queries as plugins
#guard output "LET X = SELECT Foo FROM scope() SELECT * FROM X(Foo=1)" =
  ["LET X = SELECT Foo FROM scope()",
   "null",
   "SELECT * FROM X(Foo=1)",
   "[{'Foo': 1}]"]
-- Defining functions with args
#guard output "LET X(Foo, Bar) = Foo + Bar SELECT X(Foo=5, Bar=2) FROM scope()" =
  ["LET X(Foo, Bar) = Foo + Bar",
   "null",
   "SELECT X(Foo=5, Bar=2) FROM scope()",
   "[{'X(Foo=5, Bar=2)': 7}]"]
-- Defining stored queries with args
#guard output "LET X(Foo, Bar) = SELECT Foo + Bar FROM scope() SELECT * FROM X(Foo=5, Bar=2)" =
  ["LET X(Foo, Bar) = SELECT Foo + Bar FROM scope()",
   "null",
   "SELECT * FROM X(Foo=5, Bar=2)",
   "[{'Foo + Bar': 7}]"]
-- Defining functions masking variable name
#guard output "LET X(foo) = foo + 2 SELECT X(foo=foo), foo FROM test()" =
  ["LET X(foo) = foo + 2",
   "null",
   "SELECT X(foo=foo), foo FROM test()",
   "[{'X(foo=foo)': 2, 'foo': 0}, {'X(foo=foo)': 4, 'foo': 2}, {'X(foo=foo)': 6, 'foo': 4}]"]
-- Defining stored queries masking variable name
#guard output "LET X(foo) = SELECT *, foo FROM range(start=foo, end=foo + 2) LET foo=2 SELECT * FROM X(foo=foo)" =
  ["LET X(foo) = SELECT *, foo FROM range(start=foo, end=foo + 2)",
   "null",
   "LET foo = 2",
   "null",
   "SELECT * FROM X(foo=foo)",
   "[{'value': 2, 'foo': 2}, {'value': 3, 'foo': 2}, {'value': 4, 'foo': 2}]"]
-- Calling stored query in function context
#guard output "LET X(foo) = SELECT *, foo FROM range(start=foo, end=foo + 2) SELECT X(foo=5).value, X(foo=10) FROM scope()" =
  ["LET X(foo) = SELECT *, foo FROM range(start=foo, end=foo + 2)",
   "null",
   "SELECT X(foo=5).value, X(foo=10) FROM scope()",
   "[{'X(foo=5).value': [5, 6, 7], 'X(foo=10)': [{'value': 10, 'foo': 10}, {'value': 11, 'foo': 10}, {'value': 12, 'foo': 10}]}]"]
-- Calling stored query with args
#guard output "LET X(foo) = SELECT *, foo FROM range(start=foo, end=foo + 2) LET foo = 8 SELECT * FROM foreach(row=X, query={ SELECT *, value FROM X(foo=value) })" =
  ["LET X(foo) = SELECT *, foo FROM range(start=foo, end=foo + 2)",
   "null",
   "LET foo = 8",
   "null",
   "SELECT * FROM foreach(row=X, query={ SELECT *, value FROM X(foo=value) })",
   "[{'foo': 8, 'value': 8}, {'foo': 8, 'value': 9}, {'foo': 8, 'value': 10}, {'foo': 9, 'value': 9}, {'foo': 9, 'value': 10}, {'foo': 9, 'value': 11}, {'foo': 10, 'value': 10}, {'foo': 10, 'value': 11}, {'foo': 10, 'value': 12}]"]
-- Lazy expression evaluates in caller's scope
#guard output "LET X(foo) = 1 + foo SELECT X(foo= foo + 1 ), foo FROM test()" =
  ["LET X(foo) = 1 + foo",
   "null",
   "SELECT X(foo=foo + 1), foo FROM test()",
   "[{'X(foo=foo + 1)': 2, 'foo': 0}, {'X(foo=foo + 1)': 4, 'foo': 2}, {'X(foo=foo + 1)': 6, 'foo': 4}]"]
-- Calling lazy expressions as functions allows access to global scope
#guard output "\nLET Xk = 5\nLET Y = Xk + count()\nSELECT Y AS Y1, Y AS Y2, Y() AS Y3 FROM scope()\n" =
  ["LET Xk = 5",
   "null",
   "LET Y = Xk + count()",
   "null",
   "SELECT Y AS Y1, Y AS Y2, Y() AS Y3 FROM scope()",
   "[{'Y1': 6, 'Y2': 7, 'Y3': 6}]"]
-- Escaped identifiers for arg parameters
#guard output "SELECT dict(`arg-with-special chars`=TRUE) FROM scope()" =
  ["SELECT dict(`arg-with-special chars`=TRUE) FROM scope()",
   "[{'dict(`arg-with-special chars`=TRUE)': {'arg-with-special chars': true}}]"]
-- Group by hidden column
#guard output "select bar, baz from groupbytest() GROUP BY bar select baz from groupbytest() GROUP BY bar " =
  ["SELECT bar, baz FROM groupbytest() GROUP BY bar",
   "[{'bar': 5, 'baz': 'b'}, {'bar': 2, 'baz': 'd'}]",
   "SELECT baz FROM groupbytest() GROUP BY bar",
   "[{'baz': 'b'}, {'baz': 'd'}]"]
-- Group by expression
#guard output "select *, bar + bar from groupbytest() GROUP BY bar + bar" =
  ["SELECT *, bar + bar FROM groupbytest() GROUP BY bar + bar",
   "[{'foo': 2, 'bar': 5, 'baz': 'b', 'bar + bar': 10}, {'foo': 4, 'bar': 2, 'baz': 'd', 'bar + bar': 4}]"]
-- Variable can not mask a function.
#guard output "LET dict(x) = 1 SELECT 1 AS dict, dict(foo=1) FROM scope() WHERE dict" =
  ["LET dict(x) = 1",
   "null",
   "SELECT 1 AS dict, dict(foo=1) FROM scope() WHERE dict",
   "[{'dict': 1, 'dict(foo=1)': {'foo': 1}}]"]
-- Foreach evals query in row scope (both queries should be same)
#guard output "\nLET row_query = SELECT 1 AS ColumnName123 FROM scope()\nLET foreach_query = SELECT ColumnName123 FROM scope()\nSELECT * FROM foreach(row=row_query, query=foreach_query)\nSELECT * FROM foreach(row=row_query, query={SELECT ColumnName123 FROM scope()})\n" =
  ["LET row_query = SELECT 1 AS ColumnName123 FROM scope()",
   "null",
   "LET foreach_query = SELECT ColumnName123 FROM scope()",
   "null",
   "SELECT * FROM foreach(row=row_query, query=foreach_query)",
   "[{'ColumnName123': 1}]",
   "SELECT * FROM foreach(row=row_query, query={ SELECT ColumnName123 FROM scope() })",
   "[{'ColumnName123': 1}]"]
-- Aggregate functions with multiple evaluations
#guard output "\nSELECT count() AS Count FROM foreach(row=[0, 1, 2])\nWHERE Count <= 2  AND Count AND Count AND Count\n   AND count() and count()  -- Each count() instance is unique and has unique state\n" =
  ["SELECT count() AS Count FROM foreach(row=[0, 1, 2]) WHERE Count <= 2  AND Count  AND Count  AND Count  AND count()  and count()",
   "[{'Count': 1}, {'Count': 2}]"]
-- Aggregate functions: min max
#guard output "\nSELECT min(item=_value) AS Min,\n       max(item=_value) AS Max,\n       count() AS Count\nFROM foreach(row=[0, 1, 2])\nGROUP BY 1\n" =
  ["SELECT min(item=_value) AS Min, max(item=_value) AS Max, count() AS Count FROM foreach(row=[0, 1, 2]) GROUP BY 1",
   "[{'Min': 0, 'Max': 2, 'Count': 3}]"]
-- Aggregate functions: min max on strings
#guard output "\nSELECT min(item=_value) AS Min,\n       max(item=_value) AS Max,\n       count() AS Count\nFROM foreach(row=[\"AAA\", \"BBBB\", \"CCC\"])\nGROUP BY 1\n" =
  ["SELECT min(item=_value) AS Min, max(item=_value) AS Max, count() AS Count FROM foreach(row=[\"AAA\", \"BBBB\", \"CCC\"]) GROUP BY 1",
   "[{'Min': 'AAA', 'Max': 'CCC', 'Count': 3}]"]
-- Aggregate functions keep state per unique instance
#guard output "\nSELECT count() AS A, count() AS B FROM foreach(row=[0, 1, 2])\n" =
  ["SELECT count() AS A, count() AS B FROM foreach(row=[0, 1, 2])",
   "[{'A': 1, 'B': 1}, {'A': 2, 'B': 2}, {'A': 3, 'B': 3}]"]
-- Aggregate functions within a VQL function have their own state
#guard output "\nLET Adder(X) = SELECT *, count() AS Count FROM range(start=10, end=10 + X, step=1)\n\nSELECT Adder(X=4), Adder(X=2) FROM scope()\n" =
  ["LET Adder(X) = SELECT *, count() AS Count FROM range(start=10, end=10 + X, step=1)",
   "null",
   "SELECT Adder(X=4), Adder(X=2) FROM scope()",
   "[{'Adder(X=4)': [{'value': 10, 'Count': 1}, {'value': 11, 'Count': 2}, {'value': 12, 'Count': 3}, {'value': 13, 'Count': 4}, {'value': 14, 'Count': 5}], 'Adder(X=2)': [{'value': 10, 'Count': 1}, {'value': 11, 'Count': 2}, {'value': 12, 'Count': 3}]}]"]
-- Aggregate functions within a VQL function have their own state
#guard output "\nLET Adder(X) = SELECT *, count() AS Count FROM range(start=10, end=10 + X, step=1)\n\nSELECT * FROM foreach(row={ SELECT value FROM range(start=0, end=2, step=1)},\nquery={\n   SELECT * FROM Adder(X=value)\n})\n" =
  ["LET Adder(X) = SELECT *, count() AS Count FROM range(start=10, end=10 + X, step=1)",
   "null",
   "SELECT * FROM foreach(row={ SELECT value FROM range(start=0, end=2, step=1) }, query={ SELECT * FROM Adder(X=value) })",
   "[{'value': 10, 'Count': 1}, {'value': 10, 'Count': 1}, {'value': 11, 'Count': 2}, {'value': 10, 'Count': 1}, {'value': 11, 'Count': 2}, {'value': 12, 'Count': 3}]"]
-- Aggregate functions: Sum and Count together
#guard output "\nLET MyValue <= \"Hello\"\n\nSELECT * FROM foreach(row=[2, 3, 4],\n  query={\n    SELECT count() AS Count,\n       sum(item=_value) AS Sum,\n       MyValue\n    FROM scope()\n})" =
  ["LET MyValue <= \"Hello\"",
   "null",
   "SELECT * FROM foreach(row=[2, 3, 4], query={ SELECT count() AS Count, sum(item=_value) AS Sum, MyValue FROM scope() })",
   "[{'Count': 1, 'Sum': 2, 'MyValue': 'Hello'}, {'Count': 2, 'Sum': 5, 'MyValue': 'Hello'}, {'Count': 3, 'Sum': 9, 'MyValue': 'Hello'}]"]
-- Aggregate functions: Sum and Count in stored query definition
#guard output "\nLET MyValue <= \"Hello\"\nLET CountMe(Value) = SELECT count() AS Count,\n    Value,\n    sum(item=Value) AS Sum,\n    MyValue\n    FROM scope()\n\nLET _value = 10\n\nSELECT * FROM foreach(row=[2, 3, 4],\n  query={\n    SELECT * FROM CountMe(Value=_value)\n})" =
  ["LET MyValue <= \"Hello\"",
   "null",
   "LET CountMe(Value) = SELECT count() AS Count, Value, sum(item=Value) AS Sum, MyValue FROM scope()",
   "null",
   "LET _value = 10",
   "null",
   "SELECT * FROM foreach(row=[2, 3, 4], query={ SELECT * FROM CountMe(Value=_value) })",
   "[{'Count': 1, 'Value': 2, 'Sum': 2, 'MyValue': 'Hello'}, {'Count': 1, 'Value': 3, 'Sum': 3, 'MyValue': 'Hello'}, {'Count': 1, 'Value': 4, 'Sum': 4, 'MyValue': 'Hello'}]"]
-- Aggregate functions: Sum and Count in stored query definition
#guard output "\nLET MyValue <= \"Hello\"\nLET CountMe(Value) = SELECT count() AS Count,\n    Value,\n    sum(item=Value) AS Sum,\n    MyValue\n    FROM scope()\n\nLET _value = 10\n\n-- CountMe is evaluated at point of definition to return a stored query.\nSELECT * FROM foreach(row=[2, 3, 4],\n  query=CountMe(Value=_value))" =
  ["LET MyValue <= \"Hello\"",
   "null",
   "LET CountMe(Value) = SELECT count() AS Count, Value, sum(item=Value) AS Sum, MyValue FROM scope()",
   "null",
   "LET _value = 10",
   "null",
   "SELECT * FROM foreach(row=[2, 3, 4], query=CountMe(Value=_value))",
   "[{'Count': 1, 'Value': 10, 'Sum': 10, 'MyValue': 'Hello'}, {'Count': 2, 'Value': 10, 'Sum': 20, 'MyValue': 'Hello'}, {'Count': 3, 'Value': 10, 'Sum': 30, 'MyValue': 'Hello'}]"]
-- Aggregate functions: Sum all rows
#guard output "\nSELECT sum(item=_value) AS Total,\n       sum(item=_value * 2) AS TotalDouble\nFROM foreach(row=[2, 3, 4])\nGROUP BY 1\n" =
  ["SELECT sum(item=_value) AS Total, sum(item=_value * 2) AS TotalDouble FROM foreach(row=[2, 3, 4]) GROUP BY 1",
   "[{'Total': 9, 'TotalDouble': 18}]"]
-- If function with stored query
#guard output "\n-- Prove that stored query was evaluated\nLET Foo = SELECT 2 FROM scope() WHERE set_env(column=\"Eval\", value=TRUE)\n\n-- Materialize an expression\nLET result <= if(condition=TRUE, then=Foo) -- should materialize\nSELECT RootEnv.Eval AS Pass FROM scope()  -- should be set\n" =
  ["LET Foo = SELECT 2 FROM scope() WHERE set_env(column=\"Eval\", value=TRUE)",
   "null",
   "LET result <= if(condition=TRUE, then=Foo)",
   "null",
   "SELECT RootEnv.Eval AS Pass FROM scope()",
   "[{'Pass': true}]"]
-- If function with subqueries
#guard output "\nLET abc(a) = if(\n  condition=a,\n  then={SELECT a AS Pass FROM scope()},\n  else={SELECT false AS Pass from scope()})\n\nSELECT abc(a=TRUE) AS Pass FROM scope()\n" =
  ["LET abc(a) = if(condition=a, then={ SELECT a AS Pass FROM scope() }, else={ SELECT false AS Pass FROM scope() })",
   "null",
   "SELECT abc(a=TRUE) AS Pass FROM scope()",
   "[{'Pass': [{'Pass': null}]}]"]
-- If function with functions
#guard output "\nLET abc(a) = if(\n  condition=a,\n  then=set_env(column=\"EvalFunc\", value=TRUE))\n\nLET _ <= SELECT abc(a=TRUE) FROM scope()\nSELECT RootEnv.EvalFunc AS Pass FROM scope()\n" =
  ["LET abc(a) = if(condition=a, then=set_env(column=\"EvalFunc\", value=TRUE))",
   "null",
   "LET _ <= SELECT abc(a=TRUE) FROM scope()",
   "null",
   "SELECT RootEnv.EvalFunc AS Pass FROM scope()",
   "[{'Pass': true}]"]
-- If function with conditions as subqueries
#guard output "\nLET abc(a) = if(\n  condition={SELECT * FROM scope()},  -- returns TRUE\n  then={SELECT a AS Pass FROM scope()},\n  else={SELECT false AS Pass from scope()})\n\nSELECT abc(a=TRUE) AS Pass FROM scope()\n" =
  ["LET abc(a) = if(condition={ SELECT * FROM scope() }, then={ SELECT a AS Pass FROM scope() }, else={ SELECT false AS Pass FROM scope() })",
   "null",
   "SELECT abc(a=TRUE) AS Pass FROM scope()",
   "[{'Pass': [{'Pass': null}]}]"]
-- If function with conditions as stored query
#guard output "\nLET stored_query = SELECT * FROM scope()\n\nLET abc(a) = if(\n  condition=stored_query,\n  then={SELECT a AS Pass FROM scope()},\n  else={SELECT false AS Pass from scope()})\n\nSELECT abc(a=TRUE) AS Pass FROM scope()\n" =
  ["LET stored_query = SELECT * FROM scope()",
   "null",
   "LET abc(a) = if(condition=stored_query, then={ SELECT a AS Pass FROM scope() }, else={ SELECT false AS Pass FROM scope() })",
   "null",
   "SELECT abc(a=TRUE) AS Pass FROM scope()",
   "[{'Pass': [{'Pass': null}]}]"]
-- If function with conditions as vql functions
#guard output "\nLET adder(a) = a =~ \"Foo\"\n\nLET abc(a) = if(\n  condition=adder(a=\"Foobar\"),\n  then={SELECT a AS Pass FROM scope()},\n  else={SELECT false AS Pass from scope()})\n\nSELECT abc(a=TRUE) AS Pass FROM scope()\n" =
  ["LET adder(a) = a =~ \"Foo\"",
   "null",
   "LET abc(a) = if(condition=adder(a=\"Foobar\"), then={ SELECT a AS Pass FROM scope() }, else={ SELECT false AS Pass FROM scope() })",
   "null",
   "SELECT abc(a=TRUE) AS Pass FROM scope()",
   "[{'Pass': [{'Pass': null}]}]"]
-- Multiline string constants
#guard output "LET X = '''This\nis\na\nmultiline with 'quotes' and \"double quotes\" and \\ backslashes\n''' + \"A string\"\n\nSELECT X FROM scope()\n" =
  ["LET X = '''This\nis\na\nmultiline with 'quotes' and \"double quotes\" and \\ backslashes\n''' + \"A string\"",
   "null",
   "SELECT X FROM scope()",
   "[{'X': 'This\nis\na\nmultiline with 'quotes' and \"double quotes\" and \\ backslashes\nA string'}]"]
-- Early breakout of foreach with infinite row query
#guard output "\nSELECT * FROM foreach(row={\n  SELECT count() AS Count FROM range(start=1, end=20)\n  WHERE panic(column=Count, value=5)    -- Should trigger panic if we reach 5\n},\nquery={\n  SELECT Count FROM scope()\n})\nLIMIT 1" =
  ["SELECT * FROM foreach(row={ SELECT count() AS Count FROM range(start=1, end=20) WHERE panic(column=Count, value=5) }, query={ SELECT Count FROM scope() }) LIMIT 1",
   "[{'Count': 1}]"]
-- Early breakout of foreach with stored query
#guard output "\nLET X =   SELECT count() AS Count FROM range(start=1, end=20)\n  WHERE panic(column=Count, value=6)    -- Should trigger panic if we reach 6\n\nSELECT * FROM foreach(row=X,\nquery={\n  SELECT Count FROM scope()\n})\nLIMIT 1" =
  ["LET X = SELECT count() AS Count FROM range(start=1, end=20) WHERE panic(column=Count, value=6)",
   "null",
   "SELECT * FROM foreach(row=X, query={ SELECT Count FROM scope() }) LIMIT 1",
   "[{'Count': 1}]"]
-- Early breakout of foreach with stored query with parameters
#guard output "\nLET X(Y) =   SELECT Y, count() AS Count FROM range(start=1, end=20)\n  WHERE panic(column=Count, value=7)    -- Should trigger panic if we reach 7\n\nSELECT * FROM foreach(row=X(Y=23),\nquery={\n  SELECT Y, Count FROM scope()\n})\nLIMIT 1" =
  ["LET X(Y) = SELECT Y, count() AS Count FROM range(start=1, end=20) WHERE panic(column=Count, value=7)",
   "null",
   "SELECT * FROM foreach(row=X(Y=23), query={ SELECT Y, Count FROM scope() }) LIMIT 1",
   "[{'Y': 23, 'Count': 1}]"]
-- Expand stored query with parameters on associative
#guard output "\nLET X(Y) = SELECT Y + 5 + value AS Foo FROM range(start=1, end=2)\n\nSELECT X(Y=2).Foo FROM scope()" =
  ["LET X(Y) = SELECT Y + 5 + value AS Foo FROM range(start=1, end=2)",
   "null",
   "SELECT X(Y=2).Foo FROM scope()",
   "[{'X(Y=2).Foo': [8, 9]}]"]
-- Order by
#guard output "\nSELECT * FROM foreach(row=(1,8,3,2),\n   query={SELECT _value AS X FROM scope()}) ORDER BY X" =
  ["SELECT * FROM foreach(row=(1, 8, 3, 2), query={ SELECT _value AS X FROM scope() }) ORDER BY X",
   "[{'X': 1}, {'X': 2}, {'X': 3}, {'X': 8}]"]
-- Group by also orders
#guard output "\nSELECT * FROM foreach(row=(1,1,1,1,8,3,3,3,2),\n   query={SELECT _value AS X FROM scope()}) GROUP BY X" =
  ["SELECT * FROM foreach(row=(1, 1, 1, 1, 8, 3, 3, 3, 2), query={ SELECT _value AS X FROM scope() }) GROUP BY X",
   "[{'X': 1}, {'X': 8}, {'X': 3}, {'X': 2}]"]
-- Group by with explicit order by
#guard output "\nSELECT * FROM foreach(row=(1,1,1,1,8,3,3,3,2),\n   query={\n       SELECT _value AS X, 10 - _value AS Y FROM scope()\n   }) GROUP BY X ORDER BY Y" =
  ["SELECT * FROM foreach(row=(1, 1, 1, 1, 8, 3, 3, 3, 2), query={ SELECT _value AS X, 10 - _value AS Y FROM scope() }) GROUP BY X ORDER BY Y",
   "[{'X': 8, 'Y': 2}, {'X': 3, 'Y': 7}, {'X': 2, 'Y': 8}, {'X': 1, 'Y': 9}]"]
-- Test array index
#guard output "\nLET BIN <= SELECT * FROM test()\nSELECT BIN, BIN[0] FROM scope()\n" =
  ["LET BIN <= SELECT * FROM test()",
   "null",
   "SELECT BIN, BIN[0] FROM scope()",
   "[{'BIN': [{'foo': 0, 'bar': 0}, {'foo': 2, 'bar': 1}, {'foo': 4, 'bar': 2}], 'BIN[0]': {'foo': 0, 'bar': 0}}]"]
-- Test array index with expression
#guard output "\nLET Index(X) = X - 1\nLET BIN <= SELECT * FROM test()\nSELECT BIN, BIN[ Index(X=2) ] FROM scope()\nSELECT BIN, BIN[ Index(X=0) ] FROM scope()\n" =
  ["LET Index(X) = X - 1",
   "null",
   "LET BIN <= SELECT * FROM test()",
   "null",
   "SELECT BIN, BIN[Index(X=2)] FROM scope()",
   "[{'BIN': [{'foo': 0, 'bar': 0}, {'foo': 2, 'bar': 1}, {'foo': 4, 'bar': 2}], 'BIN[Index(X=2)]': {'foo': 2, 'bar': 1}}]",
   "SELECT BIN, BIN[Index(X=0)] FROM scope()",
   "[{'BIN': [{'foo': 0, 'bar': 0}, {'foo': 2, 'bar': 1}, {'foo': 4, 'bar': 2}], 'BIN[Index(X=0)]': {'foo': 4, 'bar': 2}}]"]
-- Create Let expression
#guard output "\nlet result = select  * from test()\n// Create Let materialized expression\nlet result <= select  * from test()\n\n//Refer to Let expression\nselect * from result\n\n//Refer to non existent Let expression returns no rows\nselect * from no_such_result\n// Refer to non existent Let expression by column returns no rows\nselect foobar from no_such_result" =
  ["LET result = SELECT * FROM test()",
   "null",
   "LET result <= SELECT * FROM test()",
   "null",
   "SELECT * FROM result",
   "[{'foo': 0, 'bar': 0}, {'foo': 2, 'bar': 1}, {'foo': 4, 'bar': 2}]",
   "SELECT * FROM no_such_result",
   "null",
   "SELECT foobar FROM no_such_result",
   "null"]
-- Override function with a variable
#guard output "LET format = 5 SELECT format, format(format='%v', args=1) AS A FROM scope()" =
  ["LET format = 5",
   "null",
   "SELECT format, format(format='%v', args=1) AS A FROM scope()",
   "[{'format': 5, 'A': '1'}]"]
-- Stored Expressions as plugins
#guard output "LET Foo = (dict(X=1),dict(X=2),dict(X=3))   SELECT * FROM Foo" =
  ["LET Foo = (dict(X=1), dict(X=2), dict(X=3))",
   "null",
   "SELECT * FROM Foo",
   "[{'X': 1}, {'X': 2}, {'X': 3}]"]
-- Materialized Expressions as plugins
#guard output "LET Foo <= (dict(X=1),dict(X=2),dict(X=3))   SELECT * FROM Foo" =
  ["LET Foo <= (dict(X=1), dict(X=2), dict(X=3))",
   "null",
   "SELECT * FROM Foo",
   "[{'X': 1}, {'X': 2}, {'X': 3}]"]
-- Stored Expressions as plugins with args
#guard output "LET Foo(X) = (dict(X=1+X),dict(X=2+X),dict(X=3+X))   SELECT * FROM Foo(X=1)" =
  ["LET Foo(X) = (dict(X=1 + X), dict(X=2 + X), dict(X=3 + X))",
   "null",
   "SELECT * FROM Foo(X=1)",
   "[{'X': 2}, {'X': 3}, {'X': 4}]"]
-- Slice Range
#guard output "\nLET X <= (0,1,2,3,4,5,6,7)\nSELECT X[2:], X[2:4], X[:2], X[-1], X[-2], X[-2:], X[2:-1] FROM scope()\n" =
  ["LET X <= (0, 1, 2, 3, 4, 5, 6, 7)",
   "null",
   "SELECT X[2:], X[2:4], X[:2], X[-1], X[-2], X[-2:], X[2:-1] FROM scope()",
   "[{'X[2:]': [2, 3, 4, 5, 6, 7], 'X[2:4]': [2, 3], 'X[:2]': [0, 1], 'X[-1]': 7, 'X[-2]': 6, 'X[-2:]': [6, 7], 'X[2:-1]': [2, 3, 4, 5, 6]}]"]
-- Slice Strings
#guard output "\nLET X = \"Hello World\"\nSELECT X[1:5], X[-5:], X[:5], X[5:2], X[5:5] FROM scope()\n" =
  ["LET X = \"Hello World\"",
   "null",
   "SELECT X[1:5], X[-5:], X[:5], X[5:2], X[5:5] FROM scope()",
   "[{'X[1:5]': 'ello', 'X[-5:]': 'World', 'X[:5]': 'Hello', 'X[5:2]': '', 'X[5:5]': ''}]"]
-- Slice Strings Binary
#guard output "\nLET X = \"\\x00\\xff\\xfe\\xfc\\xd0\\x01\"\nSELECT X[1], X[2], format(format=\"%02x\", args=X[2:5]), X[5:2], X[2:2]\nFROM scope()\n" =
  ["LET X = \"\\x00\\xff\\xfe\\xfc\\xd0\\x01\"",
   "null",
   "SELECT X[1], X[2], format(format=\"%02x\", args=X[2:5]), X[5:2], X[2:2] FROM scope()",
   "[{'X[1]': 255, 'X[2]': 254, 'format(format=\"%02x\", args=X[2:5])': 'fefcd0', 'X[5:2]': '', 'X[2:2]': ''}]"]
-- VQL Functions can access global scope
#guard output "\nLET Foo = \"Hello\"\nLET MyFunc(X) = SELECT X, Foo FROM scope()\n\nSELECT * FROM MyFunc(X=1)" =
  ["LET Foo = \"Hello\"",
   "null",
   "LET MyFunc(X) = SELECT X, Foo FROM scope()",
   "null",
   "SELECT * FROM MyFunc(X=1)",
   "[{'X': 1, 'Foo': 'Hello'}]"]
-- Function returning array
#guard output "\nSELECT func_foo(return=ArrayValue) FROM scope()\n" =
  ["SELECT func_foo(return=ArrayValue) FROM scope()",
   "[{'func_foo(return=ArrayValue)': [1, 2, 3]}]"]
-- If function with stored query
#guard output "\nLET FooBar = SELECT \"A\" FROM scope()\nLET B = SELECT if(condition=TRUE, then=FooBar) AS Item\nFROM scope()\nSELECT B, FooBar FROM scope()\n" =
  ["LET FooBar = SELECT \"A\" FROM scope()",
   "null",
   "LET B = SELECT if(condition=TRUE, then=FooBar) AS Item FROM scope()",
   "null",
   "SELECT B, FooBar FROM scope()",
   "[{'B': [{'Item': [{'\"A\"': 'A'}]}], 'FooBar': [{'\"A\"': 'A'}]}]"]
-- Explain query
#guard output "\nEXPLAIN SELECT \"A\" FROM scope()\n" =
  ["EXPLAIN SELECT \"A\" FROM scope()",
   "[{'\"A\"': 'A'}]"]
-- Flatten query
#guard output "\nSELECT * FROM flatten(query={\n   SELECT 1 AS A, (1,2) AS B FROM scope()\n})" =
  ["SELECT * FROM flatten(query={ SELECT 1 AS A, (1, 2) AS B FROM scope() })",
   "[{'A': 1, 'B': 1}, {'A': 1, 'B': 2}]"]
-- Flatten query cartesian with 2 lists
#guard output "\nSELECT * FROM flatten(query={\n   SELECT (3, 4) AS A, (1,2) AS B FROM scope()\n})" =
  ["SELECT * FROM flatten(query={ SELECT (3, 4) AS A, (1, 2) AS B FROM scope() })",
   "[{'A': 3, 'B': 1}, {'A': 4, 'B': 1}, {'A': 3, 'B': 2}, {'A': 4, 'B': 2}]"]
-- Flatten query empty list
#guard output "\nLET FOO <= SELECT * FROM scope() WHERE FALSE\nSELECT * FROM flatten(query={\n   SELECT 1 AS A, FOO, (1, 2) AS B FROM scope()\n})" =
  ["LET FOO <= SELECT * FROM scope() WHERE FALSE",
   "null",
   "SELECT * FROM flatten(query={ SELECT 1 AS A, FOO, (1, 2) AS B FROM scope() })",
   "[{'A': 1, 'FOO': [], 'B': 1}, {'A': 1, 'FOO': [], 'B': 2}]"]
-- Flatten dict query
#guard output "\nSELECT * FROM flatten(query={\n   SELECT 1 AS A, dict(E=1,F=2) AS B FROM scope()\n})" =
  ["SELECT * FROM flatten(query={ SELECT 1 AS A, dict(E=1, F=2) AS B FROM scope() })",
   "[{'A': 1, 'B': {'E': 1, 'F': 2}}]"]
-- Flatten subquery
#guard output "\nSELECT * FROM flatten(query={\n   SELECT *, { SELECT * FROM range(start=1, end=3) } AS Count\n   FROM foreach(row=[dict(A=1)])\n})" =
  ["SELECT * FROM flatten(query={ SELECT *, { SELECT * FROM range(start=1, end=3) } AS Count FROM foreach(row=[dict(A=1)]) })",
   "[{'A': 1, 'Count': 1}, {'A': 1, 'Count': 2}, {'A': 1, 'Count': 3}]"]
-- Flatten stored query
#guard output "\nLET SQ = SELECT * FROM range(start=1, end=3)\nSELECT * FROM flatten(query={\n   SELECT *, SQ\n   FROM foreach(row=[dict(A=1)])\n})" =
  ["LET SQ = SELECT * FROM range(start=1, end=3)",
   "null",
   "SELECT * FROM flatten(query={ SELECT *, SQ FROM foreach(row=[dict(A=1)]) })",
   "[{'A': 1, 'SQ': {'value': 1}}, {'A': 1, 'SQ': {'value': 2}}, {'A': 1, 'SQ': {'value': 3}}]"]
-- Foreach query with multiple count()
#guard output "\nSELECT * FROM foreach(row={\n   SELECT count() AS RowCount\n   FROM range(start=1, end=3)\n}, query={\n   SELECT RowCount, count() AS QueryCount, count() AS SecondQueryCount\n   FROM range(start=1, step=1, end=3)\n})\n" =
  ["SELECT * FROM foreach(row={ SELECT count() AS RowCount FROM range(start=1, end=3) }, query={ SELECT RowCount, count() AS QueryCount, count() AS SecondQueryCount FROM range(start=1, step=1, end=3) })",
   "[{'RowCount': 1, 'QueryCount': 1, 'SecondQueryCount': 1}, {'RowCount': 1, 'QueryCount': 2, 'SecondQueryCount': 2}, {'RowCount': 1, 'QueryCount': 3, 'SecondQueryCount': 3}, {'RowCount': 2, 'QueryCount': 4, 'SecondQueryCount': 4}, {'RowCount': 2, 'QueryCount': 5, 'SecondQueryCount': 5}, {'RowCount': 2, 'QueryCount': 6, 'SecondQueryCount': 6}, {'RowCount': 3, 'QueryCount': 7, 'SecondQueryCount': 7}, {'RowCount': 3, 'QueryCount': 8, 'SecondQueryCount': 8}, {'RowCount': 3, 'QueryCount': 9, 'SecondQueryCount': 9}]"]
-- Calling stored query with aggregators
#guard output "\nLET Counter(Start) = SELECT count() AS Count, Start\n  FROM range(start=1, step=1, end=3)\n\nSELECT * FROM foreach(row={\n   SELECT count() AS RowCount\n   FROM range(start=1, end=3)\n}, query={\n   SELECT * FROM Counter(Start=RowCount)\n})\n" =
  ["LET Counter(Start) = SELECT count() AS Count, Start FROM range(start=1, step=1, end=3)",
   "null",
   "SELECT * FROM foreach(row={ SELECT count() AS RowCount FROM range(start=1, end=3) }, query={ SELECT * FROM Counter(Start=RowCount) })",
   "[{'Count': 1, 'Start': 1}, {'Count': 2, 'Start': 1}, {'Count': 3, 'Start': 1}, {'Count': 1, 'Start': 2}, {'Count': 2, 'Start': 2}, {'Count': 3, 'Start': 2}, {'Count': 1, 'Start': 3}, {'Count': 2, 'Start': 3}, {'Count': 3, 'Start': 3}]"]
-- Aggregate function in a parameter resets stat
#guard output "\nLET Counter(Start) = SELECT count() AS Count, Start\n  FROM range(start=1, step=1, end=3)\n\nLET CountFunc(Start) = dict(A=count(), B=Start)\n\nSELECT set_env(column=\"Eval\", value=Counter(Start=\"First Call\")),\n       set_env(column=\"Eval2\", value=Counter(Start=\"Second Call\")),\n       set_env(column=\"Eval3\", value=CountFunc(Start=\"First Func Call\")),\n       set_env(column=\"Eval4\", value=CountFunc(Start=\"Second Func Call\"))\nFROM scope()\n\nSELECT RootEnv.Eval AS FirstCall, RootEnv.Eval2 AS SecondCall,\n       RootEnv.Eval3 AS FirstFuncCall, RootEnv.Eval4 AS SecondFuncCall\nFROM scope()\n" =
  ["LET Counter(Start) = SELECT count() AS Count, Start FROM range(start=1, step=1, end=3)",
   "null",
   "LET CountFunc(Start) = dict(A=count(), B=Start)",
   "null",
   "SELECT set_env(column=\"Eval\", value=Counter(Start=\"First Call\")), set_env(column=\"Eval2\", value=Counter(Start=\"Second Call\")), set_env(column=\"Eval3\", value=CountFunc(Start=\"First Func Call\")), set_env(column=\"Eval4\", value=CountFunc(Start=\"Second Func Call\")) FROM scope()",
   "[{'set_env(column=\"Eval\", value=Counter(Start=\"First Call\"))': true, 'set_env(column=\"Eval2\", value=Counter(Start=\"Second Call\"))': true, 'set_env(column=\"Eval3\", value=CountFunc(Start=\"First Func Call\"))': true, 'set_env(column=\"Eval4\", value=CountFunc(Start=\"Second Func Call\"))': true}]",
   "SELECT RootEnv.Eval AS FirstCall, RootEnv.Eval2 AS SecondCall, RootEnv.Eval3 AS FirstFuncCall, RootEnv.Eval4 AS SecondFuncCall FROM scope()",
   "[{'FirstCall': [{'Count': 1, 'Start': 'First Call'}, {'Count': 2, 'Start': 'First Call'}, {'Count': 3, 'Start': 'First Call'}], 'SecondCall': [{'Count': 1, 'Start': 'Second Call'}, {'Count': 2, 'Start': 'Second Call'}, {'Count': 3, 'Start': 'Second Call'}], 'FirstFuncCall': {'A': 1, 'B': 'First Func Call'}, 'SecondFuncCall': {'A': 1, 'B': 'Second Func Call'}}]"]
-- Test Scope Clearing
#guard output "\nLET Data <= (dict(A=1), dict(B=2))\nLET s = scope()\n\nSELECT s.A, A, s.B, B FROM Data\n" =
  ["LET Data <= (dict(A=1), dict(B=2))",
   "null",
   "LET s = scope()",
   "null",
   "SELECT s.A, A, s.B, B FROM Data",
   "[{'s.A': 1, 'A': 1, 's.B': null, 'B': null}, {'s.A': null, 'A': null, 's.B': 2, 'B': 2}]"]
-- Test timestamp comparisons
#guard output "\nSELECT timestamp(epoch=1723428985) < 1118628985,\n       1118628985 < timestamp(epoch=1723428985),\n       timestamp(epoch=1723428985) < timestamp(epoch=1118628985),\n       timestamp(epoch=1118628985) < timestamp(epoch=1723428985),\n       timestamp(epoch=1723428985) > 1118628985,\n       1118628985 > timestamp(epoch=1723428985),\n       timestamp(epoch=1723428985) > timestamp(epoch=1118628985),\n       timestamp(epoch=1118628985) > timestamp(epoch=1723428985),\n       timestamp(epoch=1723428985) < 1118628985.0,\n       1118628985.0 < timestamp(epoch=1723428985),\n       timestamp(epoch=1723428985) > 1118628985.0,\n       1118628985.0 > timestamp(epoch=1723428985),\n       timestamp(epoch=1723428985) < \"2024-08-12T02:15:25.176Z\",\n       \"2024-08-12T02:15:25.176Z\" < timestamp(epoch=1723428985),\n       timestamp(epoch=1723428985) > \"2024-08-12T02:15:25.176Z\",\n       \"2024-08-12T02:15:25.176Z\" > timestamp(epoch=1723428985)\nFROM scope()\n" =
  ["SELECT timestamp(epoch=1723428985) < 1118628985, 1118628985 < timestamp(epoch=1723428985), timestamp(epoch=1723428985) < timestamp(epoch=1118628985), timestamp(epoch=1118628985) < timestamp(epoch=1723428985), timestamp(epoch=1723428985) > 1118628985, 1118628985 > timestamp(epoch=1723428985), timestamp(epoch=1723428985) > timestamp(epoch=1118628985), timestamp(epoch=1118628985) > timestamp(epoch=1723428985), timestamp(epoch=1723428985) < 1118628985.0, 1118628985.0 < timestamp(epoch=1723428985), timestamp(epoch=1723428985) > 1118628985.0, 1118628985.0 > timestamp(epoch=1723428985), timestamp(epoch=1723428985) < \"2024-08-12T02:15:25.176Z\", \"2024-08-12T02:15:25.176Z\" < timestamp(epoch=1723428985), timestamp(epoch=1723428985) > \"2024-08-12T02:15:25.176Z\", \"2024-08-12T02:15:25.176Z\" > timestamp(epoch=1723428985) FROM scope()",
   "[{'timestamp(epoch=1723428985) < 1118628985': false, '1118628985 < timestamp(epoch=1723428985)': true, 'timestamp(epoch=1723428985) < timestamp(epoch=1118628985)': false, 'timestamp(epoch=1118628985) < timestamp(epoch=1723428985)': true, 'timestamp(epoch=1723428985) > 1118628985': true, '1118628985 > timestamp(epoch=1723428985)': false, 'timestamp(epoch=1723428985) > timestamp(epoch=1118628985)': true, 'timestamp(epoch=1118628985) > timestamp(epoch=1723428985)': false, 'timestamp(epoch=1723428985) < 1118628985.0': false, '1118628985.0 < timestamp(epoch=1723428985)': true, 'timestamp(epoch=1723428985) > 1118628985.0': true, '1118628985.0 > timestamp(epoch=1723428985)': false, 'timestamp(epoch=1723428985) < \"2024-08-12T02:15:25.176Z\"': false, '\"2024-08-12T02:15:25.176Z\" < timestamp(epoch=1723428985)': false, 'timestamp(epoch=1723428985) > \"2024-08-12T02:15:25.176Z\"': false, '\"2024-08-12T02:15:25.176Z\" > timestamp(epoch=1723428985)': false}]"]
-- Adding Stored Query
#guard output "\nLET X = SELECT value AS Foo FROM range(start=1, end=4)\n\nSELECT (dict(Foo=12), ) + X, X + (dict(Foo=12),) FROM scope()\n" =
  ["LET X = SELECT value AS Foo FROM range(start=1, end=4)",
   "null",
   "SELECT (dict(Foo=12), ) + X, X + (dict(Foo=12), ) FROM scope()",
   "[{'(dict(Foo=12), ) + X': [{'Foo': 12}, {'Foo': 1}, {'Foo': 2}, {'Foo': 3}, {'Foo': 4}], 'X + (dict(Foo=12), )': [{'Foo': 1}, {'Foo': 2}, {'Foo': 3}, {'Foo': 4}, {'Foo': 12}]}]"]
-- Adding Materialized Stored Query
#guard output "\nLET X <= SELECT value AS Foo FROM range(start=1, end=4)\n\nSELECT (dict(Foo=12), ) + X, X + (dict(Foo=12),) FROM scope()\n" =
  ["LET X <= SELECT value AS Foo FROM range(start=1, end=4)",
   "null",
   "SELECT (dict(Foo=12), ) + X, X + (dict(Foo=12), ) FROM scope()",
   "[{'(dict(Foo=12), ) + X': [{'Foo': 12}, {'Foo': 1}, {'Foo': 2}, {'Foo': 3}, {'Foo': 4}], 'X + (dict(Foo=12), )': [{'Foo': 1}, {'Foo': 2}, {'Foo': 3}, {'Foo': 4}, {'Foo': 12}]}]"]
-- Function definition with defaults
#guard output "\nLET Y <= 7\n\nLET F(X = 2, Y ) = X+Y\nSELECT F(Y=1), F(), F(X=1, Y=4) FROM scope()\n" =
  ["LET Y <= 7",
   "null",
   "LET F(X=2, Y) = X + Y",
   "null",
   "SELECT F(Y=1), F(), F(X=1, Y=4) FROM scope()",
   "[{'F(Y=1)': 3, 'F()': 9, 'F(X=1, Y=4)': 5}]"]
-- Stored Query definition with defaults
#guard output "\nLET F(X = 2, Y ) =\n    SELECT X + Y AS Total\n    FROM scope()\n\nSELECT * FROM F(Y=1)\n" =
  ["LET F(X=2, Y) = SELECT X + Y AS Total FROM scope()",
   "null",
   "SELECT * FROM F(Y=1)",
   "[{'Total': 3}]"]
-- Negative
#guard output "LET X <= 1 + -2 SELECT X FROM scope()" =
  ["LET X <= 1 + -2",
   "null",
   "SELECT X FROM scope()",
   "[{'X': -1}]"]
-- Negative index
#guard output "\nLET X <= 2\nLET Bar(X) = X + 3\nLET Foo <= (1, 2+X, 3, 4+ -5)\nLET Float <= 12.232\nLET StoredQuery = SELECT * FROM info()\n\nSELECT Foo[ -2 ], Foo[ -X ], -X, -`X`, \n       -Bar(X=3), -Float, -StoredQuery,\n       Foo[-2:],\n       Foo[-X:],\n       Foo[-Bar(X=-1):]\nFROM scope()\n" =
  ["LET X <= 2",
   "null",
   "LET Bar(X) = X + 3",
   "null",
   "LET Foo <= (1, 2 + X, 3, 4 + -5)",
   "null",
   "LET Float <= 12.232",
   "null",
   "LET StoredQuery = SELECT * FROM info()",
   "null",
   "SELECT Foo[-2], Foo[-X], -X, -`X`, -Bar(X=3), -Float, -StoredQuery, Foo[-2:], Foo[-X:], Foo[-Bar(X=-1):] FROM scope()",
   "[{'Foo[-2]': 3, 'Foo[-X]': 3, '-X': -2, '-`X`': -2, '-Bar(X=3)': -6, '-Float': -12.232, '-StoredQuery': null, 'Foo[-2:]': [3, -1], 'Foo[-X:]': [3, -1], 'Foo[-Bar(X=-1):]': [3, -1]}]"]

end Vfilter.Golden
