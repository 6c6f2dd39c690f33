import Verif.Parse
/-!
# The formatter's test cases, run in the model

Not proofs: the cases of reformat/visitor_test.go:20-102 (`reformatTests`) with the text recorded
in reformat/fixtures/formatting.golden.
-/
set_option linter.all false

namespace Vfilter.GoldenFormat
open Vfilter Vfilter.Fmt

/-- LIMIT values in the test cases. -/
def lim (s : Str) : Option Int :=
  if s.all isDigit then some (s.foldl (fun (a : Int) c => a * 10 + (c.toNat - 48)) 0) else none

/-- `ReFormatVQL` (reformat/visitor.go:11-27). -/
def output (s : String) : String := match Fmt.multiParseWithComments lim (bs s) with
  | none => "parse error"
  | some ss => String.join ((reformat id defaultOpts true ss).map fun c => String.singleton (Char.ofNat c.toNat))

-- Plugin args with very long second arg
#guard output "\n\nSELECT *, upload_directory(accessor=\"collector\",\n                           file=RootPathSpec + \"hello world \" + _Components) AS UploadedFile\nFROM ALLUploads\n" =
  "SELECT *, upload_directory(\n         accessor=\"collector\",\n         file=RootPathSpec + \"hello world \" + _Components) AS UploadedFile\nFROM ALLUploads\n\n"
-- MultiLine Comment
#guard output "\n/*\n   This is a multiline comment\n*/\nSELECT Foo FROM plugin()\n" =
  "\n/*\n   This is a multiline comment\n*/\nSELECT Foo\nFROM plugin()\n\n"
-- Comment on columns
#guard output "\nSELECT Foo,\n       -- This is a comment on Bar\n       Bar\nFROM plugin()\n" =
  "SELECT Foo,\n       -- This is a comment on Bar\n       Bar\nFROM plugin()\n\n"
-- Comment in a comma list
#guard output "\n    LET LocalDeviceMajor <= (\n       253,\n       7,   -- loop\n       8,   -- sd\n    )\n" =
  "LET LocalDeviceMajor <= (253, 7, -- loop\n    8, -- sd\n    )\n\n"
-- Comment above plugin arg
#guard output "\nSELECT * FROM info(\n     -- This is a comment for Foo\n     Foo = 1,\n Bar =2\n)\n" =
  "SELECT *\nFROM info(-- This is a comment for Foo\nFoo=1, Bar=2)\n\n"
-- Comment above LET
#guard output "\n// This is a comment\n-- Another type of comment\nLET X = SELECT * FROM info()\n" =
  "// This is a comment\n-- Another type of comment\nLET X = SELECT *\n  FROM info()\n\n"
-- Comment above SELECT
#guard output "\n// This is a comment\n-- Another type of comment\nSELECT * FROM info()\n" =
  "// This is a comment\n-- Another type of comment\nSELECT *\nFROM info()\n\n"
-- Comma Expression
#guard output "select * from plugin() where dict(foo=[1,])" =
  "SELECT *\nFROM plugin()\nWHERE dict(foo=[1, ])\n\n"
-- Comma Expression 2
#guard output "select * from plugin() where (1, 2, 3, 4)" =
  "SELECT *\nFROM plugin()\nWHERE (1, 2, 3, 4)\n\n"
-- Group by with many columns
#guard output "SELECT min(item=EventTime) AS EarliestTime\nFROM source(artifact=\"Exchange.Windows.Detection.ISOMount\") GROUP BY Computer, Username, EventID, Filename" =
  "SELECT min(item=EventTime) AS EarliestTime\nFROM source(artifact=\"Exchange.Windows.Detection.ISOMount\")\nGROUP BY Computer, Username, EventID, Filename\n\n"
-- Plugin with long first arg
#guard output "SELECT *\nFROM Artifact.Windows.EventLogs.EvtxHunter(EvtxGlob='''%SystemRoot%\\System32\\Winevt\\Logs\\*Sysmon*.evtx''')" =
  "SELECT *\nFROM Artifact.Windows.EventLogs.EvtxHunter(\n  EvtxGlob='''%SystemRoot%\\System32\\Winevt\\Logs\\*Sysmon*.evtx''')\n\n"
-- If Plugin
#guard output "LET DateAfterTime <= if(condition=TargetTime, then=timestamp(epoch=TargetTime.Unix - TargetTimeBox), else=timestamp(epoch=now() - TargetTimeBox))" =
  "LET DateAfterTime <= if(condition=TargetTime,\n                        then=timestamp(epoch=TargetTime.Unix - TargetTimeBox),\n                        else=timestamp(epoch=now() - TargetTimeBox))\n\n"
-- If Plugin with longer args
#guard output "LET DateAfterTime <= if(condition=TargetTime, then=timestamp(epoch=TargetTime.Unix - TargetTimeBox + SomeConstant), else=timestamp(epoch=now() - TargetTimeBox))" =
  "LET DateAfterTime <= if(condition=TargetTime,\n                        then=timestamp(epoch=TargetTime.Unix -\n                                         TargetTimeBox +\n                                         SomeConstant),\n                        else=timestamp(epoch=now() - TargetTimeBox))\n\n"
-- Try to fit plugin args in one line
#guard output "LET CacheList = SELECT FullPath FROM glob(globs=GlobPath, root=RootPath)" =
  "LET CacheList = SELECT FullPath\n  FROM glob(globs=GlobPath, root=RootPath)\n\n"
-- If plugin args break lines line up on (
#guard output "LET CacheList = SELECT FullPath FROM glob(globs=GlobPath, follow_symlinks=TRUE, another_long_arg=54,  root=\"C:/Windows/System32/\")" =
  "LET CacheList = SELECT FullPath\n  FROM glob(globs=GlobPath,\n            follow_symlinks=TRUE,\n            another_long_arg=54,\n            root=\"C:/Windows/System32/\")\n\n"
-- If plugin args are too long to line up on ( they get indent more
#guard output "LET CacheList = SELECT FullPath FROM glob(globs=Glob, follow_symlinks=TRUE, another_long_arg=54,  root=\"C:/Windows/System32/Foobar/Config/Registry/Some/Long/Path/And/Along/Path\")" =
  "LET CacheList = SELECT FullPath\n  FROM glob(\n    globs=Glob,\n    follow_symlinks=TRUE,\n    another_long_arg=54,\n    root=\"C:/Windows/System32/Foobar/Config/Registry/Some/Long/Path/And/Along/Path\")\n\n"
-- Try to keep function args in one line
#guard output "LET CacheList = SELECT FullPath FROM glob(globs=split(string=CacheGlob, sep=\",\"), root=RootPath)" =
  "LET CacheList = SELECT FullPath\n  FROM glob(globs=split(string=CacheGlob, sep=\",\"), root=RootPath)\n\n"
-- Example
#guard output "LET CacheList = SELECT FullPath FROM glob(globs=Glob, root=RootPath)" =
  "LET CacheList = SELECT FullPath\n  FROM glob(globs=Glob, root=RootPath)\n\n"
-- LET expression
#guard output "LET Foo = SELECT * FROM info() WHERE Foo GROUP BY 1" =
  "LET Foo = SELECT *\n  FROM info()\n  WHERE Foo\n  GROUP BY 1\n\n"
-- LET with parameters
#guard output "LET Foo(x,y,z) = SELECT * FROM info() WHERE Foo GROUP BY 1" =
  "LET Foo(x, y, z) = SELECT *\n  FROM info()\n  WHERE Foo\n  GROUP BY 1\n\n"
-- Nesting
#guard output "SELECT * FROM foreach(row={SELECT * FROM foreach(row={SELECT * FROM info}, query={SELECT * FROM info()})}, query=ForeachQuery(X=1))" =
  "SELECT *\nFROM foreach(row={\n    SELECT *\n    FROM foreach(row={ SELECT * FROM info }, query={ SELECT * FROM info() })\n  },\n             query=ForeachQuery(X=1))\n\n"
-- Foreach
#guard output "SELECT * FROM foreach(row={SELECT * FROM clients() LIMIT 5}, query={SELECT client_info(client_id=client_id) FROM glob(globs=AGlob)})" =
  "SELECT *\nFROM foreach(row={\n    SELECT *\n    FROM clients()\n    LIMIT 5\n  },\n             query={\n    SELECT client_info(client_id=client_id)\n    FROM glob(globs=AGlob)\n  })\n\n"
-- Subquery
#guard output "SELECT {SELECT * FROM info()} AS Foo, Bar FROM scope()" =
  "SELECT {\n    SELECT *\n    FROM info()\n    } AS Foo,\n       Bar\nFROM scope()\n\n"
-- Simple Statement
#guard output "SELECT A AS First, B AS Second, C, D FROM info(arg=1, arg2=3) WHERE 1 ORDER BY C LIMIT 1" =
  "SELECT A AS First,\n       B AS Second,\n       C,\n       D\nFROM info(arg=1, arg2=3)\nWHERE 1\nORDER BY C\nLIMIT 1\n\n"
-- Explain statements
#guard output "EXPLAIN SELECT 'A' FROM scope()" =
  "EXPLAIN SELECT 'A'\nFROM scope()\n\n"
-- Very long LET with SELECT pushing far to right
#guard output "\nLET this_is_a_long_name = SELECT *, upload_directory(accessor=\"collector\", file=RootPathSpec + \"hello world \" + _Components) AS UploadedFile FROM ALLUploads\n" =
  "LET this_is_a_long_name = SELECT\n    *, upload_directory(\n      accessor=\"collector\",\n      file=RootPathSpec + \"hello world \" + _Components) AS UploadedFile\n  FROM ALLUploads\n\n"
-- Complex long lines. Args should line up on the function they are in.
#guard output "\n LET enumerate_path = SELECT\n regex_replace(source=TargetPath,\n re='''\\%USERPROFILE\\%''',\n replace=Dir) AS TargetPath,\n *,\n check_exist(path=regex_replace(source=TargetPath,\n re='''\\%USERPROFILE\\%''',\n replace=Directory))[0] AS Exists,\n MaxSize - rand(range=(MaxSize - MinSize)) - len(\n list=unhex(string=MagicBytes)) - 7 AS _PaddingSize\n FROM Honeyfiles\n" =
  "LET enumerate_path = SELECT regex_replace(source=TargetPath,\n                                          re='''\\%USERPROFILE\\%''',\n                                          replace=Dir) AS TargetPath,\n                            *,\n                            check_exist(path=regex_replace(\n                                          source=TargetPath,\n                                          re='''\\%USERPROFILE\\%''',\n                                          replace=Directory))[0] AS Exists,\n                            MaxSize - rand(range=(MaxSize - MinSize)) -\n                              len(list=unhex(string=MagicBytes)) - 7 AS _PaddingSize\n  FROM Honeyfiles\n\n"

end Vfilter.GoldenFormat
