import Verif.Base
/-!
# Row normalisation (utils/dict/dict.go)
-/

namespace Vfilter

/-- Values that occur in rows.  `P` are the values that are returned as they are: strings,
numbers, times, `fmt.Stringer`s, `[]byte` (utils/dict/dict.go:49-62) and all objects that
are none of the cases below (141).  `L` are `types.LazyExpr`s and `func() types.Any`
(65-66, 75-76).  `nul` is `types.Null` or Go `nil` (43-45). `query` is a
`types.StoredQuery` with the rows it delivers, `mat` a `types.Materializer` with its
result, `memb` a `types.Memberer`: each member with the result of `scope.Associative`,
`map` a Go map with string keys: its entries in iteration order. -/
inductive NV (L P : Type) where
  | plain (p : P)
  | nul
  | dict (d : List (Str × NV L P))
  | lazy (l : L)
  | query (rows : List (NV L P))
  | mat (v : NV L P)
  | memb (ms : List (Str × Option (NV L P)))
  | arr (l : List (NV L P))
  | map (d : List (Str × NV L P))

/-- `sort.Strings` on distinct keys followed by the copy into `stable_dict`
(utils/dict/dict.go:128-136). -/
def insertKey {V : Type} (p : Str × V) : List (Str × V) → List (Str × V)
  | [] => [p]
  | q :: r => if strLt p.1 q.1 then p :: q :: r else q :: insertKey p r

def sortKeys {V : Type} (l : List (Str × V)) : List (Str × V) := l.foldr insertKey []

/-- `normalize_value` (utils/dict/dict.go:36-142).  `fuel` is `11 - depth`; reducing a
lazy value is `red`.  Go maps with keys that are not strings, and nil slices and maps, are
not modelled. -/
def normalize {L P : Type} (red : L → NV L P) : Nat → NV L P → NV L P
  | 0, _ => .nul
  | n + 1, v => match v with
    | .plain p => .plain p
    | .nul => .nul
    | .dict d => .dict d
    | .lazy l => normalize red n (red l)
    | .query rows => .arr rows
    | .mat v => v
    | .memb ms => .dict (ms.foldl (fun d m => OD.set d m.1 (match m.2 with
        | some v => normalize red n v
        | none => normalize red n .nul)) [])
    | .arr l => .arr (l.map (normalize red n))
    | .map d => .dict (sortKeys (d.foldl (fun acc p => OD.set acc p.1 (normalize red n p.2)) []))

/-- `normalize_value(ctx, scope, value, 0)`. -/
def normalize0 {L P : Type} (red : L → NV L P) (v : NV L P) : NV L P := normalize red 11 v

/-- `RowToDict` (utils/dict/dict.go:17-32).  A row is the list of its members
(`scope.GetMembers`) with the result of `scope.Associative`: `none` if not present. -/
def rowToDict {L P : Type} (red : L → NV L P) (row : List (Str × Option (NV L P))) : OD (NV L P) :=
  row.foldl (fun d m => match m.2 with
    | some v => OD.set d m.1 (normalize0 red v)
    | none => d) []

end Vfilter
