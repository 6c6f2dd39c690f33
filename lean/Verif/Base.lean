/-!
# Base types of the model

Go strings are byte strings, so `Str` is a list of bytes.  Go `int64` values are
64 bit vectors read as two's complement (`BitVec.toInt`); all wraparound is
explicit.
-/

namespace Vfilter

/-- A Go `string`: a sequence of bytes. -/
abbrev Str := List UInt8

/-- A Go `int64` (two's complement, wraps around). -/
abbrev I64 := BitVec 64

/-- ASCII literal helper, only used to write readable examples. -/
def bs (s : String) : Str := s.toList.map (fun c => UInt8.ofNat c.toNat)

/-- The integer literal `i` as an `int64`, only used to write readable examples. -/
def i64 (i : Int) : I64 := BitVec.ofInt 64 i

/-- Go `a < b` on `int64`. -/
def I64.lt (a b : I64) : Bool := decide (a.toInt < b.toInt)

/-- Byte-wise lexicographic `a < b` on Go strings (Go spec, comparison operators). -/
def strLt : Str → Str → Bool
  | [], [] => false
  | [], _ :: _ => true
  | _ :: _, [] => false
  | a :: as, b :: bs => decide (a.toNat < b.toNat) || (decide (a = b) && strLt as bs)

/-- Go `strings.Contains(hay, needle)`. -/
def strContains (hay needle : Str) : Bool :=
  match hay with
  | [] => needle.isEmpty
  | h :: t => needle.isPrefixOf (h :: t) || strContains t needle

/-! ## Ordered dict (dependency `github.com/Velocidex/ordereddict`)

Keys are kept in insertion order.  `Set` on an existing key removes the old
entry and appends the new one; `Update` replaces in place.  The dependency is
not part of /repo; this behaviour is part of the trusted base. -/

/-- Association list view of an ordered dict. -/
abbrev OD (V : Type _) := List (Str × V)

namespace OD
variable {V : Type _}

/-- `dict.Get(key)`: value of the key if present. -/
def get (d : OD V) (k : Str) : Option V :=
  match d with
  | [] => none
  | (k', v) :: r => if k' = k then some v else get r k

/-- `dict.Delete(key)`. -/
def erase (d : OD V) (k : Str) : OD V := d.filter (fun p => decide (p.1 ≠ k))

/-- `dict.Set(key, value)`: an existing key moves to the end. -/
def set (d : OD V) (k : Str) (v : V) : OD V := erase d k ++ [(k, v)]

/-- `dict.Update(key, value)`: an existing key keeps its position. -/
def update (d : OD V) (k : Str) (v : V) : OD V :=
  if d.any (fun p => decide (p.1 = k)) then
    d.map (fun p => if p.1 = k then (k, v) else p)
  else d ++ [(k, v)]

/-- `dict.Keys()`. -/
def keys (d : OD V) : List Str := d.map (·.1)

/-- `dict.MergeFrom(other)`: sets every entry of `other` in order. -/
def mergeFrom (d other : OD V) : OD V := other.foldl (fun acc p => set acc p.1 p.2) d

/-- Representation invariant of a real dict: no duplicate keys. -/
def WF (d : OD V) : Prop := (keys d).Nodup

end OD
end Vfilter
