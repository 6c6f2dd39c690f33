import Verif.F64
import Verif.Text
/-!
# Numbers in text (vfilter.go:1641-1663, visitor.go:750-765)

`strconv.ParseInt(s, 0, 64)`, `strconv.ParseFloat(s, 64)`, `strconv.FormatInt` and
`strconv.FormatFloat(f, 'f', -1, 64)` on the texts the `Number` token allows.  They are the
standard library's; the definitions follow its documentation.
-/

set_option linter.all false

namespace Vfilter

/-- Value of a digit in bases up to 16. -/
def digitVal (c : UInt8) : Nat :=
  if 48 ≤ c ∧ c ≤ 57 then c.toNat - 48
  else if 97 ≤ c ∧ c ≤ 102 then c.toNat - 87
  else if 65 ≤ c ∧ c ≤ 70 then c.toNat - 55
  else 99

/-- A non empty string of digits in a base. -/
def baseVal (b : Nat) (s : Str) : Option Nat :=
  if s = [] then none
  else if s.all (fun c => digitVal c < b) then some (s.foldl (fun n c => n * b + digitVal c) 0)
  else none

/-- An integer that has to fit into 64 bits. -/
def fitI64 (neg : Bool) (n : Nat) : Option I64 :=
  let v : Int := if neg then -n else n
  if -(2 ^ 63 : Int) ≤ v ∧ v < 2 ^ 63 then some (BitVec.ofInt 64 v) else none

/-- `strconv.ParseInt(s, 0, 64)` on the texts of `Number` tokens: `0x` is hexadecimal, a leading
`0` octal. -/
def parseInt0 (s : Str) : Option I64 :=
  let (neg, u) := match s with
    | 45 :: r => (true, r)
    | _ => (false, s)
  let v := match u with
    | 48 :: 120 :: h => baseVal 16 h
    | 48 :: [] => some 0
    | 48 :: o => baseVal 8 o
    | d => baseVal 10 d
  v.bind (fitI64 neg)

/-- Splits at the first character of a set; the separator is dropped. -/
def cutAt (p : UInt8 → Bool) (s : Str) : Str × Option Str :=
  match s.span (fun c => !p c) with
  | (a, []) => (a, none)
  | (a, _ :: b) => (a, some b)

/-- Value of a string of decimal digits, 0 for the empty string. -/
def decVal (s : Str) : Nat := s.foldl (fun n c => n * 10 + digitVal c) 0

/-- The exponent part. -/
def expVal : Option Str → Int
  | none => 0
  | some (45 :: r) => -(decVal r : Int)
  | some (43 :: r) => decVal r
  | some r => decVal r

/-- `n * 10 ^ e` rounded to a double. -/
def ofDecimal (neg : Bool) (n : Nat) (e : Int) : F64 :=
  if 0 ≤ e then F64.round neg (n * 10 ^ e.toNat * 2 ^ 1074) 1
  else F64.round neg (n * 2 ^ 1074) (10 ^ (-e).toNat)

/-- `strconv.ParseFloat(s, 64)` on the texts of `Number` tokens; hexadecimal texts without an
exponent and values out of range are errors. -/
def parseF64 (s : Str) : Option F64 :=
  let (neg, u) := match s with
    | 45 :: r => (true, r)
    | _ => (false, s)
  match u with
  | 48 :: 120 :: _ => none
  | u =>
    let (m, e) := cutAt (fun c => c == 101 || c == 69) u
    let (i, f) := cutAt (· == 46) m
    let f := f.getD []
    match ofDecimal neg (decVal (i ++ f)) (expVal e - f.length) with
    | .inf _ => none
    | x => some x

/-- Decimal digits of a number, most significant first; `fuel` is at least their number. -/
def natDigits : Nat → Nat → Str → Str
  | 0, _, acc => acc
  | k + 1, n, acc =>
    let acc := UInt8.ofNat (48 + n % 10) :: acc
    if n < 10 then acc else natDigits k (n / 10) acc

/-- `strconv.FormatInt(i, 10)` -/
def fmtI64 (i : I64) : Str :=
  let n := i.toInt.natAbs
  (if i.toInt < 0 then [45] else []) ++ natDigits (n + 1) n []

/-- The number of decimal digits in front of the point of `num / den`: the least `k` with
`num / den < 10 ^ k`, searched upwards from `k`. -/
def decExp (num den : Nat) : Nat → Int → Int
  | 0, k => k
  | fuel + 1, k =>
    let lt := if 0 ≤ k then num < 10 ^ k.toNat * den else num * 10 ^ (-k).toNat < den
    if lt then k else decExp num den fuel (k + 1)

/-- `num / den / 10 ^ e` rounded to an integer. -/
def scaled (num den : Nat) (e : Int) : Nat :=
  if 0 ≤ e then F64.rhe num (den * 10 ^ e.toNat) else F64.rhe (num * 10 ^ (-e).toNat) den

/-- The shortest decimal that reads back as the same double: digits and exponent. -/
def shortest (neg : Bool) (x : F64) (num den : Nat) (k : Int) : Nat → Nat → Nat × Int
  | 0, n => (scaled num den (k - n), k - n)
  | fuel + 1, n =>
    let d := scaled num den (k - n)
    if F64.eq (ofDecimal neg d (k - n)) x then (d, k - n) else shortest neg x num den k fuel (n + 1)

/-- Drop trailing zeros of a decimal. -/
def trimZeros : Nat → Nat → Int → Nat × Int
  | 0, d, e => (d, e)
  | fuel + 1, d, e => if d % 10 = 0 ∧ d ≠ 0 then trimZeros fuel (d / 10) (e + 1) else (d, e)

/-- `d * 10 ^ e` without an exponent. -/
def fmtDecimal (d : Nat) (e : Int) : Str :=
  let ds := natDigits (d + 1) d []
  if 0 ≤ e then ds ++ List.replicate e.toNat 48
  else
    let p := (-e).toNat
    if p < ds.length then ds.take (ds.length - p) ++ [46] ++ ds.drop (ds.length - p)
    else bs "0." ++ List.replicate (p - ds.length) 48 ++ ds

/-- `strconv.FormatFloat(f, 'f', -1, 64)` -/
def fmtF64 (x : F64) : Str :=
  match x with
  | .nan => bs "NaN"
  | .inf neg => if neg then bs "-Inf" else bs "+Inf"
  | .fin neg m e =>
    let sign := if neg then [45] else []
    if m = 0 then sign ++ [48]
    else
      let k := decExp (m * 2 ^ e) (2 ^ 1074) 700 (-330)
      let s := shortest neg x (m * 2 ^ e) (2 ^ 1074) k 17 1
      let t := trimZeros 20 s.1 s.2
      sign ++ fmtDecimal t.1 t.2

/-- `maybeParseStrNumber` (vfilter.go:1641-1663). -/
def numberV {X : Type} (t : Str) : Option (Val F64 X) :=
  match parseInt0 t with
  | some i => some (.int i)
  | none => (parseF64 t).map .float

/-- The text of a number in `visitValue` (visitor.go:750-765, 772-780): a text that is no number
falls through to the last case. -/
def numberText (t : Str) : Str :=
  match parseInt0 t with
  | some i => fmtI64 i
  | none => match parseF64 t with
    | some f => if (fmtF64 f).contains 46 then fmtF64 f else fmtF64 f ++ bs ".0"
    | none => bs "FALSE"

/-- `LIMIT`: participle converts the token to an `int64` with `strconv.ParseInt(s, 0, 64)`. -/
def limitVal (t : Str) : Option Int := (parseInt0 t).map BitVec.toInt

example : numberText (bs "0x10") = bs "16" ∧ numberText (bs "070") = bs "56" ∧
    numberText (bs "08") = bs "8.0" ∧ numberText (bs ".5") = bs "0.5" ∧
    numberText (bs "1e3") = bs "1000.0" ∧ numberText (bs "12.232") = bs "12.232" ∧
    numberText (bs "0.1") = bs "0.1" ∧ numberText (bs "1e999") = bs "FALSE" ∧
    numberText (bs "-7") = bs "-7" := by decide +kernel

end Vfilter
