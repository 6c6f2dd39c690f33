import Verif.Number
/-!
# The text of a value (types/string.go:13-50)

GROUP BY sorts rows into bins by the text of the key (vfilter_group.go:67, grouper/*.go), and functions
that want a text get it in the same way.
-/

set_option linter.all false

namespace Vfilter

/-- The digits and the exponent of the shortest decimal that reads back as the double, without zeros at
the end (strconv's shortest conversion). -/
def decimalOf (neg : Bool) (m e : Nat) : Nat × Int :=
  let s := shortest neg (.fin neg m e) (m * 2 ^ e) (2 ^ 1074) (decExp (m * 2 ^ e) (2 ^ 1074) 700 (-330)) 17 1
  trimZeros 20 s.1 s.2

/-- `d * 10 ^ e` in scientific notation: a digit, the others behind a point if there are any, and an
exponent with a sign and at least two digits. -/
def fmtScientific (d : Nat) (e : Int) : Str :=
  let ds := natDigits (d + 1) d []
  let x := e + ds.length - 1
  ds.take 1 ++ (if ds.length ≤ 1 then [] else 46 :: ds.drop 1) ++ 101 :: (if x < 0 then 45 else 43) ::
    ((if x.natAbs < 10 then [48] else []) ++ natDigits (x.natAbs + 1) x.natAbs [])

/-- `fmt.Sprintf("%v", f)` of a double, that is `strconv.FormatFloat(f, 'g', -1, 64)`: scientific notation
for exponents below -4 and from 6 on for as few digits as possible. -/
def fmtG (x : F64) : Str :=
  match x with
  | .nan => bs "NaN"
  | .inf neg => if neg then bs "-Inf" else bs "+Inf"
  | .fin neg m e =>
    let sign := if neg then [45] else []
    if m = 0 then sign ++ [48]
    else
      let t := decimalOf neg m e
      let x := t.2 + (natDigits (t.1 + 1) t.1 []).length - 1
      sign ++ (if x < -4 ∨ 6 ≤ x then fmtScientific t.1 t.2 else fmtDecimal t.1 t.2)

mutual
/-- `types.ToString` of the values of a program (types/string.go:13-50); strings inside arrays are printed
without quotes.  Values of other kinds are printed by `other`.  NULL is `types.Null`
(types/null.go:14-16); a Go nil, which is the same value here, would be printed as `<nil>`. -/
def keyText {X : Type} (other : Val F64 X → Str) : Val F64 X → Str
  | .null => bs "Null"
  | .bool b => if b then bs "true" else bs "false"
  | .int i => fmtI64 i
  | .float f => fmtG f
  | .str s => s
  | .arr l => bs "[" ++ keyTexts other l ++ bs "]"
  | v => other v
/-- The elements of an array. -/
def keyTexts {X : Type} (other : Val F64 X → Str) : List (Val F64 X) → Str
  | [] => []
  | v :: r => (match r with
    | [] => keyText other v
    | _ :: _ => keyText other v ++ 32 :: keyTexts other r)
end

/-- A double that is written in decimal. -/
def ofText (s : String) : F64 := (parseF64 (bs s)).getD .nan

end Vfilter
