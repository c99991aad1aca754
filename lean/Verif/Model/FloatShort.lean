import Verif.Model.Float
/-!
# The shortest decimal notation of a float64

`strconv.FormatFloat(v, 'f', -1, 64)` of the Go standard library, with which
`/repo/pkg/marshaler/marshaler.go:208` writes values.  Modelled after `roundShortest` and
`fmtF` (from memory): of the decimal numbers that are read as `v`, one with the fewest
digits, and of those the nearest, is written without an exponent.  The faster algorithms
of the library give the same digits.
-/
namespace LogCache

/-- The number of decimal digits. Library code, reached from `marshaler.go:209`. -/
def digitCount (n : Nat) : Nat := if n < 10 then 1 else digitCount (n / 10) + 1

/-- Where the decimal point of `num / den` is: `p` with `10^(p-1) ≤ num / den < 10^p`, for
numbers not below `10^-400`. Library code, reached from `marshaler.go:209`. -/
def decimalPoint (num den : Nat) : Int := (digitCount (num * 10 ^ 400 / den) : Int) - 400

/-- Is `d * 10^k` read as the float64 `m * 2^e`? Library code, reached from `marshaler.go:209`. -/
def readsAs (m : Nat) (e : Int) (d : Nat) (k : Int) : Bool :=
  decide (f64Round false (d * 10 ^ k.toNat) (10 ^ (-k).toNat) = .fin false m e)

/-- `a / b`, a number of units `10^k`, rounded down or up if one of them is read as
`m * 2^e`; to the nearest one if both are (`roundShortest`).
Library code, reached from `marshaler.go:209`. -/
def shortUnits (m : Nat) (e : Int) (a b : Nat) (k : Int) : Option (Nat × Int) :=
  if readsAs m e (a / b) k then
    if readsAs m e (a / b + 1) k then some (roundDiv a b, k) else some (a / b, k)
  else if readsAs m e (a / b + 1) k then some (a / b + 1, k) else none

/-- `m * 2^e` in units of `10^k`. Library code, reached from `marshaler.go:209`. -/
def shortScaled (m : Nat) (e : Int) (k : Int) : Option (Nat × Int) :=
  shortUnits m e (m * 2 ^ e.toNat * 10 ^ (-k).toNat) (2 ^ (-e).toNat * 10 ^ k.toNat) k

/-- The digits and the power of ten of `m * 2^e` with `n` digits, if a number with so many
digits is read as it. Library code, reached from `marshaler.go:209`. -/
def shortAt (m : Nat) (e : Int) (n : Nat) : Option (Nat × Int) :=
  shortScaled m e (decimalPoint (m * 2 ^ e.toNat) (2 ^ (-e).toNat) - n)

/-- The fewest digits; 17 are always enough (C76_short).
Library code, reached from `marshaler.go:209`. -/
def shortDigits (m : Nat) (e : Int) : Nat × Int :=
  ((List.range 17).findSome? fun (i : Nat) => shortAt m e (i + 1)).getD (0, 0)

/-- Without the zeros at the end of the `j` decimals of `d / 10^j`.
Library code, reached from `marshaler.go:209`. -/
def trimZeros : Nat → Nat → Nat × Nat
  | d, 0 => (d, 0)
  | d, j + 1 => if d % 10 = 0 then trimZeros (d / 10) j else (d, j + 1)

/-- `± d * 10^k` without an exponent (`fmtF`). Library code, reached from `marshaler.go:209`. -/
def fmtPlain (neg : Bool) (d : Nat) (k : Int) : Str :=
  let p := trimZeros (d * 10 ^ k.toNat) (-k).toNat
  if p.2 = 0 then (if neg then ['-'] else []) ++ fmtNat p.1 [] else fmtFixed neg p.1 p.2

/-- `strconv.FormatFloat(v, 'f', -1, 64)`. Library code, reached from `marshaler.go:209`. -/
def F64.fmtShort : F64 → Str
  | .nan => "NaN".toList
  | .inf neg => if neg then "-Inf".toList else "+Inf".toList
  | .fin neg m e =>
    if m = 0 then (if neg then "-0".toList else "0".toList)
    else fmtPlain neg (shortDigits m e).1 (shortDigits m e).2

end LogCache
