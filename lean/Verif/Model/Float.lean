import Verif.Model.Client
/-!
# float64

IEEE 754 binary64 as far as `/repo/internal/promql/parsing.go:12-43`,
`/repo/internal/promql/promql.go:743-745` and `/repo/pkg/client/client.go:418-420` use
it: reading decimal text, multiplication, division and conversion of integers, printing
with three decimals, and conversion to int64.  The rounding is exact (round to nearest,
ties to even), with gradual underflow and overflow.
-/
namespace LogCache

/-- A float64; `fin neg m e` is `± m * 2^e`. The same number may be written in several
ways. Library code, reached from `parsing.go:13, 36`, `promql.go:744` and `client.go:419`. -/
inductive F64 where
  | nan
  | inf (neg : Bool)
  | fin (neg : Bool) (m : Nat) (e : Int)
deriving DecidableEq, Repr

/-- The integer nearest to `n / d`, the even one of two.
Library code, reached from `parsing.go:13, 36`, `promql.go:744` and `client.go:419`. -/
def roundDiv (n d : Nat) : Nat :=
  if 2 * (n % d) < d then n / d
  else if d < 2 * (n % d) then n / d + 1
  else if n / d % 2 = 0 then n / d else n / d + 1

/-- The exponent with which `num / den > 0` has 53 binary digits before the point; not
below that of the smallest float64.
Library code, reached from `parsing.go:13, 36`, `promql.go:744` and `client.go:419`. -/
def f64Exp (num den : Nat) : Int :=
  max (-1074) (if den * 2 ^ num.log2 ≤ num * 2 ^ den.log2 then (num.log2 : Int) - den.log2 - 52
    else (num.log2 : Int) - den.log2 - 53)

/-- `± m * 2^e` with a mantissa below `2^53`, after `m` was rounded; too large numbers
become infinite.
Library code, reached from `parsing.go:13, 36`, `promql.go:744` and `client.go:419`. -/
def f64Norm (neg : Bool) (m : Nat) (e : Int) : F64 :=
  if m = 0 then .fin neg 0 0
  else if 2 ^ 53 ≤ m then if 970 < e then .inf neg else .fin neg (2 ^ 52) (e + 1)
  else if 971 < e then .inf neg else .fin neg m e

/-- The float64 nearest to `± num / den`.
Library code, reached from `parsing.go:13, 36`, `promql.go:744` and `client.go:419`. -/
def f64Round (neg : Bool) (num den : Nat) : F64 :=
  if num = 0 then .fin neg 0 0
  else f64Norm neg (roundDiv (num * 2 ^ (-f64Exp num den).toNat) (den * 2 ^ (f64Exp num den).toNat))
    (f64Exp num den)

/-- The float64 nearest to `± m * 2^e`.
Library code, reached from `parsing.go:13, 36`, `promql.go:744` and `client.go:419`. -/
def f64Pow (neg : Bool) (m : Nat) (e : Int) : F64 := f64Round neg (m * 2 ^ e.toNat) (2 ^ (-e).toNat)

/-- `x * y`.
Library code, reached from `parsing.go:13, 36`, `promql.go:744` and `client.go:419`. -/
def F64.mul : F64 → F64 → F64
  | .nan, _ => .nan
  | _, .nan => .nan
  | .inf s, .inf s' => .inf (s != s')
  | .inf s, .fin s' m _ => if m = 0 then .nan else .inf (s != s')
  | .fin s m _, .inf s' => if m = 0 then .nan else .inf (s != s')
  | .fin s m e, .fin s' m' e' => f64Pow (s != s') (m * m') (e + e')

/-- `x / y`.
Library code, reached from `parsing.go:13, 36`, `promql.go:744` and `client.go:419`. -/
def F64.div : F64 → F64 → F64
  | .nan, _ => .nan
  | _, .nan => .nan
  | .inf _, .inf _ => .nan
  | .inf s, .fin s' _ _ => .inf (s != s')
  | .fin s _ _, .inf s' => .fin (s != s') 0 0
  | .fin s m e, .fin s' m' e' =>
    if m' = 0 then if m = 0 then .nan else .inf (s != s')
    else f64Round (s != s') (m * 2 ^ e.toNat * 2 ^ (-e').toNat) (m' * 2 ^ e'.toNat * 2 ^ (-e).toNat)

/-- `x / n` for a positive integer constant `n`.
Library code, reached from `parsing.go:13, 36`, `promql.go:744` and `client.go:419`. -/
def F64.divNat (x : F64) (n : Nat) : F64 :=
  match x with
  | .fin s m e => f64Round s (m * 2 ^ e.toNat) (n * 2 ^ (-e).toNat)
  | x => x

/-- `float64(n)`.
Library code, reached from `parsing.go:13, 36`, `promql.go:744` and `client.go:419`. -/
def f64OfInt (n : Int) : F64 := f64Round (decide (n < 0)) n.natAbs 1

/-- `int64(x)`: towards zero; what does not fit becomes the smallest int64, as amd64
processors do (the Go specification leaves it open).
Library code, reached from `parsing.go:13, 36`, `promql.go:744` and `client.go:419`. -/
def F64.toInt64 : F64 → Int
  | .fin neg m e =>
    let k := m * 2 ^ e.toNat / 2 ^ (-e).toNat
    let i : Int := if neg then -(k : Int) else k
    if -2 ^ 63 ≤ i ∧ i < 2 ^ 63 then i else -2 ^ 63
  | _ => -2 ^ 63

/-- `x > 2^63`: `float64(math.MaxInt64)` is `2^63`.
Library code, reached from `parsing.go:13, 36`, `promql.go:744` and `client.go:419`. -/
def F64.above63 : F64 → Bool
  | .fin false m e => decide (2 ^ 63 * 2 ^ (-e).toNat < m * 2 ^ e.toNat)
  | .inf false => true
  | _ => false

/-- `x < -2^63`.
Library code, reached from `parsing.go:13, 36`, `promql.go:744` and `client.go:419`. -/
def F64.below63 : F64 → Bool
  | .fin true m e => decide (2 ^ 63 * 2 ^ (-e).toNat < m * 2 ^ e.toNat)
  | .inf true => true
  | _ => false

/-- `k` decimal digits.
Library code, reached from `parsing.go:13, 36`, `promql.go:744` and `client.go:419`. -/
def padDigits : Nat → Nat → Str
  | 0, _ => []
  | k + 1, n => padDigits k (n / 10) ++ [fmtDigit (n % 10)]

/-- `± n / 10^k` with `k` decimals.
Library code, reached from `parsing.go:13, 36`, `promql.go:744` and `client.go:419`. -/
def fmtFixed (neg : Bool) (n k : Nat) : Str :=
  (if neg then ['-'] else []) ++ fmtNat (n / 10 ^ k) ('.' :: padDigits k (n % 10 ^ k))

/-- `fmt.Sprintf("%.3f", x)`.
Library code, reached from `parsing.go:13, 36`, `promql.go:744` and `client.go:419`. -/
def F64.fmt3 : F64 → Str
  | .nan => "NaN".toList
  | .inf neg => if neg then "-Inf".toList else "+Inf".toList
  | .fin neg m e => fmtFixed neg (roundDiv (m * 2 ^ e.toNat * 1000) (2 ^ (-e).toNat)) 3

/-! ## Reading text -/

/-- Is the character a decimal digit?
Library code, reached from `parsing.go:13, 36`, `promql.go:744` and `client.go:419`. -/
def isDecimal (c : Char) : Bool := (digitVal c).isSome

/-- Ignoring the case of ASCII letters.
Library code, reached from `parsing.go:13, 36`, `promql.go:744` and `client.go:419`. -/
def lowerChar (c : Char) : Char := if 'A' ≤ c ∧ c ≤ 'Z' then Char.ofNat (c.toNat + 32) else c

/-- `special` (Go `strconv`, from memory): infinities with a sign or without, and NaN.
Library code, reached from `parsing.go:13, 36`, `promql.go:744` and `client.go:419`. -/
def f64Special (s : Str) : Option F64 :=
  let t := s.map lowerChar
  if t = "inf".toList ∨ t = "+inf".toList ∨ t = "infinity".toList ∨ t = "+infinity".toList then some (.inf false)
  else if t = "-inf".toList ∨ t = "-infinity".toList then some (.inf true)
  else if t = "nan".toList then some .nan
  else none

/-- An optional sign: is it negative, and the rest.
Library code, reached from `parsing.go:13, 36`, `promql.go:744` and `client.go:419`. -/
def takeSign : Str → Bool × Str
  | '-' :: s => (true, s)
  | '+' :: s => (false, s)
  | s => (false, s)

/-- The digits after the point, and what follows them.
Library code, reached from `parsing.go:13, 36`, `promql.go:744` and `client.go:419`. -/
def takeFraction : Str → Str × Str
  | '.' :: r => (r.takeWhile isDecimal, r.dropWhile isDecimal)
  | r => ([], r)

/-- The exponent: all that is left must be one, or nothing.
Library code, reached from `parsing.go:13, 36`, `promql.go:744` and `client.go:419`. -/
def readExponent : Str → Option Int
  | [] => some 0
  | c :: r =>
    if c = 'e' ∨ c = 'E' then
      (parseDigits (takeSign r).2).map fun (n : Nat) => if (takeSign r).1 then -(n : Int) else n
    else none

/-- `readFloat` (Go `strconv`, from memory) on a decimal number without sign: its digits
as an integer and the power of ten to multiply it with. Simplification: hexadecimal
numbers are left out, and so is the cap on exponents, which does not change results.
Library code, reached from `parsing.go:13, 36`, `promql.go:744` and `client.go:419`. -/
def readDecimal (s : Str) : Option (Nat × Int) :=
  let ip := s.takeWhile isDecimal
  let f := takeFraction (s.dropWhile isDecimal)
  match parseDigits (ip ++ f.1), readExponent f.2 with
  | some m, some k => some (m, k - f.1.length)
  | _, _ => none

/-- `strconv.ParseFloat(s, 64)`; `none` is an error, also for numbers too large.
Library code, reached from `parsing.go:13, 36`, `promql.go:744` and `client.go:419`. -/
def parseFloat (s : Str) : Option F64 :=
  match f64Special s with
  | some x => some x
  | none =>
    match readDecimal (takeSign s).2 with
    | none => none
    | some (m, k) =>
      match f64Round (takeSign s).1 (m * 10 ^ k.toNat) (10 ^ (-k).toNat) with
      | .inf _ => none
      | x => some x

/-- `1e9`, `float64(time.Second)`.
Library code, reached from `parsing.go:13, 36`, `promql.go:744` and `client.go:419`. -/
def f64Billion : F64 := .fin false 1000000000 0

/-! ## Times and steps of queries -/

/-- `ParseTime` (parsing.go:35-43), in nanoseconds; `rfc` is
`time.Parse(time.RFC3339Nano, _)`. -/
def parseTime (rfc : Str → Option Int) (s : Str) : Option Int :=
  match parseFloat s with
  | some x => some (x.mul f64Billion).toInt64
  | none => rfc s

/-- `ParseStep` (parsing.go:12-24), in nanoseconds; `dur` is `model.ParseDuration`. -/
def parseStep (dur : Str → Option Int) (s : Str) : Option Int :=
  match parseFloat s with
  | some x =>
    if (x.mul f64Billion).above63 || (x.mul f64Billion).below63 then none
    else some (x.mul f64Billion).toInt64
  | none => dur s

/-- `formatPromqlTime` (promql.go:743-745) on milliseconds. -/
def formatMillis (t : Int) : Str := ((f64OfInt t).divNat 1000).fmt3

/-- `formatDecimalTimeWithMillis` (client.go:418-420) on nanoseconds. -/
def formatClientTime (ns : Int) : Str := ((f64OfInt ns).divNat 1000000000).fmt3

end LogCache
