import Verif.Model.Base

/-!
# Decimal numbers (`strconv`)

Models of Go's `strconv.ParseUint(s, 10, 64)`, `strconv.ParseInt(s, 10, 64)` and
`strconv.FormatInt(n, 10)`, used at `/repo/internal/syslog/server.go:188-239`,
`/repo/internal/promql/parsing.go` and by the clients.  `none` is the error result.
-/

namespace LogCache

/-- A decimal digit and its value.
Library code, reached from `server.go:190, 195, 223, 227` and `client.go:213, 217`. -/
def digitVal (c : Char) : Option Nat :=
  if '0'.toNat ≤ c.toNat ∧ c.toNat ≤ '9'.toNat then some (c.toNat - '0'.toNat) else none

/-- The accumulator loop of `strconv.ParseUint` in base 10, without the overflow
check. Library code, reached from `server.go:190, 195, 223, 227` and `client.go:213, 217`. -/
def digitsLoop : Nat → Str → Option Nat
  | acc, [] => some acc
  | acc, c :: cs => match digitVal c with
    | none => none
    | some d => digitsLoop (acc * 10 + d) cs

/-- The digits of a non-empty string.
Library code, reached from `server.go:190, 195, 223, 227` and `client.go:213, 217`. -/
def parseDigits : Str → Option Nat
  | [] => none
  | s => digitsLoop 0 s

/-- `strconv.ParseUint(s, 10, 64)`: digits only, at most `2^64 - 1`.
Library code, reached from `server.go:190, 195, 223, 227` and `client.go:213, 217`. -/
def parseUint64 (s : Str) : Option Nat :=
  match parseDigits s with
  | some n => if n < 2 ^ 64 then some n else none
  | none => none

/-- `strconv.ParseInt(s, 10, 64)`: an optional sign, digits, and the range check.
Library code, reached from `server.go:190, 195, 223, 227` and `client.go:213, 217`. -/
def parseInt64 (s : Str) : Option Int :=
  match s with
  | '-' :: ds => match parseDigits ds with
    | some n => if n ≤ 2 ^ 63 then some (-(n : Int)) else none
    | none => none
  | '+' :: ds => match parseDigits ds with
    | some n => if n < 2 ^ 63 then some (n : Int) else none
    | none => none
  | ds => match parseDigits ds with
    | some n => if n < 2 ^ 63 then some (n : Int) else none
    | none => none

end LogCache
