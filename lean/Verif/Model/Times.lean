import Verif.Model.Float
import Verif.Model.Syslog

/-!
# Dates and durations as text

`ParseTime` and `ParseDuration` (`/repo/internal/promql/parsing.go:12-43`) leave dates to
`time.Parse(time.RFC3339Nano, _)` and durations to `model.ParseDuration` of Prometheus; the
syslog parser leaves dates to `time.Parse` as well.  These library functions are modelled
here, from memory.
-/

namespace LogCache

/-! ## Dates -/

/-- `isLeap` (Go `time`). Library code, reached from `parsing.go:39`. -/
def isLeapYear (y : Nat) : Bool := y % 4 == 0 && (y % 100 != 0 || y % 400 == 0)

/-- `daysBefore` (Go `time`): days before each month in a year that is not a leap year.
Library code, reached from `parsing.go:39`. -/
def daysBeforeMonth : List Nat := [0, 31, 59, 90, 120, 151, 181, 212, 243, 273, 304, 334, 365]

/-- `daysIn` (Go `time`). Library code, reached from `parsing.go:39`. -/
def daysInMonth (m y : Nat) : Nat :=
  if m = 2 ∧ isLeapYear y then 29 else daysBeforeMonth.getD m 0 - daysBeforeMonth.getD (m - 1) 0

/-- `daysSinceEpoch` (Go `time`): the days before a year, by cycles of 400, 100 and 4
years.  Go starts to count in the year -292277022399; simplification: the model starts in
the year -399, some number of whole cycles later. Library code, reached from `parsing.go:39`. -/
def daysSinceZero (year : Nat) : Nat :=
  let y := year + 399
  let n400 := y / 400
  let y := y - 400 * n400
  let n100 := y / 100
  let y := y - 100 * n100
  let n4 := y / 4
  let y := y - 4 * n4
  146097 * n400 + 36524 * n100 + 1461 * n4 + 365 * y

/-- `Date(...).Unix()` (Go `time`) for a date in range, in UTC: seconds since 1970.
Library code, reached from `parsing.go:39`. -/
def unixDate (year month day hour min sec : Nat) : Int :=
  let d := daysSinceZero year + daysBeforeMonth.getD (month - 1) 0 +
    (if isLeapYear year ∧ 3 ≤ month then 1 else 0) + (day - 1)
  ((d * 86400 + hour * 3600 + min * 60 + sec : Nat) : Int) - 865259 * 86400

/-- `k` digits. Library code, reached from `parsing.go:39`. -/
def readNum (k : Nat) (s : Str) : Option (Nat × Str) :=
  if s.length < k then none else (parseDigits (s.take k)).map fun n => (n, s.drop k)

/-- One given character. Library code, reached from `parsing.go:39`. -/
def readChar (c : Char) : Str → Option Str
  | x :: s => if x = c then some s else none
  | [] => none

/-- A fraction of a second, or none, in nanoseconds. Library code, reached from `parsing.go:39`. -/
def readSubsec (max : Nat) : Str → Option (Nat × Str)
  | '.' :: s =>
    let ds := s.takeWhile isDecimal
    if ds.length ≤ max then (parseDigits ds).map fun n => (n * 10 ^ (9 - ds.length), s.dropWhile isDecimal)
    else none
  | s => some (0, s)

/-- An offset `hh:mm` in seconds. Library code, reached from `parsing.go:39`. -/
def readOffset (s : Str) : Option Int := do
  let (h, s) ← readNum 2 s
  let s ← readChar ':' s
  let (m, s) ← readNum 2 s
  if h < 24 ∧ m < 60 ∧ s = [] then some ((h * 3600 + m * 60 : Nat) : Int) else none

/-- The time zone at the end: seconds east of Greenwich.
Library code, reached from `parsing.go:39`. -/
def readZone : Str → Option Int
  | ['Z'] => some 0
  | '+' :: s => readOffset s
  | '-' :: s => (readOffset s).map fun x => -x
  | _ => none

/-- `time.Parse` (Go, from memory) with layout `time.RFC3339Nano` (`max = 9`) or
`RFC3339MICRO` of the syslog parser (`max = 6`), in nanoseconds since 1970.
Simplification: Go also takes hours of one digit, a comma before the fraction, and offsets
of 24 hours; and what it does with more than nine decimals depends on its version.
Library code, reached from `parsing.go:39`. -/
def parseRfc3339 (max : Nat) (s : Str) : Option Int := do
  let (y, s) ← readNum 4 s
  let s ← readChar '-' s
  let (mo, s) ← readNum 2 s
  let s ← readChar '-' s
  let (d, s) ← readNum 2 s
  let s ← readChar 'T' s
  let (h, s) ← readNum 2 s
  let s ← readChar ':' s
  let (mi, s) ← readNum 2 s
  let s ← readChar ':' s
  let (sec, s) ← readNum 2 s
  let (ns, s) ← readSubsec max s
  let off ← readZone s
  if 1 ≤ mo ∧ mo ≤ 12 ∧ 1 ≤ d ∧ d ≤ daysInMonth mo y ∧ h < 24 ∧ mi < 60 ∧ sec < 60 then
    some ((unixDate y mo d h mi sec - off) * 1000000000 + (ns : Int))
  else none

/-! ## Durations -/

/-- The units of `model.ParseDuration` (Prometheus, from memory), in nanoseconds.
Library code, reached from `parsing.go:27`. -/
def durationUnit (s : Str) : Option Nat :=
  if s = "y".toList then some 31536000000000000
  else if s = "w".toList then some 604800000000000
  else if s = "d".toList then some 86400000000000
  else if s = "h".toList then some 3600000000000
  else if s = "m".toList then some 60000000000
  else if s = "s".toList then some 1000000000
  else if s = "ms".toList then some 1000000
  else none

/-- `model.ParseDuration` (Prometheus, from memory, the version of 2019): a number and a
unit, `^([0-9]+)(y|w|d|h|m|s|ms)$`.  `strconv.Atoi` stops at the largest `int64`, its error
is dropped, and the multiplications wrap around. Library code, reached from `parsing.go:27`. -/
def promDuration (s : Str) : Option Int :=
  match parseDigits (s.takeWhile isDecimal), durationUnit (s.dropWhile isDecimal) with
  | some n, some u => some (wrap64 (wrap64 ((min n (2 ^ 63 - 1) : Nat) * 1000000) * ((u / 1000000 : Nat) : Int)))
  | _, _ => none

end LogCache
