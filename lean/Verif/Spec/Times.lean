import Verif.Spec.Num

/-!
# The calendar, and dates and durations as text

RFC 3339 and the Gregorian calendar.
-/

namespace LogCache.Spec

/-- Every fourth year, but of the full centuries only every fourth. -/
def LeapYear (y : Nat) : Prop := 4 ∣ y ∧ (¬ 100 ∣ y ∨ 400 ∣ y)

instance (y : Nat) : Decidable (LeapYear y) := by unfold LeapYear; infer_instance

def yearLength (y : Nat) : Nat := if LeapYear y then 366 else 365

/-- Thirty days hath September, ... -/
def monthLength (y m : Nat) : Nat :=
  if m = 2 then (if LeapYear y then 29 else 28) else if m = 4 ∨ m = 6 ∨ m = 9 ∨ m = 11 then 30 else 31

/-- Days from the first of January of the year 0 to the first of January of a year. -/
def daysToYear : Nat → Nat
  | 0 => 0
  | y + 1 => daysToYear y + yearLength y

/-- Days from the first of January to the end of month `m`. -/
def daysToMonthEnd (y : Nat) : Nat → Nat
  | 0 => 0
  | m + 1 => daysToMonthEnd y m + monthLength y (m + 1)

/-- A date and a time of day. -/
structure DateTime where
  year : Nat
  month : Nat
  day : Nat
  hour : Nat
  minute : Nat
  second : Nat

/-- The date exists. -/
def DateTime.Valid (c : DateTime) : Prop :=
  1 ≤ c.month ∧ c.month ≤ 12 ∧ 1 ≤ c.day ∧ c.day ≤ monthLength c.year c.month ∧
    c.hour < 24 ∧ c.minute < 60 ∧ c.second < 60

/-- Seconds from the beginning of 1970, by counting days. -/
def DateTime.seconds (c : DateTime) : Int :=
  ((daysToYear c.year + daysToMonthEnd c.year (c.month - 1) + (c.day - 1) : Nat) - (daysToYear 1970 : Nat) : Int) * 86400 +
    (c.hour * 3600 + c.minute * 60 + c.second : Nat)

/-- `k` digits with a value. -/
def Digits (k : Nat) (s : Str) (n : Nat) : Prop := Numeral s n ∧ s.length = k

/-- Nothing, or a point and at most `max` digits; with the nanoseconds they mean. -/
def FractionText (max : Nat) (s : Str) (ns : Nat) : Prop :=
  (s = [] ∧ ns = 0) ∨
  ∃ ds n, s = '.' :: ds ∧ Numeral ds n ∧ ds.length ≤ max ∧ ns * 10 ^ ds.length = n * 10 ^ 9

/-- `Z`, or a sign, hours and minutes; with the seconds east of Greenwich they mean. -/
def ZoneText (s : Str) (off : Int) : Prop :=
  (s = ['Z'] ∧ off = 0) ∨
  ∃ c h m hv mv, s = c :: (h ++ ':' :: m) ∧ Digits 2 h hv ∧ Digits 2 m mv ∧ hv < 24 ∧ mv < 60 ∧
    ((c = '+' ∧ off = (hv * 3600 + mv * 60 : Nat)) ∨ (c = '-' ∧ off = -(hv * 3600 + mv * 60 : Nat)))

/-- RFC 3339: a date such as `2019-05-15T15:00:00.25+02:00`, with at most `max` decimals,
and the nanoseconds from the beginning of 1970 to it. -/
def DateText (max : Nat) (s : Str) (t : Int) : Prop :=
  ∃ (c : DateTime) (y mo d h mi sec frac zone : Str) (ns : Nat) (off : Int),
    s = y ++ '-' :: mo ++ '-' :: d ++ 'T' :: h ++ ':' :: mi ++ ':' :: sec ++ frac ++ zone ∧
    Digits 4 y c.year ∧ Digits 2 mo c.month ∧ Digits 2 d c.day ∧
    Digits 2 h c.hour ∧ Digits 2 mi c.minute ∧ Digits 2 sec c.second ∧ c.Valid ∧
    FractionText max frac ns ∧ ZoneText zone off ∧
    t = (c.seconds - off) * 1000000000 + ns

/-- The units of durations, in nanoseconds. -/
def unitLength (s : Str) (u : Nat) : Prop :=
  (s = "ms".toList ∧ u = 10 ^ 6) ∨ (s = "s".toList ∧ u = 10 ^ 9) ∨ (s = "m".toList ∧ u = 60 * 10 ^ 9) ∨
  (s = "h".toList ∧ u = 60 * 60 * 10 ^ 9) ∨ (s = "d".toList ∧ u = 24 * 60 * 60 * 10 ^ 9) ∨
  (s = "w".toList ∧ u = 7 * 24 * 60 * 60 * 10 ^ 9) ∨ (s = "y".toList ∧ u = 365 * 24 * 60 * 60 * 10 ^ 9)

/-- A number and a unit, such as `5m`; with the nanoseconds they mean. -/
def DurationText (s : Str) (d : Nat) : Prop :=
  ∃ ds n unit u, s = ds ++ unit ∧ Numeral ds n ∧ unitLength unit u ∧ d = n * u

end LogCache.Spec
