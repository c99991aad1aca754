import Verif.Model.Marshal
import Verif.Spec.Num
import Verif.Spec.JsonNumber

/-!
# What is assumed of floating point text, and what round trips mean

`FloatLaws` are facts about IEEE 754 numbers and `strconv`; `thousandths` is a
number system for which they are proved, so they are not contradictory.
-/

namespace LogCache.Spec

/-- Facts about floating point text.  `short`: the shortest notation of a number is
read back as that number.  `three`: reading a finite number written with three
decimals and writing it again with three decimals gives the same text.  `millis`:
milliseconds divided by a thousand are finite. -/
structure FloatLaws {F : Type} (fl : FloatLib F) : Prop where
  short : ∀ v, fl.parse (fl.fmtShort v) = some v
  three : ∀ t, NumText (fl.fmt3 t) → ∃ t', fl.parse (fl.fmt3 t) = some t' ∧ fl.fmt3 t' = fl.fmt3 t
  millis : ∀ n, NumText (fl.fmt3 (fl.ofMillis n))

variable {F : Type}

/-- All the points of a result. -/
def points : PResult F → List (PPoint F)
  | .scalar p => [p]
  | .vector ss => ss.map (·.point)
  | .matrix ss => ss.flatMap (·.points)

/-- The time is the text of a finite number. -/
def FiniteTime (fl : FloatLib F) (s : Str) : Prop := ∃ t, fl.parse s = some t ∧ NumText (fl.fmt3 t)

/-- The time is a finite number written with three decimals. -/
def ThreeDecimals (fl : FloatLib F) (s : Str) : Prop := ∃ t, s = fl.fmt3 t ∧ NumText s

/-- The same time with three decimals. -/
def roundTime (fl : FloatLib F) (s : Str) : Str := match fl.parse s with
  | some t => fl.fmt3 t
  | none => s

/-- A point with its time in three decimals. -/
def roundPoint (fl : FloatLib F) (p : PPoint F) : PPoint F := ⟨roundTime fl p.time, p.value⟩

/-- The result with every time in three decimals; nothing else changes. -/
def roundTimes (fl : FloatLib F) : PResult F → PResult F
  | .scalar p => .scalar (roundPoint fl p)
  | .vector ss => .vector (ss.map fun s => ⟨s.metric, roundPoint fl s.point⟩)
  | .matrix ss => .matrix (ss.map fun s => ⟨s.metric, s.points.map (roundPoint fl)⟩)

/-- A number system: thousandths, written with three decimals. -/
def three (n : Nat) : Str := dec (n / 1000) ++ '.' :: [decDigit (n / 100 % 10), decDigit (n / 10 % 10), decDigit (n % 10)]

/-- Thousandths with sign. -/
def thousandthsText (n : Int) : Str := if n < 0 then '-' :: three n.natAbs else three n.natAbs

end LogCache.Spec
