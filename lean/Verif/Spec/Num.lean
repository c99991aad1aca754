import Verif.Model.Base

/-! # Decimal notation -/

namespace LogCache.Spec

/-- The digit of a number below ten. -/
def decDigit (n : Nat) : Char := "0123456789".toList.getD n '0'

/-- The usual decimal notation of a natural number. -/
def dec (n : Nat) : Str := if n < 10 then [decDigit n] else dec (n / 10) ++ [decDigit (n % 10)]
termination_by n

/-- The usual decimal notation of an integer. -/
def decInt (n : Int) : Str := if n < 0 then '-' :: dec n.natAbs else dec n.natAbs

/-- `s` is a decimal numeral with value `n`; leading zeros are allowed. -/
inductive Numeral : Str → Nat → Prop where
  | one {d : Nat} (h : d < 10) : Numeral [decDigit d] d
  | snoc {s : Str} {n d : Nat} (hs : Numeral s n) (h : d < 10) : Numeral (s ++ [decDigit d]) (10 * n + d)

/-- `s` denotes the unsigned 64-bit number `n`. -/
def IsUint64 (s : Str) (n : Nat) : Prop := Numeral s n ∧ n < 2 ^ 64

/-- `s` denotes the signed 64-bit number `n`: a numeral with an optional sign. -/
def IsInt64 (s : Str) (n : Int) : Prop :=
  -2 ^ 63 ≤ n ∧ n < 2 ^ 63 ∧ ∃ ds k, Numeral ds k ∧
    ((s = ds ∧ n = k) ∨ (s = '+' :: ds ∧ n = k) ∨ (s = '-' :: ds ∧ n = -(k : Int)))

end LogCache.Spec
