import Verif.Model.Float
import Verif.Spec.Marshal
import Mathlib.Data.Rat.Floor
import Mathlib.Algebra.Order.Field.Basic
import Mathlib.Tactic.Linarith
import Mathlib.Tactic.Positivity
import Mathlib.Tactic.FieldSimp
import Mathlib.Tactic.NormNum
import Mathlib.Tactic.Ring

/-! # What float64 numbers are, and what decimal text means -/

namespace LogCache.Spec

/-- The finite float64 numbers in their usual form: a mantissa of 53 binary digits, or
fewer for the smallest exponent; and the special values. -/
def Binary64 : F64 → Prop
  | .fin _ m e => (m = 0 ∧ e = 0) ∨
      (0 < m ∧ m < 2 ^ 53 ∧ -1074 ≤ e ∧ e ≤ 971 ∧ (e = -1074 ∨ 2 ^ 52 ≤ m))
  | _ => True

/-- The number a finite float64 stands for. -/
def f64Value : F64 → ℚ
  | .fin neg m e => (if neg then -1 else 1) * (m * (2 : ℚ) ^ e)
  | _ => 0

def IsFinite64 : F64 → Prop
  | .fin .. => True
  | _ => False

/-- `x` is a float64 nearest to the number `q`. -/
def Nearest64 (q : ℚ) (x : F64) : Prop :=
  Binary64 x ∧ IsFinite64 x ∧
    ∀ y, Binary64 y → IsFinite64 y → |f64Value x - q| ≤ |f64Value y - q|

/-- Half way from the largest float64, `(2^53 - 1) * 2^971`, to the next power of two. -/
def f64Limit : ℚ := (2 ^ 54 - 1) * 2 ^ (970 : Int)

/-- Digits, or digits, a point and digits; with the number they mean. -/
def DecimalText (s : Str) (q : ℚ) : Prop :=
  (∃ n, Numeral s n ∧ q = n) ∨
  ∃ ip fp n, s = ip ++ '.' :: fp ∧ Numeral (ip ++ fp) n ∧ q = n / (10 : ℚ) ^ fp.length

/-- Nothing, or `e` or `E` and an integer with or without sign; with the power of ten it
means. -/
def ExponentText (s : Str) (k : Int) : Prop :=
  (s = [] ∧ k = 0) ∨
  ∃ c t n, s = c :: t ∧ (c = 'e' ∨ c = 'E') ∧
    ((Numeral t n ∧ k = n) ∨ (∃ u, t = '+' :: u ∧ Numeral u n ∧ k = n) ∨
      ∃ u, t = '-' :: u ∧ Numeral u n ∧ k = -n)

/-- Decimal text with an exponent. -/
def ScientificText (s : Str) (q : ℚ) : Prop :=
  ∃ b x q0 k, s = b ++ x ∧ DecimalText b q0 ∧ ExponentText x k ∧ q = q0 * (10 : ℚ) ^ k

/-- A sign or none, and a number. -/
def SignedText (s : Str) (neg : Bool) (q : ℚ) : Prop :=
  (neg = false ∧ (ScientificText s q ∨ ∃ t, s = '+' :: t ∧ ScientificText t q)) ∨
  (neg = true ∧ ∃ t, s = '-' :: t ∧ ScientificText t q)

/-- The words for numbers that are not finite, in any case. -/
def WordText (s : Str) (x : F64) : Prop :=
  (s.map Char.toLower ∈ ["inf".toList, "+inf".toList, "infinity".toList, "+infinity".toList] ∧ x = .inf false) ∨
  (s.map Char.toLower ∈ ["-inf".toList, "-infinity".toList] ∧ x = .inf true) ∨
  (s.map Char.toLower = "nan".toList ∧ x = .nan)

end LogCache.Spec
