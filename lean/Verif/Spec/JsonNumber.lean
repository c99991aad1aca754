import Verif.Model.Base

/-! # The numbers of JSON (RFC 8259) -/

namespace LogCache.Spec

/-- Decimal digits, at least one. -/
def DigitRun (t : Str) : Prop := t ≠ [] ∧ ∀ c ∈ t, '0' ≤ c ∧ c ≤ '9'

/-- A number. -/
def NumText (t : Str) : Prop :=
  ∃ sign whole frac exp : Str, t = sign ++ whole ++ frac ++ exp ∧
    (sign = [] ∨ sign = ['-']) ∧
    (whole = ['0'] ∨ DigitRun whole ∧ whole.head? ≠ some '0') ∧
    (frac = [] ∨ ∃ d, DigitRun d ∧ frac = '.' :: d) ∧
    (exp = [] ∨ ∃ (e : Char) (sg d : Str), (e = 'e' ∨ e = 'E') ∧ (sg = [] ∨ sg = ['+'] ∨ sg = ['-']) ∧ DigitRun d ∧
      exp = e :: (sg ++ d))

end LogCache.Spec
