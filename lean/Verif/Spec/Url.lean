import Verif.Model.Url

/-! # Specification: parameters of a request -/

namespace LogCache.Spec

/-- Parameters as `Set` and `Add` of `url.Values` leave them: every key once, with at least one
value. -/
def ProperParams (q : Values) : Prop := (q.map Prod.fst).Nodup ∧ ∀ e ∈ q, e.2 ≠ []

/-- The same parameters: the same values, in the same order, under every key. -/
def SameParams (a b : Values) : Prop := ∀ k, a.lookup k = b.lookup k

/-- A percent sign that is not followed by two hexadecimal digits ends `s`: no text has this
form when it is escaped. -/
def Malformed (s : List UInt8) : Prop := ∃ a, s = a ++ [37]

end LogCache.Spec
