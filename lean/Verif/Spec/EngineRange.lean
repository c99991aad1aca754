import Verif.Spec.Engine

/-! # Specification vocabulary for selectors with a range -/

namespace LogCache.Spec

/-- The envelope is from before the time `T`, and its second began in the `range`
(nanoseconds) before it. -/
def WithinRange (range T : Int) (x : Envelope) : Prop := T - range ≤ secondOf x ∧ x.timestamp < T

open Classical in
/-- All envelopes in the list with a property, in order. -/
noncomputable def AllWith (es : List Envelope) (Q : Envelope → Prop) : List Envelope :=
  es.filter fun x => decide (Q x)

end LogCache.Spec
