import Verif.Spec.Read
/-!
# Which envelope makes a read crash on an unknown envelope type

The requested types are compared in the order they were sent, and the
comparison ends at the first that fits.
-/
namespace LogCache.Spec

/-- The comparison reaches a type number that is not in the enumeration: no type
before it in the request fits the envelope. -/
def Trips (ts : List EType) (e : Envelope) : Prop :=
  ∃ before n after, ts = before ++ EType.other n :: after ∧ typeOk (some before) e = false

end LogCache.Spec
