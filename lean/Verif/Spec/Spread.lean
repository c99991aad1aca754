import Verif.Spec.History
/-!
# Equal timestamps that do not get in the way of others
-/
namespace LogCache.Spec

/-- How many of the envelopes have this timestamp. -/
def howMany (l : List Envelope) (ts : Int) : Nat := (l.filter fun x => decide (x.timestamp = ts)).length

/-- There may be envelopes of one time, but the next later time is at least as many nanoseconds
later as there are. -/
def Spread (l : List Envelope) : Prop :=
  ∀ x ∈ l, ∀ y ∈ l, x.timestamp < y.timestamp → x.timestamp + howMany l x.timestamp ≤ y.timestamp

end LogCache.Spec
