import Verif.Model.Status
import Verif.Spec.Door
/-! # Vocabulary for the status of answers -/
namespace LogCache.Spec

/-- A status that blames the request. -/
def BlamesRequest (status : Nat) : Prop := 400 ≤ status ∧ status < 500

/-- A status that blames the service. -/
def BlamesService (status : Nat) : Prop := 500 ≤ status ∧ status < 600

/-- A request no node serves because of what it asks for: its start lies behind its end, its
limit is not between 0 and 1000, or its name filter is not a regular expression. -/
def Unservable (compile : Str → Option (Str → Bool)) (req : ReadRequest) : Prop :=
  (req.stop ≠ 0 ∧ req.stop < req.start) ∨ req.limit < 0 ∨ 1000 < req.limit ∨
    (req.nameFilter ≠ [] ∧ compile req.nameFilter = none)

end LogCache.Spec
