import Verif.Spec.MetaEnd
import Verif.Spec.UserCrash

/-! # What a user learns from Meta while nodes crash and recover -/

namespace LogCache.Spec

/-- What may be told of a source for which `sent` was sent: at least one is counted, and no more
than were sent, with those that expired; the oldest time is that of one of them or up to `fudge`
after it, the newest is that of one of them, or 0. -/
def ToldOf (fudge : Nat) (sent : List WireEnvelope) (m : WireMeta) : Prop :=
  1 ≤ m.count ∧ 0 ≤ m.expired ∧ m.count + m.expired ≤ sent.length ∧
  (∃ e ∈ sent, e.timestamp ≤ m.oldest ∧ m.oldest ≤ e.timestamp + fudge) ∧
  (m.newest = 0 ∨ ∃ e ∈ sent, e.timestamp = m.newest)

/-- What is told of a source of which `sent` was sent and `log` is left, after some of it was pruned:
`log` is counted, its oldest time is told, but for at most `fudge`, none of it is newer than is
told, and those that expired are told of besides. -/
def SummaryLeft (fudge : Nat) (sent log : List WireEnvelope) (m : WireMeta) : Prop :=
  ToldOf fudge sent m ∧ m.count = log.length ∧
  (∃ e ∈ log, e.timestamp ≤ m.oldest ∧ m.oldest ≤ e.timestamp + fudge) ∧
  ∀ e ∈ log, m.oldest ≤ e.timestamp + fudge ∧ e.timestamp ≤ m.newest

/-- The numbers of a history fit in 64 bits: less than 2⁶³ envelopes are sent for a source, and no
time is within `fudge` of the end of time. -/
structure SmallNumbers (fudge : Nat) (posts : List SendReq) : Prop where
  few : ∀ id, (postedFor posts id).length < 2 ^ 63
  early : ∀ id, ∀ e ∈ postedFor posts id, e.timestamp + fudge < 2 ^ 63

end LogCache.Spec
