import Verif.Spec.QueryEnd
import Verif.Spec.UserCrash

/-! # Queries after a recovery -/

namespace LogCache.Spec

/-- The cluster has recovered for every source of `S`: it has one owner, fewer than a hundred
envelopes, with different times and of at most 41937 bytes each, and an id of at most four million. -/
def RecoversFor (cfg : Config) (n : Nat) (L : Str → List Nat) (pre : List PruneEvent) (post : List XEvent) (c : Cluster)
    (before after : List SendReq) (S : Str → Prop) : Prop :=
  ∀ id, S id → (∃ k, Recovered cfg n L pre post c before after [k] id) ∧
    ((postedFor (before ++ after) id).map WireEnvelope.timestamp).Nodup ∧
    (postedFor (before ++ after) id).length < 100 ∧ (utf8Bytes id).length ≤ 4000000 ∧
    ∀ e ∈ postedFor (before ++ after) id, (wireEnvelopeProto.encode e).length ≤ 41937

end LogCache.Spec
