import Verif.Model.MetaEnd
import Verif.Spec.EndToEnd

/-! # What a user learns from Meta -/

namespace LogCache.Spec

/-- The summary of all that was sent for a source: how many, the time of the oldest and that of
the newest (0 if all are from before 1970), and nothing expired. -/
def Summary (log : List WireEnvelope) (m : WireMeta) : Prop :=
  m.count = log.length ∧ m.expired = 0 ∧
  (∃ e ∈ log, e.timestamp = m.oldest) ∧ (∀ e ∈ log, m.oldest ≤ e.timestamp ∧ e.timestamp ≤ m.newest) ∧
  ((∃ e ∈ log, e.timestamp = m.newest) ∨ m.newest = 0 ∧ ∀ e ∈ log, e.timestamp < 0)

/-- What the node `j` has of node `i` when it gathers Meta: its own store, the answer of another
node as it comes out of its bytes, or an error. -/
inductive MetaPart (c : Cluster) (j i : Nat) : Option (List (Str × WireMeta)) → Prop
  | own : i = j → MetaPart c j i (some (localMeta (c.store i)))
  | failed : i ≠ j → MetaPart c j i none
  | answered (w) : i ≠ j → SameMap w (localMeta (c.store i)) → MetaPart c j i (grpcMetaAnswer (metaRespProto.encode w))

/-- Answers that nodes keep for a while (`metaCacheDuration`) are taken to be from after the cluster
came to rest.

A user asks for Meta; the request comes to node `j` of `n`, which has `parts` of the nodes;
`out` is what the user's client returns. -/
def UserMeta (oauth : Str → Option UserCtx) (available : Str → List Str) (c : Cluster) (n j : Nat)
    (parts : List (Option (List (Str × WireMeta)))) (tok : Str) (out : Option (List (Str × WireMeta))) : Prop :=
  parts.length = n ∧ (∀ i p, parts[i]? = some p → MetaPart c j i p) ∧
  ∃ m w, mergeMeta parts = some m ∧ SameMap w m ∧ out = userMetaAnswer oauth available tok (metaRespProto.encode w)

/-- An owner of the source was heard. -/
def OwnerHeard (L : Str → List Nat) (parts : List (Option (List (Str × WireMeta)))) (id : Str) : Prop :=
  ∃ i ∈ L id, ∃ m, parts[i]? = some (some m)

end LogCache.Spec
