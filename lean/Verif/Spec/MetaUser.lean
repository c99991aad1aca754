import Verif.Spec.MetaEnd
import Verif.Spec.MetaCluster

/-! # What a user learns from Meta, at any time -/

namespace LogCache.Spec

/-- One of the fields of what is told of a source. -/
inductive MetaField where
  | count | expired | oldest | newest

/-- Its value. -/
def MetaField.get (f : MetaField) (m : WireMeta) : Int :=
  match f with
  | .count => m.count
  | .expired => m.expired
  | .oldest => m.oldest
  | .newest => m.newest

/-- All four are integers of 64 bits. -/
def MetaInt64 (m : WireMeta) : Prop := ∀ f : MetaField, FitsInt64 (f.get m)

/-- At the time `now` node `i` answers the Meta request of a user with `resp`, whose field `f` is in
the history `evs`; the answer fits in a message of grpc in whatever order its entries are written,
and `out` is what the user's client returns. -/
structure UserMetaAt (oauth : Str → Option UserCtx) (available : Str → List Str) (tok : Str) (f : MetaField)
    (evs : List (Int × MetaNetAct Int)) (now : Int) (i : Nat) (out : Option (List (Str × WireMeta))) : Prop where
  answered : ∃ act resp w, (now, act) ∈ evs ∧ ClusterAnswers act i (resp.map fun p => (p.1, f.get p.2)) ∧
    (∀ p ∈ resp, MetaInt64 p.2) ∧ SameMap w resp ∧ (metaRespProto.encode w).length ≤ grpcMaxMessage ∧
    out = userMetaAnswer oauth available tok (metaRespProto.encode w)

end LogCache.Spec
