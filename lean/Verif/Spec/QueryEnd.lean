import Verif.Spec.WalkGrpc
import Verif.Spec.Engine

/-! # Queries over a cluster -/

namespace LogCache.Spec

/-- What a query asks of a source. -/
def metricsBetween (id : Str) (start stop : Int) : ReadRequest :=
  { sourceId := id, start := start, stop := stop, types := [.gauge, .counter, .timer] }

/-- The walk with which a node reads a source for a query, by way of grpc reads at node `j`. -/
abbrev QueryWalk (compile : Str → Option (Str → Bool)) (c : Cluster) (j : Nat) (log : List WireEnvelope)
    (id : Str) (start stop : Int) (tr : List (WalkIn × Option (List Envelope))) : Prop :=
  WalkRun dataReaderBackoff (dataReaderCfg (metricsBetween id start stop)) id (GrpcReader compile c j log 1000000000)
    (walkInit (dataReaderCfg (metricsBetween id start stop)) 0) tr none

/-- The reader behind the queries of a node, for the sources of `S`: it returns what the visitor
of a walk has got when the walk has ended. -/
def ReadsByWalks (compile : Str → Option (Str → Bool)) (c : Cluster) (j : Nat) (S : Str → Prop)
    (log : Str → List WireEnvelope) (read : ReadRequest → Option (List Envelope)) : Prop :=
  ∀ id start stop, S id → FitsInt64 start → FitsInt64 stop → stop ≠ 0 →
    ∃ tr, QueryWalk compile c j (log id) id start stop tr ∧
      read (metricsBetween id start stop) = dataReaderResult false (delivered tr)

/-- The cluster has come to rest for every source of `S`, the envelopes of these sources
have at most 41937 bytes and their ids at most four million. -/
def RestsFor (cfg : Config) (n : Nat) (L : Str → List Nat) (evs : List CEvent) (c : Cluster) (posts : List SendReq)
    (S : Str → Prop) : Prop :=
  ∀ id, S id → AtRest cfg n L evs c posts id ∧ (utf8Bytes id).length ≤ 4000000 ∧
    ∀ e ∈ postedFor posts id, (wireEnvelopeProto.encode e).length ≤ 41937

end LogCache.Spec
