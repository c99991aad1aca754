import Verif.Spec.EndToEnd
import Verif.Spec.Walk

/-! # Walks by way of grpc -/

namespace LogCache.Spec

/-- An answer passes `n` nodes on its way to a client of grpc, each of which takes a message of
limited size and writes it anew, as the client does; `out` is what the client returns, `none` if
it is an error. (An answer without a batch has no case: nodes do not send it, and the client
would panic.) -/
inductive GrpcBack : Nat → List UInt8 → Option (List WireEnvelope) → Prop
  | tooLarge (n resp) : grpcMaxMessage < resp.length → GrpcBack n resp none
  | broken (n resp) : resp.length ≤ grpcMaxMessage → readRespProto.decode resp = none → GrpcBack n resp none
  | client (resp ws) : resp.length ≤ grpcMaxMessage → readRespProto.decode resp = some (some ws) →
      GrpcBack 0 resp (some ws)
  | passed (n resp a w out) : resp.length ≤ grpcMaxMessage → readRespProto.decode resp = some a →
      SameBatch? w a → GrpcBack n (readRespProto.encode w) out → GrpcBack (n + 1) resp out

/-- A node with the store `st` answers the bytes `req` with an error: they are too many, or no
request, or the request is turned down. -/
def NodeFails (compile : Str → Option (Str → Bool)) (now : Int) (st : Store) (req : List UInt8) : Prop :=
  grpcMaxMessage < req.length ∨ readReqProto.decode req = none ∨
    ∃ q e, readReqProto.decode req = some q ∧ localRead compile now st q = some (.error e)

/-- A client of grpc asks node `j`, which passes the request on (`hops` times) to node `i`, where
it is answered: `out` is what the client returns.  It returns an error if that node does or if
the request comes to no node. -/
def GrpcRead (compile : Str → Option (Str → Bool)) (now : Int) (c : Cluster) (j : Nat) (q : ReadRequest)
    (out : Option (List WireEnvelope)) : Prop :=
  (∃ hops i resp, ReadAt c.lk q.sourceId j hops (some i) ∧
    NodeAnswers compile now (c.store i) (readReqProto.encode q) resp ∧ GrpcBack hops resp out) ∨
  out = none ∧ ((∃ hops, ReadAt c.lk q.sourceId j hops none) ∨
    ∃ hops i, ReadAt c.lk q.sourceId j hops (some i) ∧ NodeFails compile now (c.store i) (readReqProto.encode q))

/-- A reader of a cluster that does not change, by way of grpc: it fails or returns as the client
does, and only then; all of the log is older than the walk's delay; the visitor never stops the
walk and the context does not end. -/
def GrpcReader (compile : Str → Option (Str → Bool)) (c : Cluster) (j : Nat) (log : List WireEnvelope) (delay : Int)
    (req : ReadRequest) : WalkIn → Prop
  | .failed ctxDone => ctxDone = false ∧ ∃ now, GrpcRead compile now c j req none
  | .got es now more => more = true ∧ (∀ e ∈ log, e.timestamp ≤ now - delay) ∧
      ∃ now ws, GrpcRead compile now c j req (some ws) ∧ es = ws.map envelopeCode

/-- A walk that asks for what may be asked for. -/
structure FairWalk (compile : Str → Option (Str → Bool)) (c : WalkCfg) (id : Str) (stop : Int) : Prop where
  ends : c.stop = some stop
  stop0 : stop ≠ 0
  fits : FitsInt64 c.start ∧ FitsInt64 stop
  window : c.start ≤ stop
  known : ∀ k, EType.other k ∉ c.types.getD []
  limit : 0 ≤ c.limit.getD 0 ∧ c.limit.getD 0 ≤ 1000
  filter : c.nameFilter = [] ∨ compile c.nameFilter ≠ none
  size : ∀ s, FitsInt64 s → (readReqProto.encode (walkRequest c id s)).length ≤ grpcMaxMessage

end LogCache.Spec
