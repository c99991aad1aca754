import Verif.Model.EndToEnd
import Verif.Spec.Protobuf
import Verif.Spec.Cluster
import Verif.Spec.Door
import Verif.Spec.Client
import Verif.Model.Url

/-! # What a user gets who reads a source over HTTP -/

namespace LogCache.Spec

/-! ## The expected answer, on envelopes as they are on the wire -/

/-- The type of an envelope. -/
def wireKind (e : WireEnvelope) : Option EType :=
  e.message.map fun
    | .log .. => .log
    | .counter .. => .counter
    | .gauge .. => .gauge
    | .timer .. => .timer
    | .event .. => .event

/-- The names a name filter looks at. -/
def wireNames (e : WireEnvelope) : List Str :=
  match e.message with
  | some (.counter n _ _) => [n]
  | some (.timer n _ _) => [n]
  | some (.gauge ms) => ms.map Prod.fst
  | _ => []

/-- With a name filter: nothing if no name matches, otherwise the envelope with the metrics
whose names match. -/
def wireProject (nf : Option (Str → Bool)) (e : WireEnvelope) : Option WireEnvelope :=
  match nf with
  | none => some e
  | some m =>
    if (wireNames e).any m then
      match e.message with
      | some (.gauge ms) => some { e with message := some (.gauge (ms.filter fun p => m p.1)) }
      | _ => some e
    else none

/-- The part of a log that a request asks for. -/
def wanted (compile : Str → Option (Str → Bool)) (now : Int) (q : ReadRequest) (log : List WireEnvelope) :
    List WireEnvelope :=
  (((((if q.descending then log.reverse else log).filter fun e =>
      decide (q.start ≤ e.timestamp) && decide (e.timestamp < if q.stop = 0 then now else q.stop)).filterMap
      (wireProject (if q.nameFilter = [] then none else compile q.nameFilter))).filter fun e =>
      decide (∀ t ∈ q.types, t = .any) || decide (∃ t ∈ q.types, wireKind e = some t))).take
    (if q.limit = 0 then 100 else q.limit).toNat

/-! ## The system -/

/-- An envelope as it comes out of a message: a log has no payload or one of some bytes. -/
def Arrived (e : WireEnvelope) : Prop :=
  ValidEnvelope e ∧ ∀ t, e.message ≠ some (.log (some []) t)

/-- The client requests of a history of the cluster are the requests `posts`, each sent as the
bytes of a message that grpc takes, with maps in any order. -/
def Posted (evs : List CEvent) (posts : List SendReq) : Prop :=
  List.Forall₂ (fun ev r => ∃ i w r', SameBatch? w.envelopes r.envelopes ∧ w.localOnly = r.localOnly ∧
      (sendReqProto.encode w).length ≤ grpcMaxMessage ∧ sendReqProto.decode (sendReqProto.encode w) = some r' ∧
      ev = CEvent.client i (sendCode r'))
    (evs.filter fun | .client _ _ => true | _ => false) posts

/-- All envelopes of a source in the requests. -/
def postedFor (posts : List SendReq) (src : Str) : List WireEnvelope :=
  (posts.flatMap fun r => r.envelopes.getD []).filter fun e => decide (e.sourceId = src)

/-- A node with the store `st` takes the bytes `req` and answers with the bytes `resp`; maps
may be written in any order. -/
def NodeAnswers (compile : Str → Option (Str → Bool)) (now : Int) (st : Store) (req resp : List UInt8) : Prop :=
  req.length ≤ grpcMaxMessage ∧ ∃ q es ws w, readReqProto.decode req = some q ∧ localRead compile now st q = some (.ok es) ∧
    ws.map envelopeCode = es ∧ SameBatch? w (some ws) ∧ resp = readRespProto.encode w

/-- An answer passes `n` nodes on its way to the gateway, each of which takes a message of
limited size and writes it anew; `out` is what the client returns. -/
inductive ComesBack : Nat → List UInt8 → Option (List WireEnvelope) → Prop
  | gateway (resp) : ComesBack 0 resp (answerThroughGateway resp)
  | tooLarge (n resp) : grpcMaxMessage < resp.length → ComesBack (n + 1) resp none
  | broken (n resp) : readRespProto.decode resp = none → ComesBack (n + 1) resp none
  | passed (n resp a w out) : resp.length ≤ grpcMaxMessage → readRespProto.decode resp = some a →
      SameBatch? w a → ComesBack n (readRespProto.encode w) out → ComesBack (n + 1) resp out

/-- A request goes through the proxy and the gateway to node `j`, is passed on (`hops` times) to
node `i` and answered, and the answer goes back through the same nodes and the gateway to the
client: `out` is what the client returns. -/
def ReadThrough (methodOk : Str → Bool) (oauth : Str → Option UserCtx) (auth : Str → Str → Bool)
    (related : List Str → Str → Option Expansions) (order : List Str → List Str)
    (parse : Str → Option PExpr) (print : PExpr → Str) (compile : Str → Option (Str → Bool)) (now : Int)
    (c : Cluster) (j : Nat) (r : WebReq) (out : Option (List WireEnvelope)) : Prop :=
  ∃ q hops i resp, door false methodOk oauth auth related order parse print r = some (.read q) ∧
    ReadAt c.lk q.sourceId j hops (some i) ∧
    NodeAnswers compile now (c.store i) (readReqProto.encode q) resp ∧ ComesBack hops resp out

/-! ## When a read must be answered -/

/-- A cluster of `n` nodes that all hold the table `L` has come to rest: clients sent `posts`,
nothing was lost, nothing is in flight, no two envelopes of a source have the same time, and all
of the source `id` fits. -/
structure AtRest (cfg : Config) (n : Nat) (L : Str → List Nat) (evs : List CEvent) (c : Cluster)
    (posts : List SendReq) (id : Str) : Prop where
  run : CRun (newCluster cfg n (fun _ => L)) evs c
  reliable : Reliable evs
  posted : Posted evs posts
  plain : ∀ r ∈ posts, r.localOnly = false
  arrived : ∀ r ∈ posts, ∀ e ∈ r.envelopes.getD [], Arrived e
  quiet : ∀ j i, c.queue j i = []
  once : ∀ s, (L s).Nodup
  times : ∀ s, ((postedFor posts s).map WireEnvelope.timestamp).Nodup
  owned : L id ≠ []
  some : 1 ≤ cfg.maxPerSource
  fits : ((postedFor posts id).length : Int) ≤ cfg.maxPerSource

/-- The client library asks for `id` with options that are in order, on behalf of a user who may
read it (`r` is what the server makes of the bytes of the request); the id is one that the
routers let through. -/
structure FairRead (methodOk : Str → Bool) (oauth : Str → Option UserCtx) (auth : Str → Str → Bool)
    (compile : Str → Option (Str → Bool)) (id : Str) (start : Int) (opts : List ReadOpt) (r : WebReq) : Prop where
  begin : FitsInt64 start
  range : ∀ o ∈ opts, OptInRange o
  known : ∀ o ∈ opts, OptKnown o
  window : (asked id start opts).stop = 0 ∨ start ≤ (asked id start opts).stop
  limit : 0 ≤ (asked id start opts).limit ∧ (asked id start opts).limit ≤ 1000
  filter : (asked id start opts).nameFilter = [] ∨ compile (asked id start opts).nameFilter ≠ none
  size : (readReqProto.encode (asked id start opts)).length ≤ grpcMaxMessage
  target : seenRequest ("/api/v1/read/".toList ++ id) (httpReadParams start opts) = some (r.path, r.params)
  clean : CleanId id ∧ '\n' ∉ id ∧ ':' ∉ id
  method : methodOk r.method = true
  may : MayRead oauth auth r.authorization id

/-- All of a source, in the order of time. -/
def PostedInOrder (posts : List SendReq) (id : Str) (log : List WireEnvelope) : Prop :=
  log.Perm (postedFor posts id) ∧ log.Pairwise fun x y => x.timestamp ≤ y.timestamp

end LogCache.Spec
