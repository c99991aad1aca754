import Verif.Model.Protobuf
import Verif.Model.Reader
import Verif.Model.Proxy
import Mathlib.Logic.Denumerable
import Mathlib.Logic.Equiv.List

/-!
# From the wire to the store and back

The store model (`Verif/Model/Store.lean`) copies the contents of envelopes and looks at
timestamps, types and names only; there the payload of a log and the value of a gauge are
opaque. `code` gives every envelope of the wire its name in the store model: equal names
belong to equal envelopes, and timestamp, source, type, metric names and tags are kept.
-/

namespace LogCache

/-- A name for a float64. The code only copies it (`store.go:349-359`). -/
def f64Code (x : F64) : Nat :=
  Encodable.encode (match x with
    | .nan => (none : Option (Bool ⊕ (Bool × Nat × Int)))
    | .inf b => some (.inl b)
    | .fin b m e => some (.inr (b, m, e)))

/-- A text that stands for a number. The code only copies it (`store.go:349-359`). -/
def textCode (n : Nat) : Str := List.replicate n 'x'

/-- A name for the value of a deprecated tag. The code only copies it (`store.go:349-359`). -/
def tagCode (v : TagValue) : Str :=
  textCode (Encodable.encode (match v with
    | .unset => (none : Option (List Nat ⊕ (Int ⊕ Nat)))
    | .text s => some (.inl (s.map Char.toNat))
    | .integer n => some (.inr (.inl n))
    | .decimal x => some (.inr (.inr (f64Code x)))))

/-- A name for payload and type of a log. The code only copies it (`store.go:349-359`). -/
def logCode (p : Option (List UInt8)) (t : Int) : Str :=
  textCode (Encodable.encode (p.map (List.map UInt8.toNat), t))

/-- A message as the store model names it (`internal/cache/store/store.go:325-370`,
`459-480` look at types and names). -/
def messageCode : WireMessage → Message
  | .log p t => .log (logCode p t) (decide (t = 1))
  | .counter n d t => .counter n d t
  | .gauge ms => .gauge (ms.map fun p => (p.1, ⟨p.2.unit, (f64Code p.2.value : Int)⟩))
  | .timer n a b => .timer n a b
  | .event t b => .event t b

/-- An envelope as the store model names it (`internal/cache/store/store.go:349-359` copies
all fields). -/
def envelopeCode (e : WireEnvelope) : Envelope :=
  { timestamp := e.timestamp, sourceId := e.sourceId, instanceId := e.instanceId,
    deprecatedTags := e.deprecatedTags.map fun p => (p.1, tagCode p.2), tags := e.tags,
    message := e.message.map messageCode }

/-- A request to write as `Send` gets it (`internal/routing/ingress_reverse_proxy.go:41-69`). -/
def sendCode (r : SendReq) : SendRequest :=
  { envelopes := r.envelopes.map (List.map envelopeCode), localOnly := r.localOnly }

/-- The largest message grpc-go accepts, for servers and clients
(`defaultServerMaxReceiveMessageSize`, `defaultClientMaxReceiveMessageSize`, a dependency, from
recollection). Nobody sets another: `cmd/gateway/main.go:26-32`, `internal/gateway/gateway.go:133`,
`cmd/log-cache/main.go:54-61`, `internal/cache/log_cache.go:197`, `241`. -/
def grpcMaxMessage : Nat := 4 * 1024 * 1024

/-- The body the client reads for an answer of log-cache to the gateway
(`internal/gateway/gateway.go:133-158`, `pkg/rpc/logcache_v1/egress.pb.gw.go:35-64`,
`pkg/client/client.go:135-151`): `none` if the gateway refuses the message or the client fails
to read the body. -/
def answerThroughGateway (resp : List UInt8) : Option (List WireEnvelope) :=
  if resp.length ≤ grpcMaxMessage then
    (readRespProto.decode resp).bind fun a => clientReadBody (readAnswerText a)
  else none

/-! ## Batches of envelopes to write -/

/-- Who writes batches: the nozzle (`internal/nozzle/nozzle.go:160-177`), the syslog server
(`cmd/syslog-server/main.go:52`) and a node that passes envelopes on to another
(`internal/cache/log_cache.go:203-211`). -/
inductive BatchWriter where
  | nozzle
  | syslogServer
  | node
deriving DecidableEq, Repr

/-- The largest number of envelopes in a batch (`nozzle.go:42`, `144`;
`cmd/syslog-server/main.go:21`; `log_cache.go:204`). -/
def BatchWriter.most : BatchWriter → Nat
  | .nozzle => 512
  | .syslogServer => 512
  | .node => 100

/-- The request for a batch (`nozzle.go:165-169`;
`internal/routing/batched_ingress_client.go:81-84`). -/
def BatchWriter.request : BatchWriter → List WireEnvelope → SendReq
  | .nozzle, es => { envelopes := some es }
  | _, es => { envelopes := some es, localOnly := true }

/-- What log-cache gets of a request to write: `none` if grpc refuses the message, which the
writers count or log and do not send again (`nozzle.go:171-174`,
`batched_ingress_client.go:86-88`). -/
def writeArrives (r : SendReq) : Option SendReq :=
  if (sendReqProto.encode r).length ≤ grpcMaxMessage then sendReqProto.decode (sendReqProto.encode r) else none

end LogCache
