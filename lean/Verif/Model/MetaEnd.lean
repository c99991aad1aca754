import Verif.Model.EndToEnd
import Verif.Model.ProxyMeta
import Verif.Model.Protobuf
import Verif.Model.Proxy

/-!
# Meta information on its way to a user

From the stores of the nodes (`/repo/internal/routing/local_store_reader.go`) through the node
that is asked (`mergeMeta`), the gateway and the auth proxy (`proxyMeta`).
-/

namespace LogCache

/-- `LocalStoreReader.Meta` (`internal/routing/local_store_reader.go:100-114`): what the store
tells, for every source. -/
def localMeta (st : Store) : List (Str × WireMeta) :=
  (metaOf st).map fun p => (p.1, ⟨p.2.count, p.2.expired, p.2.oldest, p.2.newest⟩)

/-- A client of grpc that gets the bytes `resp` for a Meta request (`pkg/client/client.go:282-289`,
`internal/routing/egress_reverse_proxy.go:112-118`): `none` if the message is too large or is none. -/
def grpcMetaAnswer (resp : List UInt8) : Option (List (Str × WireMeta)) :=
  if resp.length ≤ grpcMaxMessage then metaRespProto.decode resp else none

/-- What a client of the gateway gets when log-cache answers the gateway with the bytes `resp`
(`internal/gateway/gateway.go:133-158`, `pkg/rpc/logcache_v1/egress.pb.gw.go:66-80`,
`pkg/client/client.go:242-280`). -/
def metaThroughGateway (resp : List UInt8) : Option (List (Str × WireMeta)) :=
  (grpcMetaAnswer resp).bind fun m => clientMetaBody (metaAnswerText m)

/-- What the user's client gets when log-cache answers the auth proxy's Meta with the bytes `resp`:
`none` for an error (`internal/auth/cf_auth_middleware.go:184-210`, `pkg/client/client.go:242-280`). -/
def userMetaAnswer (oauth : Str → Option UserCtx) (available : Str → List Str) (tok : Str) (resp : List UInt8) :
    Option (List (Str × WireMeta)) :=
  match proxyMeta oauth available (metaThroughGateway resp) tok with
  | .inl _ => none
  | .inr body => clientMetaBody body

end LogCache
