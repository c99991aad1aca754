import Verif.Model.Door
import Verif.Model.Proxy
import Verif.Model.PromClient
/-!
# The status of an answer over HTTP

Models how the errors of `/repo/internal/routing/local_store_reader.go:46-98` and
`/repo/internal/routing/egress_reverse_proxy.go:54-65` come out of the gateway
(`/repo/pkg/rpc/logcache_v1/egress.pb.gw.go:35-64`, `/repo/internal/gateway/gateway.go:181-219`)
and of the auth proxy (`/repo/internal/auth/cf_auth_middleware.go:77-182`).
-/
namespace LogCache

/-- `runtime.HTTPStatusFromCode` of grpc-gateway, from memory.  Library code, reached from
`gateway.go:215` and, through `runtime.DefaultHTTPError`, from `gateway.go:190`. -/
def httpStatusFromCode : Nat → Nat
  | 0 => 200
  | 1 => 408
  | 3 => 400
  | 4 => 504
  | 5 => 404
  | 6 => 409
  | 7 => 403
  | 8 => 429
  | 9 => 412
  | 10 => 409
  | 11 => 400
  | 12 => 501
  | 14 => 503
  | 16 => 401
  | _ => 500

/-- `EgressReverseProxy.Read` behind a gRPC server (egress_reverse_proxy.go:54-65): without a
route the code is `Unavailable`; the errors of `LocalStoreReader.Read`
(local_store_reader.go:48, 52, 56, 72) have no code, which gRPC sends as `Unknown`; a crash
breaks the connection, `Unavailable`.  `ask` is the answer of another node, handed on as it
is.  Simplification: the text of an error is `msg`. -/
def nodeRead (compile : Str → Option (Str → Bool)) (now : Int) (st : Store) (lookup : Str → List Nat)
    (localIdx rnd : Nat) (ask : Nat → ReadRequest → GrpcAns (List Envelope)) (msg : Str) (req : ReadRequest) :
    GrpcAns (List Envelope) :=
  match egressRoute lookup localIdx req.sourceId rnd with
  | none => .error 14 msg
  | some i =>
    if i = localIdx then
      match localRead compile now st req with
      | none => .error 14 msg
      | some (.error _) => .error 2 msg
      | some (.ok es) => .ok es
    else ask i req

/-- The status of a read at the gateway (egress.pb.gw.go:35-64, 121-148, gateway.go:181-192):
parameters that cannot be read are `InvalidArgument`.  Simplification: an answer can always
be marshalled. -/
def gatewayReadStatus (node : ReadRequest → GrpcAns (List Envelope)) (id : Str) (q : Values) : Nat :=
  match gatewayRead id q with
  | none => httpStatusFromCode 3
  | some req => match node req with
    | .ok _ => 200
    | .error code _ => httpStatusFromCode code

/-- The status of a read at the auth proxy (cf_auth_middleware.go:77-105), which hands on the
status of the gateway (cf_auth_proxy.go:113-117). -/
def proxyReadStatus (oauth : Str → Option UserCtx) (auth : Str → Str → Bool)
    (node : ReadRequest → GrpcAns (List Envelope)) (token id : Str) (q : Values) : Nat :=
  match readHandler oauth auth token id with
  | .status n => n
  | .forward id => gatewayReadStatus node id q

/-- The status of an instant query at the gateway (promql.pb.gw.go:35-46, 103-130,
gateway.go:181-219). -/
def gatewayQueryStatus {F : Type} (fl : FloatLib F) (s : PromServer F) (q : Values) : Nat :=
  (gatewayProm fl httpStatusFromCode [] (s.instant (gatewayInstant q))).1

/-- The status of an instant query at the auth proxy (cf_auth_middleware.go:107-182); `print`
is the printer of queries. -/
def proxyQueryStatus {F : Type} (fl : FloatLib F) (s : PromServer F) (oauth : Str → Option UserCtx)
    (auth : Str → Str → Bool) (related : List Str → Str → Option Expansions) (order : List Str → List Str)
    (parse : Str → Option PExpr) (print : PExpr → Str) (token : Str) (q : Values) : Nat :=
  match queryHandler oauth (fun c _ id => auth id c.token) related order parse token
      ((q.first "query".toList).getD []) with
  | .status n => n
  | .forward e => gatewayQueryStatus fl s (q.set "query".toList (print e))

end LogCache
