import Verif.Model.Options
import Verif.Model.Auth
import Verif.Model.Proxy
import Verif.Model.Door
/-!
# The options of the gateway, the auth proxy, its clients and the node's proxy for reads

Models the constructors and functions with options of `/repo/internal/gateway/gateway.go`,
`/repo/internal/auth/capi_client.go`, `/repo/internal/auth/uaa_client.go`,
`/repo/internal/routing/egress_reverse_proxy.go` and
`/repo/internal/cfauthproxy/cf_auth_proxy.go`, and what `/repo/cmd/gateway/main.go` and
`/repo/cmd/cf-auth-proxy/main.go` give them. Loggers are left out; options of grpc and functions
for the uptime are names. Durations are numbers of nanoseconds.
-/
namespace LogCache

/-- `GatewayOption` (gateway.go:56-98). -/
inductive GatewayOpt where
  | block
  | dial (os : List Str)
  | version (v : Str)
  | uptime (f : Str)

/-- The fields of `Gateway` that options set (gateway.go:21-34), with what `NewGateway` puts
there first (gateway.go:40-47). -/
structure GatewayParams where
  block : Bool := false
  dial : List Str := []
  version : Str := []
  uptime : Str := "uptimeInSeconds".toList
deriving DecidableEq

/-- What an option does (gateway.go:70-98). -/
def GatewayOpt.apply (p : GatewayParams) : GatewayOpt → GatewayParams
  | .block => { p with block := true }
  | .dial os => { p with dial := os }
  | .version v => { p with version := v }
  | .uptime f => { p with uptime := f }

/-- `NewGateway` (gateway.go:39-54). -/
def newGateway (opts : List GatewayOpt) : GatewayParams := opts.foldl GatewayOpt.apply {}

/-- The options of the command (`/repo/cmd/gateway/main.go:26-33`). -/
def gatewayCommandOpts (version : Str) : List GatewayOpt := [.dial ["tls".toList], .version version]

/-- `CAPIOption` (capi_client.go:69-81). -/
inductive CapiOpt where
  | prune (d : Int)
  | expire (d : Int)

/-- The fields of `CAPIClient` that options set (capi_client.go:25-26), with what
`NewCAPIClient` puts there first (capi_client.go:51-52). -/
structure CapiParams where
  prune : Int := 60000000000
  expire : Int := 60000000000
deriving DecidableEq

/-- What an option does (capi_client.go:71-81). -/
def CapiOpt.apply (p : CapiParams) : CapiOpt → CapiParams
  | .prune d => { p with prune := d }
  | .expire d => { p with expire := d }

/-- `NewCAPIClient` (capi_client.go:34-67) without the check of the address. -/
def newCapiClient (opts : List CapiOpt) : CapiParams := opts.foldl CapiOpt.apply {}

/-- The options of the command (`/repo/cmd/cf-auth-proxy/main.go:62-69`). -/
def capiCommandOpts (prune expire : Int) : List CapiOpt := [.prune prune, .expire expire]

/-- `UAAOption` (uaa_client.go:70-76): the shortest time between two refreshes. -/
structure UaaOpt where
  minimum : Int

/-- The `minimumRefreshInterval` of a UAA client: `NewUAAClient` puts thirty seconds there
first (uaa_client.go:60). -/
def newUaaClient (opts : List UaaOpt) : Int := opts.foldl (fun _ o => o.minimum) 30000000000

/-- `EgressReverseProxyOption` (egress_reverse_proxy.go:140-146): how long meta information is
kept. -/
structure ReadProxyOpt where
  keep : Int

/-- The `metaCacheDuration` of the proxy: `NewEgressReverseProxy` puts a second there first
(egress_reverse_proxy.go:38-48). -/
def newReadProxy (opts : List ReadProxyOpt) : Int := opts.foldl (fun _ o => o.keep) 1000000000

/-- What handling a request comes to: a line in the access log, a refusal, the request sent on
to the gateway. Models what the handlers of cf_auth_proxy.go:94 do. -/
inductive DoorEffect where
  | logged (r : WebReq)
  | refused (r : WebReq)
  | forwarded (r : WebReq)

/-- `http.Handler` by its effects. Models `cf_auth_proxy.go:94`. -/
abbrev DoorHandler := WebReq → List DoorEffect

/-- `CFAuthProxyOption` (cf_auth_proxy.go:57-81). -/
inductive ProxyOpt where
  | block
  | auth (m : DoorHandler → DoorHandler)
  | access (m : DoorHandler → DoorHandler)

/-- The fields of `CFAuthProxy` that options set (cf_auth_proxy.go:18-30), with what
`NewCFAuthProxy` puts there first (cf_auth_proxy.go:38-48). -/
structure ProxyParams where
  block : Bool := false
  auth : DoorHandler → DoorHandler := fun h => h
  access : DoorHandler → DoorHandler := fun h => h

/-- What an option does (cf_auth_proxy.go:63-81). -/
def ProxyOpt.apply (p : ProxyParams) : ProxyOpt → ProxyParams
  | .block => { p with block := true }
  | .auth m => { p with auth := m }
  | .access m => { p with access := m }

/-- `NewCFAuthProxy` (cf_auth_proxy.go:32-55) without the check of the address. -/
def newAuthProxy (opts : List ProxyOpt) : ProxyParams := opts.foldl ProxyOpt.apply {}

/-- The handler that `Start` serves (cf_auth_proxy.go:93-96, 114-118). -/
def ProxyParams.handler (p : ProxyParams) : DoorHandler := p.access (p.auth fun r => [.forwarded r])

/-- An authorization middleware that lets through what `may` says
(cf_auth_middleware.go:70-215). Simplification: that the middleware answers meta requests itself
counts as a refusal here; C63 says what it answers. -/
def gatedBy (may : WebReq → Bool) : DoorHandler → DoorHandler :=
  fun next r => if may r then next r else [.refused r]

/-- An access middleware (access_middleware.go:8-12, 43-49). -/
def accessLogged : DoorHandler → DoorHandler := fun next r => .logged r :: next r

/-- The proxy of the command (`/repo/cmd/cf-auth-proxy/main.go:94-121`) with its setting
`SECURITY_EVENT_LOG`. -/
def proxyOfCommand (may : WebReq → Bool) (securityLog : Str) : ProxyParams :=
  let p := newAuthProxy [.auth (gatedBy may)]
  if securityLog ≠ [] then ProxyOpt.apply p (.access accessLogged) else p

end LogCache
