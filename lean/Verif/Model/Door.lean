import Verif.Model.Auth
import Verif.Model.Client
/-!
# The way of an HTTP request through the auth proxy and the gateway

Models `/repo/internal/auth/access_log.go`, `access_logger.go`, `access_middleware.go`,
the routes of `/repo/internal/auth/cf_auth_middleware.go:74-215`,
`/repo/internal/cfauthproxy/cf_auth_proxy.go:86-117` and the routes of
`/repo/internal/gateway/gateway.go:124-168`.  The routers themselves (gorilla/mux, Go's
`http.ServeMux`, grpc-gateway) are dependencies, modelled from memory as far as these
routes need them.
-/
namespace LogCache

/-- An HTTP request as the proxy sees it.  `path` is the decoded `URL.Path`;
`params` is `URL.Query()`, the decoded form of `rawQuery`; headers are empty when
absent. Models what `access_middleware.go:43` gets. -/
structure WebReq where
  method : Str
  path : Str
  rawQuery : Str := []
  params : Values := []
  authorization : Str := []
  requestId : Str := []
  forwardedFor : Str := []
  remoteAddr : Str := []
deriving DecidableEq, Repr

/-! ## Access log -/

/-- What `html/template` (Go standard library, from memory) writes for a character in
element text: access_log.go:6 imports it instead of `text/template`. -/
def escChar (c : Char) : Str :=
  if c = '"' then "&#34;".toList
  else if c = '&' then "&amp;".toList
  else if c = '\'' then "&#39;".toList
  else if c = '+' then "&#43;".toList
  else if c = '<' then "&lt;".toList
  else if c = '>' then "&gt;".toList
  else if c.val = 0 then [Char.ofNat 0xFFFD]
  else [c]

/-- A template action of access_log.go:99-121. -/
def escText (s : Str) : Str := s.flatMap escChar

/-- The part before the last colon and the part after it.
Library code, reached from `access_log.go:86`. -/
def lastColon : Str → Option (Str × Str)
  | [] => none
  | c :: s =>
    match lastColon s with
    | some (a, b) => some (c :: a, b)
    | none => if c = ':' then some ([], s) else none

/-- `net.SplitHostPort` (Go standard library, from memory); `none` is an error.
Library code, reached from `access_log.go:86`. -/
def splitHostPort (s : Str) : Option (Str × Str) :=
  match lastColon s with
  | none => none
  | some (front, port) =>
    match s with
    | '[' :: rest =>
      let host := rest.takeWhile (· ≠ ']')
      -- the first `]` must stand right before the last colon
      if front = '[' :: (host ++ [']']) then
        if '[' ∈ host ++ port ∨ ']' ∈ port then none else some (host, port)
      else none
    | _ =>
      if ':' ∈ front ∨ '[' ∈ s ∨ ']' ∈ s then none else some (front, port)

/-- `extractRemoteInfo` (access_log.go:72-92). -/
def remoteInfo (r : WebReq) : Str × Str :=
  let addr := if ',' ∈ r.forwardedFor then r.forwardedFor.takeWhile (· ≠ ',') else r.forwardedFor
  let addr := if addr = [] then r.remoteAddr else addr
  let addr := if ':' ∈ addr then addr else addr ++ [':']
  (splitHostPort addr).getD ([], [])

/-- The path of the log line (access_log.go:47-50). -/
def loggedPath (r : WebReq) : Str :=
  if r.rawQuery = [] then r.path else r.path ++ '?' :: r.rawQuery

/-- The fields of `templateContext` (access_log.go:53-62); `now` in nanoseconds. -/
structure LogFields where
  millis : Int
  requestId : Str
  path : Str
  method : Str
  srcHost : Str
  srcPort : Str
  dstHost : Str
  dstPort : Str
deriving DecidableEq, Repr

/-- access_log.go:45-62, 94-96. -/
def logFields (now : Int) (host port : Str) (r : WebReq) : LogFields :=
  { millis := now.tdiv 1000000, requestId := r.requestId, path := loggedPath r, method := r.method,
    srcHost := (remoteInfo r).1, srcPort := (remoteInfo r).2, dstHost := host, dstPort := port }

/-- The template (access_log.go:98-128) executed; executing it never fails on strings
and numbers. -/
def accessLine (f : LogFields) : Str :=
  "CEF:0|cloud_foundry|log_cache|1.0|".toList ++
  escText f.method ++ ' ' :: escText f.path ++ '|' ::
  escText f.method ++ ' ' :: escText f.path ++ "|0|rt=".toList ++
  formatInt f.millis ++
  " cs1Label=userAuthenticationMechanism cs1=oauth-access-token cs2Label=vcapRequestId cs2=".toList ++
  escText f.requestId ++ " request=".toList ++
  escText f.path ++ " requestMethod=".toList ++
  escText f.method ++ " src=".toList ++
  escText f.srcHost ++ " spt=".toList ++
  escText f.srcPort ++ " dst=".toList ++
  escText f.dstHost ++ " dpt=".toList ++
  escText f.dstPort

/-- `AccessHandler.ServeHTTP` with `DefaultAccessLogger.LogAccess`
(access_middleware.go:43-49, access_logger.go:19-23): the log afterwards and the request
passed on. `writeOk`: the write to the log succeeds; simplification: a failed write
writes nothing. -/
def accessServe (host port : Str) (log : Str) (now : Int) (writeOk : Bool) (r : WebReq) : Str × WebReq :=
  (if writeOk then log ++ accessLine (logFields now host port r) ++ ['\n'] else log, r)

/-- Requests one after the other: time, success of the write, request.
Models `access_middleware.go:43-49`. -/
def accessServeAll (host port : Str) : Str → List (Int × Bool × WebReq) → Str × List WebReq
  | log, [] => (log, [])
  | log, (now, ok, r) :: rest =>
    let s := accessServe host port log now ok r
    let t := accessServeAll host port s.1 rest
    (t.1, s.2 :: t.2)

/-! ## Routes of the auth proxy -/

/-- `strings.Join(segs, "/")`. Library code, reached from `cf_auth_middleware.go:75`. -/
def joinPath : List Str → Str
  | [] => []
  | [x] => x
  | x :: y :: xs => x ++ '/' :: joinPath (y :: xs)

/-- One element of a rooted path in `path.Clean` (Go standard library, from memory);
`acc` is what is kept so far, last first.
Library code, reached from `cf_auth_middleware.go:75` and `gateway.go:156`. -/
def cleanSeg (acc : List Str) (seg : Str) : List Str :=
  if seg = [] ∨ seg = ".".toList then acc
  else if seg = "..".toList then acc.tail
  else seg :: acc

/-- `cleanPath` of gorilla/mux (and of `http.ServeMux`), from memory.
Library code, reached from `cf_auth_middleware.go:75` and `gateway.go:156`. -/
def cleanPath (p : Str) : Str :=
  if p = [] then ['/']
  else
    let p := if p.head? = some '/' then p else '/' :: p
    let np := '/' :: joinPath ((splitOn '/' p).foldl cleanSeg []).reverse
    if p.getLast? = some '/' ∧ np ≠ ['/'] then np ++ ['/'] else np

/-- `s` without the prefix `pre`. Library code, reached from `cf_auth_middleware.go:77`. -/
def afterPrefix (pre s : Str) : Option Str :=
  if s.take pre.length = pre then some (s.drop pre.length) else none

/-- A route of cf_auth_middleware.go:77-212. -/
inductive Route where
  | read (sourceId : Str)
  | query
  | info
  | metaRoute
  | redirect (to : Str)
  | notFound
deriving DecidableEq, Repr

/-- The route of a path (cf_auth_middleware.go:77, 107, 184, 212): gorilla/mux answers
paths that are not clean with a redirect and unknown paths with 404; `.*` does not
match a line feed. -/
def proxyRoute (path : Str) : Route :=
  if cleanPath path ≠ path then .redirect (cleanPath path)
  else match afterPrefix "/api/v1/read/".toList path with
    | some id => if '\n' ∈ id then .notFound else .read id
    | none =>
      if path = "/api/v1/query".toList ∨ path = "/api/v1/query_range".toList then .query
      else if path = "/api/v1/meta".toList then .metaRoute
      else if path = "/api/v1/info".toList then .info
      else .notFound

/-! ## Routes of the gateway -/

/-- A call to the log cache, or the information endpoint. Models `gateway.go:156-168`. -/
inductive Backend where
  | read (req : ReadRequest)
  | instant (query : Str)
  | range (query : Str)
  | metaCall
  | info
deriving DecidableEq, Repr

/-- The components of a path without the verb (`runtime.ServeMux.ServeHTTP` of
grpc-gateway, from memory): what follows the last colon of the last component is the
verb; a component whose last colon is its first character is answered with 404, and so
is a verb that no pattern has, which is every verb but the empty one.
Library code, reached from `gateway.go:125-158`. -/
def dropVerb (comps : List Str) : Option (List Str) :=
  match comps.getLast? with
  | none => none
  | some last =>
    match lastColon last with
    | none => some comps
    | some (front, verb) => if front = [] ∨ verb ≠ [] then none else some (comps.dropLast ++ [front])

/-- `request_Egress_Read_0` with its query parameters: `source_id` is excluded by
`filter_Egress_Read_0` (egress.pb.gw.go:31-33, 54-59).  `alias`: does the library also
know fields by their JSON names? Then `sourceId` is not excluded and replaces the
source of the path. Simplification: the other JSON names are left out. -/
def gatewayReadCall (alias : Bool) (id : Str) (q : Values) : Option Backend :=
  (gatewayRead id q).map fun req =>
    .read (if alias then { req with sourceId := (q.first "sourceId".toList).getD req.sourceId } else req)

/-- The patterns of the gateway on the components of a path (egress.pb.gw.go:183-185,
promql.pb.gw.go:165-167); `{source_id=**}` takes all remaining components. -/
def gatewayMatch (alias : Bool) (params : Values) : List Str → Option Backend
  | a :: b :: c :: rest =>
    if a = "api".toList ∧ b = "v1".toList then
      if c = "read".toList then gatewayReadCall alias (joinPath rest) params
      else if rest ≠ [] then none
      else if c = "meta".toList then some .metaCall
      else if c = "query".toList then some (.instant ((params.first "query".toList).getD []))
      else if c = "query_range".toList then some (.range ((params.first "query".toList).getD []))
      else none
    else none
  | _ => none

/-- What the gateway does (gateway.go:156-158, egress.pb.gw.go:121, 150,
promql.pb.gw.go:103, 132).  `methodOk`: the methods the library serves GET routes for;
these are GET and, in some versions, POST. -/
def gatewayCall (alias : Bool) (methodOk : Str → Bool) (r : WebReq) : Option Backend :=
  if r.path = "/api/v1/info".toList then some .info
  else if !methodOk r.method then none
  else match r.path with
    | '/' :: p => (dropVerb (splitOn '/' p)).bind (gatewayMatch alias r.params)
    | _ => none

/-- The auth proxy in front of the gateway (cf_auth_proxy.go:95, 113-117,
cf_auth_middleware.go:77-212): what happens behind it on behalf of a request.
`print` is the printer of queries (cf_auth_middleware.go:170-179). The Meta route is
answered by the proxy itself (`metaHandler`). -/
def door (alias : Bool) (methodOk : Str → Bool) (oauth : Str → Option UserCtx)
    (auth : Str → Str → Bool) (related : List Str → Str → Option Expansions)
    (order : List Str → List Str) (parse : Str → Option PExpr) (print : PExpr → Str) (r : WebReq) :
    Option Backend :=
  match proxyRoute r.path with
  | .read id =>
    match readHandler oauth auth r.authorization id with
    | .forward _ => gatewayCall alias methodOk r
    | .status _ => none
  | .query =>
    match queryHandler oauth (fun c _ id => auth id c.token) related order parse r.authorization
        ((r.params.first "query".toList).getD []) with
    | .forward e => gatewayCall alias methodOk { r with params := r.params.set "query".toList (print e) }
    | .status _ => none
  | .info => gatewayCall alias methodOk r
  | _ => none

end LogCache
