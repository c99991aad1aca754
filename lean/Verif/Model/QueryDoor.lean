import Verif.Model.Door
import Verif.Model.Url
import Verif.Model.PromClient

/-!
# Queries through the auth proxy

Models the way of a query of the client library (`/repo/pkg/client/client.go:438-699`) through
`/repo/internal/auth/cf_auth_middleware.go:107-182` and
`/repo/internal/cfauthproxy/cf_auth_proxy.go:86-117` to the gateway.
-/
namespace LogCache
variable {F : Type}

/-- The body of an answer with 400 (cf_auth_middleware.go:68-72, 118-122, 131-135). -/
def badDataBody (msg : Str) : Json :=
  .obj [("status".toList, .str "error".toList), ("errorType".toList, .str "bad_data".toList),
    ("error".toList, .str msg)]

/-- What the query handler writes itself (cf_auth_middleware.go:108-176): a reason with 400,
nothing otherwise.  `explain` is the text of a parser's error. -/
def refusedQuery (parse : Str → Option PExpr) (explain : Str → Str) (query : Str) (n : Nat) : HttpAns Str :=
  if n = 400 then
    .resp 400 (some (badDataBody (if (parse query).isSome then "query does not request any source_ids".toList
      else explain query)).line)
  else .resp n (some [])

/-- The auth proxy in front of the gateway on a request for a query, of which it sees path and
parameters (cf_auth_middleware.go:107-182, cf_auth_proxy.go:95, 113-117).  `print` is the
printer of queries (cf_auth_middleware.go:170-179); the rewritten request goes to the gateway
as bytes (`seenRequest`).  Simplification: other routes are left to `door`. -/
def proxyQuery (fl : FloatLib F) (st : Nat → Nat) (why : Str) (s : PromServer F) (oauth : Str → Option UserCtx)
    (auth : Str → Str → Bool) (related : List Str → Str → Option Expansions) (order : List Str → List Str)
    (parse : Str → Option PExpr) (explain : Str → Str) (print : PExpr → Str) (token path : Str) (q : Values) :
    HttpAns Str :=
  if proxyRoute path ≠ .query then .resp 404 (some [])
  else
    let query := (q.first "query".toList).getD []
    match queryHandler oauth (fun c _ id => auth id c.token) related order parse token query with
    | .status n => refusedQuery parse explain query n
    | .forward e =>
      match seenRequest path (q.set "query".toList (print e)) with
      | none => .resp 400 (some [])
      | some (p, q') => gatewayServe fl st why s { path := p, params := q' }

/-- A request of the client library at the auth proxy, with a token
(client.go:438-456, 513-531, 578-596, 646-664, `/repo/pkg/client/oauth2_http_client.go:85-109`). -/
def askProxy (fl : FloatLib F) (st : Nat → Nat) (why : Str) (s : PromServer F) (oauth : Str → Option UserCtx)
    (auth : Str → Str → Bool) (related : List Str → Str → Option Expansions) (order : List Str → List Str)
    (parse : Str → Option PExpr) (explain : Str → Str) (print : PExpr → Str) (token : Str) (r : HttpReq) :
    HttpAns Str :=
  match seenRequest r.path r.params with
  | none => .resp 400 (some [])
  | some (p, q) => proxyQuery fl st why s oauth auth related order parse explain print token p q

end LogCache
