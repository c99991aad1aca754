import Verif.Model.Auth
import Verif.Model.EnvelopeJson
/-!
# The meta information of the proxy

Models what the proxy writes in answer to `/api/v1/meta`,
`/repo/internal/auth/cf_auth_middleware.go:184-210`: unlike the gateway it uses a `jsonpb.Marshaler`
without options (`cf_auth_middleware.go:23`), which names fields in camel case and leaves out the
empty ones.
-/
namespace LogCache

/-- A map in the order of its keys, the order in which `jsonpb` writes it.
Library code, reached from `cf_auth_middleware.go:206`. -/
def sortKeys {α : Type} (m : List (Str × α)) : List (Str × α) := m.foldr (fun p acc => setKey p.1 p.2 acc) []

/-- An integer field, left out if it is zero.
Library code, reached from `cf_auth_middleware.go:206`. -/
def shortField (k : String) (n : Int) : List (Str × Json) := if n = 0 then [] else [(k.toList, intJson n)]

/-- `MetaInfo` (`egress.proto:53-58`) as `jsonpb.Marshaler{}` writes it.
Library code, reached from `cf_auth_middleware.go:206`. -/
def proxyMetaJson (m : WireMeta) : Json :=
  .obj (shortField "count" m.count ++ shortField "expired" m.expired ++ shortField "oldestTimestamp" m.oldest ++
    shortField "newestTimestamp" m.newest)

/-- `MetaResponse` (`egress.proto:49-51`): an empty map is left out.
Library code, reached from `cf_auth_middleware.go:206`. -/
def proxyMetaResponseJson (m : List (Str × WireMeta)) : Json :=
  .obj (if m = [] then [] else [("meta".toList, mapJson proxyMetaJson m)])

/-- The body of the answer. Models `cf_auth_middleware.go:206-209`: with a newline. -/
def proxyMetaText (m : List (Str × WireMeta)) : Str := (proxyMetaResponseJson (sortKeys m)).line

/-- The status or the body with which the proxy answers a request for meta information, if
writing succeeds. Models `cf_auth_middleware.go:184-210`. -/
def proxyMeta (oauth : Str → Option UserCtx) (available : Str → List Str) (md : Option (List (Str × WireMeta)))
    (authToken : Str) : Nat ⊕ Str :=
  match metaHandler oauth available md authToken with
  | .inl status => .inl status
  | .inr m => .inr (proxyMetaText m)

/-- `Meta` by HTTP (`/repo/pkg/client/client.go:242-280`): the requests it makes, and the answer
(`none`: error).  `info` and `ans` are the answers to the two requests, `ans` with its text. -/
def httpMeta (parse : Str → Option Semver) (info : HttpAns Str) (ans : HttpAns Str) :
    List HttpReq × Option (List (Str × WireMeta)) :=
  let req0 : HttpReq := { path := "/api/v1/info".toList }
  match baseApiPath parse info with
  | none => ([req0], none)
  | some base =>
    ([req0, { path := base ++ "/meta".toList }],
     match ans with
     | .failed => none
     | .resp status body => if status ≠ 200 then none else body.bind clientMetaBody)

end LogCache
