import Verif.Model.Config
/-!
# Where the clients send their requests

How the client library (`/repo/pkg/client/client.go`, `/repo/pkg/client/oauth2_http_client.go`)
and the auth proxy's clients of CAPI and UAA (`/repo/internal/auth/capi_client.go`,
`/repo/internal/auth/uaa_client.go`) make the URLs of their requests from the configured
addresses. The addresses are those that `urlParse` knows: without user, query and fragment.
-/
namespace LogCache

/-- Where `http.Client` sends a request with this URL: scheme, host and path. `none`: it refuses
other schemes than two and URLs without a host. `URL.String` and the parse in `http.NewRequest`
in between keep all three; they put a slash before a path that has none.
Library code, reached from `client.go:130-136`, `capi_client.go:302`, `uaa_client.go:91-98`,
`oauth2_http_client.go:177`. -/
def httpSends (u : GoUrl) : Option (Str × Str × Str) :=
  if (u.scheme = "http".toList ∨ u.scheme = "https".toList) ∧ u.host ≠ [] then
    some (u.scheme, u.host, if u.path.head? = some '/' then u.path else '/' :: u.path)
  else none

/-- A request of the client library for one of its paths (client.go:110-136, 247-265, 309-322,
349-362, 438-460, 513-535, 578-600, 646-668). -/
def clientSends (addr path : Str) : Option (Str × Str × Str) :=
  (urlParse addr).bind fun u => httpSends { u with path := path }

/-- A request of the CAPI client for one of its listings (capi_client.go:142, 157, 180). The
check of the address at the start (capi_client.go:41-44) refuses only what is refused here too. -/
def capiSends (addr path : Str) : Option (Str × Str × Str) :=
  (urlParse (addr ++ path)).bind httpSends

/-- A request of the UAA client for the keys (uaa_client.go:48-53, 91-98). -/
def uaaSends (addr : Str) : Option (Str × Str × Str) :=
  (urlParse addr).bind fun u => httpSends { u with path := "token_keys".toList }

/-- A request for a token (oauth2_http_client.go:130-138, 162-170). -/
def tokenSends (addr : Str) : Option (Str × Str × Str) :=
  (urlParse addr).bind fun u => httpSends { u with path := "/oauth/token".toList }

/-- A meta request of the auth proxy's own client (`/repo/cmd/cf-auth-proxy/main.go:53-60, 81-84`,
client.go:309-314, 257). -/
def proxyMetaSends (addr path : Str) : Option (Str × Str × Str) :=
  (urlParse addr).bind fun u => clientSends (urlString { u with scheme := "https".toList }) path

end LogCache
