import Verif.Model.Client
import Verif.Model.Url
import Verif.Model.EnvelopeJson
/-!
# How the client library asks for a token

Models `/repo/pkg/client/oauth2_http_client.go:16-76, 112-200`: the options of an
`Oauth2HTTPClient`, the requests it sends to the Oauth2 server and how it reads the answers.
`Model/Client.lean` models what it does with the token. HTTP clients are opaque names.
-/
namespace LogCache

/-- `Oauth2HTTPClient` without its token (oauth2_http_client.go:16-24); `http = none` is the
library's own HTTP client (:36-38). -/
structure Oauth2Cfg where
  addr : Str
  client : Str
  secret : Str
  username : Str := []
  password : Str := []
  http : Option Str := none
deriving DecidableEq

/-- `Oauth2Option` (oauth2_http_client.go:48-67). -/
inductive Oauth2Opt where
  | httpClient (name : Str)
  | user (username password : Str)

/-- What an option does (oauth2_http_client.go:55-67). -/
def Oauth2Opt.apply (c : Oauth2Cfg) : Oauth2Opt → Oauth2Cfg
  | .httpClient name => { c with http := some name }
  | .user username password => { c with username := username, password := password }

/-- `NewOauth2HTTPClient` (oauth2_http_client.go:30-46). -/
def newOauth2 (addr client secret : Str) (opts : List Oauth2Opt) : Oauth2Cfg :=
  opts.foldl Oauth2Opt.apply { addr := addr, client := client, secret := secret }

/-- A request for a token, to the host of the configured address
(oauth2_http_client.go:130-144, 162-173); `user` are the user and the password of its URL. -/
structure TokenReq where
  method : Str
  path : Str
  contentType : Str
  user : Option (Str × Str)
  body : List UInt8
deriving DecidableEq

/-- The request of `getClientToken` (oauth2_http_client.go:126-144). -/
def clientTokenReq (c : Oauth2Cfg) : TokenReq :=
  let v := Values.set [] "client_id".toList c.client
  let v := v.set "grant_type".toList "client_credentials".toList
  { method := "POST".toList, path := "/oauth/token".toList,
    contentType := "application/x-www-form-urlencoded".toList,
    user := some (c.client, c.secret), body := encodeQuery (rawValues v) }

/-- The request of `getUserToken` (oauth2_http_client.go:155-173). Simplification: an address
that has a user of its own keeps it. -/
def userTokenReq (c : Oauth2Cfg) : TokenReq :=
  let v := Values.set [] "client_id".toList c.client
  let v := v.set "client_secret".toList c.secret
  let v := v.set "grant_type".toList "password".toList
  let v := v.set "username".toList c.username
  let v := v.set "password".toList c.password
  { method := "POST".toList, path := "/oauth/token".toList,
    contentType := "application/x-www-form-urlencoded".toList,
    user := none, body := encodeQuery (rawValues v) }

/-- `getToken` (oauth2_http_client.go:111-116): which request is sent. -/
def tokenReq (c : Oauth2Cfg) : TokenReq := if c.username = [] then clientTokenReq c else userTokenReq c

/-- The Authorization header that `http.Client` adds to a request whose URL has a user
(`net/http`, `basicAuth`). Library code, reached from `oauth2_http_client.go:144, 177`. -/
def TokenReq.authorization (r : TokenReq) : Option Str :=
  r.user.map fun p => "Basic ".toList ++ b64Encode (utf8Bytes (p.1 ++ ':' :: p.2))

/-- `doTokenRequest` (oauth2_http_client.go:176-200): the two fields of the answer, `none` is an
error. The body is its text. -/
def tokenAnswer : HttpAns Str → Option (Str × Str)
  | .failed => none
  | .resp status body =>
    if status ≠ 200 then none
    else body.bind fun t =>
      match decodeField "token_type" t, decodeField "access_token" t with
      | some ty, some acc => some (ty, acc)
      | _, _ => none

end LogCache
