import Verif.Model.Promql

/-!
# The CF auth proxy: middleware, CAPI client, UAA client

Models `/repo/internal/auth/cf_auth_middleware.go`, `capi_client.go` and
`uaa_client.go`.  HTTP, JSON, PEM/X.509 parsing and the JWT library are
dependencies: their results are parameters.
-/

namespace LogCache

/-! ## Middleware -/

/-- `Oauth2ClientContext`, `cf_auth_middleware.go:28-32`. -/
structure UserCtx where
  isAdmin : Bool
  token : Str
  expiresAt : Int := 0
deriving DecidableEq, Repr

/-- What a handler does with a request: write a status, or forward `α` to the
wrapped handler `h`. Models `cf_auth_middleware.go:77-212`. -/
inductive Handled (α : Type) where
  | status (code : Nat)
  | forward (req : α)
deriving DecidableEq, Repr

/-- The read handler, `cf_auth_middleware.go:77-105`.  `authToken` is the
Authorization header (empty when absent), `oauth` is `oauth2Reader.Read`, `isAuth`
is `logAuthorizer.IsAuthorized`.  The forwarded request is the requested source
id.  Simplification: the route always binds `sourceID`. -/
def readHandler (oauth : Str → Option UserCtx) (isAuth : Str → Str → Bool)
    (authToken sourceId : Str) : Handled Str :=
  if authToken = [] then .status 404
  else match oauth authToken with
    | none => .status 404
    | some c =>
      if !c.isAdmin then
        if !isAuth sourceId c.token then .status 404 else .forward sourceId
      else .forward sourceId

/-- `authorizeSourceIds`, `cf_auth_middleware.go:217-227`.  `isAuth k id` is the
answer of the `k`-th `IsAuthorized` call of this request (answers may change
while a request is handled); `k` counts the calls made so far. -/
def authorizeIds (isAuth : Nat → Str → Bool) : Nat → List Str → List Str × Nat
  | k, [] => ([], k)
  | k, id :: ids =>
    let r := authorizeIds isAuth (k + 1) ids
    (if isAuth k id then id :: r.1 else r.1, r.2)

/-- `m[k] = v` for the map of related source ids. Models `cf_auth_middleware.go:155-168`. -/
def expSet (m : Expansions) (k : Str) (v : List Str) : Expansions :=
  fun x => if x = k then some v else m x

/-- The loop over the extracted source ids, `cf_auth_middleware.go:155-168`;
`none` is the 404 return. -/
def expandLoop (isAdmin : Bool) (isAuth : Nat → Str → Bool) :
    Nat → List Str → Expansions → Option Expansions
  | _, [], rel => some rel
  | k, id :: ids, rel =>
    let set := (rel id).getD [] ++ [id]
    if !isAdmin then
      let r := authorizeIds isAuth k set
      if r.1 = [] then none else expandLoop isAdmin isAuth r.2 ids (expSet rel id r.1)
    else expandLoop isAdmin isAuth k ids (expSet rel id set)

/-- The query handler, `cf_auth_middleware.go:107-182`.  `parse` is the PromQL
parser; `order` is the order in which `ExtractSourceIds` lists the ids it found;
`related` is `GetRelatedSourceIds` (`none`: nil map).  The forwarded request is the
syntax tree of the modified query. -/
def queryHandler (oauth : Str → Option UserCtx) (isAuth : UserCtx → Nat → Str → Bool)
    (related : List Str → Str → Option Expansions) (order : List Str → List Str)
    (parse : Str → Option PExpr) (authToken query : Str) : Handled PExpr :=
  if authToken = [] then .status 404
  else match parse query with
    | none => .status 400
    | some e =>
      let ids := order (extractSourceIds e)
      if ids = [] then .status 400
      else match oauth authToken with
        | none => .status 404
        | some c =>
          match related ids authToken with
          | none => .status 404
          | some rel =>
            match expandLoop c.isAdmin (isAuth c) 0 ids rel with
            | none => .status 404
            | some ex => .forward (replaceSets ex e)

/-- `onlyAuthorized`, `cf_auth_middleware.go:229-243`. -/
def onlyAuthorized {μ : Type} (available : List Str) (md : List (Str × μ)) (c : UserCtx) :
    List (Str × μ) :=
  if c.isAdmin then md
  else available.foldl (fun acc id =>
    match md.lookup id with
    | some v => mapSet acc id v
    | none => acc) []

/-- The meta handler, `cf_auth_middleware.go:184-210`: a status or the answered
entries.  `md` is the answer of log-cache (`none`: error), `available` is
`AvailableSourceIDs`. -/
def metaHandler {μ : Type} (oauth : Str → Option UserCtx) (available : Str → List Str)
    (md : Option (List (Str × μ))) (authToken : Str) : Nat ⊕ List (Str × μ) :=
  if authToken = [] then .inl 404
  else match oauth authToken with
    | none => .inl 404
    | some c =>
      match md with
      | none => .inl 502
      | some m => .inr (onlyAuthorized (available authToken) m c)

/-! ## CAPI client -/

/-- `authorizedSourceIds`, `capi_client.go:83-87`. -/
structure AuthEntry where
  ids : List Str
  retry : Nat
  expires : Int
deriving DecidableEq, Repr

/-- `tokenCache`, `capi_client.go:24`. -/
abbrev TokenCache := List (Str × AuthEntry)

/-- `MAX_RETRIES`, `capi_client.go:18`. -/
def maxRetries : Nat := 3

/-- The first half of `IsAuthorized`, `capi_client.go:90-112`: the answer, or the
retry count with which the list is fetched. -/
def authLoad (cache : TokenCache) (now : Int) (sourceId token : Str) : Bool ⊕ Nat :=
  match cache.lookup token with
  | none => .inr 0
  | some s =>
    if now < s.expires then
      if sourceId ∈ s.ids then .inl true
      else if s.retry ≥ maxRetries then .inl false
      else .inr (s.retry + 1)
    else .inr 0

/-- The second half of `IsAuthorized`, `capi_client.go:121-127`: store the fetched
list (`ids` is what `AvailableSourceIDs` returned). -/
def authStore (interval : Int) (cache : TokenCache) (now : Int) (token : Str) (ids : List Str)
    (retry : Nat) : TokenCache :=
  mapSet cache token { ids := ids, retry := retry, expires := now + interval }

/-- `IsAuthorized`, `capi_client.go:89-128`, with the two clock readings `now` and
`now'` and the list CAPI would return.  Result: the answer, whether CAPI was
asked, the new cache. -/
def isAuthorized (interval : Int) (cache : TokenCache) (now now' : Int) (sourceId token : Str)
    (capi : List Str) : Bool × Bool × TokenCache :=
  match authLoad cache now sourceId token with
  | .inl b => (b, false, cache)
  | .inr r => (decide (sourceId ∈ capi), true, authStore interval cache now' token capi r)

/-- `Map.Delete`. Library code, reached from `capi_client.go:291`. -/
def cacheDelete (cache : TokenCache) (token : Str) : TokenCache :=
  cache.filter fun p => !decide (p.1 = token)

/-- One round of `pruneTokens`, `capi_client.go:283-297`. -/
def pruneTokens (cache : TokenCache) (now : Int) : TokenCache :=
  cache.filter fun p => !decide (now > p.2.expires)

/-- `resource`, `capi_client.go:205-208`. -/
structure Resource where
  guid : Str
  name : Str := []
deriving DecidableEq, Repr

/-- The parts of `url.URL` the client touches.
Library code, reached from `capi_client.go:210-272`. -/
structure Url where
  scheme : Str
  host : Str
  path : Str
  query : Str := []
deriving DecidableEq, Repr

/-- The outcome of one HTTP request to CAPI, `capi_client.go:231-260`: transport
error, bad status or undecodable body; or a page with its `next` link (`href` is
empty: `none`; unparsable: `some none`). -/
inductive CapiResp where
  | fail
  | page (rs : List Resource) (next : Option (Option Url))
deriving DecidableEq, Repr

/-- `doResourceRequest`, `capi_client.go:230-272`, after the response: an error,
or the resources and the next request's URL. -/
def resourcePage (req : Url) : CapiResp → Option (List Resource × Option Url)
  | .fail => none
  | .page rs none => some (rs, none)
  | .page _ (some none) => none
  | .page rs (some (some u)) => some (rs, some { u with scheme := req.scheme, host := req.host })

/-- `doPaginatedResourceRequest`, `capi_client.go:210-228`, as a relation between
the first URL, the requests made with the answers they got, and the result
(`none`: error).  A loop that never ends is related to no result. -/
inductive Paginated : Url → List (Url × CapiResp) → Option (List Resource) → Prop where
  | err {req resp} : resourcePage req resp = none → Paginated req [(req, resp)] none
  | last {req resp rs} : resourcePage req resp = some (rs, none) → Paginated req [(req, resp)] (some rs)
  | next {req resp rs u tr out} : resourcePage req resp = some (rs, some u) → Paginated u tr out →
      Paginated req ((req, resp) :: tr) (out.map (rs ++ ·))

/-- `AvailableSourceIDs`, `capi_client.go:140-173`, from the two listings (`none`:
error); nil and empty are the same list. -/
def availableIds (apps services : Option (List Resource)) : List Str :=
  match apps with
  | none => []
  | some as => match services with
    | none => []
    | some ss => as.map (·.guid) ++ ss.map (·.guid)

/-- `GetRelatedSourceIds`, `capi_client.go:175-203`, from the listing of the apps
with those names (`none`: error).  Never nil. -/
def relatedIds (appNames : List Str) (apps : Option (List Resource)) : Expansions :=
  if appNames = [] then fun _ => none
  else match apps with
    | none => fun _ => none
    | some rs => rs.foldl (fun m r => expSet m r.name ((m r.name).getD [] ++ [r.guid])) fun _ => none

/-! ## UAA client -/

/-- The mutable state of `UAAClient`, `uaa_client.go:32-39`; `κ` is an RSA key. -/
structure Uaa (κ : Type) where
  keys : List (Str × κ) := []
  lastQuery : Int := 0

/-- The throttle check of `RefreshTokenKeys`, `uaa_client.go:79-88`. -/
def refreshAllowed (minInterval lastQuery now : Int) : Bool := !decide (now < lastQuery + minInterval)

/-- The loop over the token keys, `uaa_client.go:121-150`: each key id with the RSA
key its value contains (`none`: empty, not PEM, not a key, or not RSA).  `cur` is
`currentKeyIds`.  Result: keys, remaining `cur`, and whether the loop ran to its end. -/
def refreshLoop {κ : Type} : List (Str × Option κ) → List (Str × κ) → List Str →
    List (Str × κ) × List Str × Bool
  | [], keys, cur => (keys, cur, true)
  | (_, none) :: _, keys, cur => (keys, cur, false)
  | (kid, some k) :: rest, keys, cur =>
    refreshLoop rest (mapSet keys kid k) (cur.filter fun x => !decide (x = kid))

/-- `RefreshTokenKeys` after the throttle, `uaa_client.go:98-156`; `resp = none` is a
transport, status or decoding error.  Result: the keys and whether it succeeded. -/
def refreshKeys {κ : Type} (keys : List (Str × κ)) (resp : Option (List (Str × Option κ))) :
    List (Str × κ) × Bool :=
  match resp with
  | none => (keys, false)
  | some tks =>
    let r := refreshLoop tks keys (keys.map Prod.fst)
    if r.2.2 then (r.1.filter fun p => !decide (p.1 ∈ r.2.1), true) else (r.1, false)

/-- `RefreshTokenKeys`, `uaa_client.go:78-157`, run alone: throttled calls return
nil and change nothing.  `now`, `now'` are its two clock readings.  Result: new
state and whether UAA was asked. -/
def refreshTokenKeys {κ : Type} (minInterval : Int) (s : Uaa κ) (now now' : Int)
    (resp : Option (List (Str × Option κ))) : Uaa κ × Bool :=
  if refreshAllowed minInterval s.lastQuery now then
    ({ keys := (refreshKeys s.keys resp).1, lastQuery := now' }, true)
  else (s, false)

/-- The JWT header fields the key callback looks at (`none`: absent or not a
string). Models `uaa_client.go:180-193`. -/
structure JwtHeader where
  alg : Option Str
  kid : Option Str
deriving DecidableEq, Repr

/-- `"RS256"`. Models `uaa_client.go:181`. -/
def rs256 : Str := "RS256".toList

/-- Why `Read` fails (`uaa_client.go:175-217`). -/
inductive TokenError where
  | missing | undecodable | algorithm | unknownKey | badPayload | expired
deriving DecidableEq, Repr

/-- `decodedToken`, `uaa_client.go:274-290`. -/
structure TokenPayload where
  scope : List Str
  exp : Int
deriving DecidableEq, Repr

/-- `loadOrFetchPublicKey`, `uaa_client.go:233-247`; `refresh` is the effect of the
`RefreshTokenKeys` call it may make. -/
def loadOrFetch {κ : Type} (refresh : Uaa κ → Uaa κ) (s : Uaa κ) (kid : Str) : Option κ × Uaa κ :=
  match s.keys.lookup kid with
  | some k => (some k, s)
  | none => let s' := refresh s
    (s'.keys.lookup kid, s')

/-- `Read`, `uaa_client.go:175-231`.  `header` is the decoded JWT header (`none`:
not a token the library can decode; it may also refuse a token without a string as
algorithm before it asks for the key, which is `none` as well), `verify k` is the payload if the signature of
the token verifies with `k`, `payload` is `decodeToken`.  `none` is a panic (a
failed type assertion).  The background refresh after a bad signature is not part
of the answer. -/
def readToken {κ : Type} (refresh : Uaa κ → Uaa κ) (header : Str → Option JwtHeader)
    (verify : κ → Str → Option Str) (payload : Str → Option TokenPayload) (now : Int)
    (trim : Str → Str) (s : Uaa κ) (token : Str) : Option (Except TokenError UserCtx × Uaa κ) :=
  if token = [] then some (.error .missing, s)
  else match header (trim token) with
    | none => some (.error .undecodable, s)
    | some h =>
      match h.alg with
      | none => none
      | some alg =>
        if alg ≠ rs256 then some (.error .algorithm, s)
        else match h.kid with
          | none => none
          | some kid =>
            let r := loadOrFetch refresh s kid
            match r.1 with
            | none => some (.error .unknownKey, r.2)
            | some k =>
              match verify k (trim token) with
              | none => some (.error .undecodable, r.2)
              | some p =>
                match payload p with
                | none => some (.error .badPayload, r.2)
                | some d =>
                  if now > d.exp then some (.error .expired, r.2)
                  else some (.ok ⟨d.scope.any fun x =>
                      x = "doppler.firehose".toList || x = "logs.admin".toList, token, d.exp⟩, r.2)

/-- ASCII white space, `\s` in RE2. Models `uaa_client.go:249`. -/
def isSpaceRe (c : Char) : Bool := c = ' ' || c = '\t' || c = '\n' || c = '\x0c' || c = '\r'

/-- `trimBearer`, `uaa_client.go:249-253`: remove a leading ``(?i)^bearer\s+``. -/
def trimBearer (s : Str) : Str :=
  if (s.take 6).map Char.toLower = "bearer".toList ∧ ((s.drop 6).head?.any isSpaceRe) then
    (s.drop 6).dropWhile isSpaceRe
  else s

end LogCache
