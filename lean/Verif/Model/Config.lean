import Verif.Model.Float
import Verif.Model.Proxy
import Verif.Model.Syslog
/-!
# Settings of the seven commands

`cmd/*/config.go` read their settings from environment variables with
`envstruct.Load` (`code.cloudfoundry.org/go-envstruct`, a dependency that is not in the
sandbox: modelled from recollection), and `cmd/*/main.go` hand them on.
-/
namespace LogCache

/-! ## `time.ParseDuration` (standard library, from recollection, Go 1.17 and later) -/

/-- `unitMap`: the number of nanoseconds of a unit; the two kinds of `µ` are U+00B5 and
U+03BC.
Library code, reached from `cmd/log-cache/config.go:54` (and the same call in the other commands). -/
def durUnits : List (Str × Nat) :=
  [("ns".toList, 1), ("us".toList, 1000), ("µs".toList, 1000), ("μs".toList, 1000),
   ("ms".toList, 1000000), ("s".toList, 1000000000), ("m".toList, 60000000000),
   ("h".toList, 3600000000000)]

/-- `leadingInt`; `none` is its error.
Library code, reached from `cmd/log-cache/config.go:54` (and the same call in the other commands). -/
def leadingInt : Nat → Str → Option (Nat × Str)
  | x, [] => some (x, [])
  | x, c :: cs => match digitVal c with
    | none => some (x, c :: cs)
    | some d =>
      if x > 2 ^ 63 / 10 then none
      else if x * 10 + d > 2 ^ 63 then none
      else leadingInt (x * 10 + d) cs

/-- Ten as a float64.
Library code, reached from `cmd/log-cache/config.go:54` (and the same call in the other commands). -/
def f64Ten : F64 := .fin false 10 0

/-- `leadingFraction`: the digits it keeps as a number, their power of ten as a float64, and
the rest of the text.
Library code, reached from `cmd/log-cache/config.go:54` (and the same call in the other commands). -/
def leadingFraction : Nat → F64 → Bool → Str → Nat × F64 × Str
  | x, scale, _, [] => (x, scale, [])
  | x, scale, over, c :: cs => match digitVal c with
    | none => (x, scale, c :: cs)
    | some d =>
      if over then leadingFraction x scale true cs
      else if x > (2 ^ 63 - 1) / 10 then leadingFraction x scale true cs
      else if x * 10 + d > 2 ^ 63 then leadingFraction x scale true cs
      else leadingFraction (x * 10 + d) (scale.mul f64Ten) false cs

/-- `uint64(float64(f) * (float64(unit) / scale))`.
Library code, reached from `cmd/log-cache/config.go:54` (and the same call in the other commands). -/
def fracNanos (f unit : Nat) (scale : F64) : Nat :=
  ((f64OfInt f).mul ((f64OfInt unit).div scale)).toInt64.toNat

/-- The optional fraction of a number: its digits, their power of ten, the rest and whether
there were any.
Library code, reached from `cmd/log-cache/config.go:54` (and the same call in the other commands). -/
def optFraction : Str → Nat × F64 × Str × Bool
  | '.' :: r =>
    let (f, scale, r') := leadingFraction 0 (.fin false 1 0) false r
    (f, scale, r', decide (r'.length ≠ r.length))
  | s => (0, .fin false 1 0, s, false)

/-- Whether a unit ends before this character.
Library code, reached from `cmd/log-cache/config.go:54` (and the same call in the other commands). -/
def endsUnit (c : Char) : Bool := c = '.' || isDecimal c

/-- One round of the loop of `ParseDuration`: the nanoseconds of one number with its unit,
and the rest of the text.
Library code, reached from `cmd/log-cache/config.go:54` (and the same call in the other commands). -/
def durTerm (s : Str) : Option (Nat × Str) :=
  if !(endsUnit (s.headD 'x')) then none
  else match leadingInt 0 s with
    | none => none
    | some (v, s1) =>
      let (f, scale, s2, post) := optFraction s1
      if s1.length = s.length ∧ post = false then none
      else
        let u := s2.takeWhile (fun c => !endsUnit c)
        match durUnits.lookup u with
        | none => none
        | some unit =>
          if v > 2 ^ 63 / unit then none
          else
            let w := v * unit + (if f > 0 then fracNanos f unit scale else 0)
            if w > 2 ^ 63 then none else some (w, s2.dropWhile (fun c => !endsUnit c))

/-- The loop of `ParseDuration`; the sum is a uint64. Every round takes at least one
character, so that `fuel` can be the length of the text.
Library code, reached from `cmd/log-cache/config.go:54` (and the same call in the other commands). -/
def durLoop : Nat → Nat → Str → Option Nat
  | _, d, [] => some d
  | 0, _, _ :: _ => none
  | fuel + 1, d, s => match durTerm s with
    | none => none
    | some (v, r) => if (d + v) % 2 ^ 64 > 2 ^ 63 then none else durLoop fuel ((d + v) % 2 ^ 64) r

/-- `time.ParseDuration`, in nanoseconds.
Library code, reached from `cmd/log-cache/config.go:54` (and the same call in the other commands). -/
def goDuration (s : Str) : Option Int :=
  let (neg, s) : Bool × Str := match s with
    | '-' :: r => (true, r)
    | '+' :: r => (false, r)
    | s => (false, s)
  if s = ['0'] then some 0
  else if s = [] then none
  else match durLoop s.length 0 s with
    | none => none
    | some d => if neg then some (-(d : Int)) else if d > 2 ^ 63 - 1 then none else some d

/-! ## `envstruct.Load` (dependency, from recollection) -/

/-- The Go types of the settings. As at `cmd/log-cache/config.go:11-52`. -/
inductive SettingKind where
  | text | bool | int | uint | duration | list
deriving DecidableEq, Repr

/-- Values of settings. As at `cmd/log-cache/config.go:11-52`. -/
inductive SettingVal where
  | text (s : Str)
  | bool (b : Bool)
  | int (n : Int)
  | uint (n : Nat)
  | duration (ns : Int)
  | list (items : List Str)
deriving DecidableEq, Repr

/-- A field of a `Config` with its `env` tag and its value before `Load`.
As at `cmd/log-cache/config.go:11-52`. -/
structure Setting where
  name : Str
  kind : SettingKind
  required : Bool := false
  init : SettingVal
deriving DecidableEq, Repr

/-- `extractSliceInputs`: pieces between commas without the white space around them.
Library code, reached from `cmd/log-cache/config.go:54` (and the same call in the other commands). -/
def listItems (s : Str) : List Str := (splitOn ',' s).map trimSpace

/-- `setField`.
Library code, reached from `cmd/log-cache/config.go:54` (and the same call in the other commands). -/
def readSetting (k : SettingKind) (s : Str) : Option SettingVal :=
  match k with
  | .text => some (.text s)
  | .bool => some (.bool (decide (s = "true".toList ∨ s = "1".toList)))
  | .int => (parseInt64 s).map .int
  | .uint => (parseUint64 s).map .uint
  | .duration => (goDuration s).map .duration
  | .list => some (.list (listItems s))

/-- One field of `Load`: `env` is `os.Getenv`, which is empty for a variable that is not
set.
Library code, reached from `cmd/log-cache/config.go:54` (and the same call in the other commands). -/
def loadSetting (env : Str → Str) (s : Setting) : Option SettingVal :=
  if env s.name = [] then (if s.required then none else some s.init)
  else readSetting s.kind (env s.name)

/-- `envstruct.Load` for the fields of a `Config`, nested ones included; `none` is an
error, on which all commands exit.
Library code, reached from `cmd/log-cache/config.go:54` (and the same call in the other commands). -/
def loadSettings (env : Str → Str) : List Setting → Option (List SettingVal)
  | [] => some []
  | s :: ss => match loadSetting env s, loadSettings env ss with
    | some v, some vs => some (v :: vs)
    | _, _ => none

/-! ### The tables -/

/-- A required text. The `required` tag, `cmd/log-cache/config.go:11-52`. -/
def needText (name : String) (init : String := "") : Setting :=
  { name := name.toList, kind := .text, required := true, init := .text init.toList }

/-- A text that may be missing. A tag without `required`, `cmd/log-cache/config.go:11-52`. -/
def optText (name : String) (init : String := "") : Setting :=
  { name := name.toList, kind := .text, init := .text init.toList }

/-- `tls.TLS`, `internal/tls/tls.go:13-17`. -/
def tlsSettings : List Setting := [needText "CA_PATH", needText "CERT_PATH", needText "KEY_PATH"]

/-- `cmd/log-cache/config.go:11-52`. -/
def nodeSettings : List Setting :=
  [needText "ADDR" ":8080",
   { name := "HEALTH_PORT".toList, kind := .int, init := .int 6060 },
   { name := "QUERY_TIMEOUT".toList, kind := .duration, init := .duration 10000000000 },
   { name := "MEMORY_LIMIT_PERCENT".toList, kind := .uint, init := .uint 50 },
   { name := "MAX_PER_SOURCE".toList, kind := .int, init := .int 100000 },
   { name := "NODE_INDEX".toList, kind := .int, init := .int 0 },
   { name := "NODE_ADDRS".toList, kind := .list, init := .list [] }] ++ tlsSettings

/-- `cmd/scheduler/config.go:11-35`. -/
def schedulerSettings : List Setting :=
  [{ name := "HEALTH_PORT".toList, kind := .int, init := .int 6064 },
   { name := "INTERVAL".toList, kind := .duration, init := .duration 60000000000 },
   { name := "COUNT".toList, kind := .int, init := .int 100 },
   { name := "REPLICATION_FACTOR".toList, kind := .int, init := .int 1 },
   { name := "NODE_ADDRS".toList, kind := .list, init := .list [] },
   optText "LEADER_ELECTION_ENDPOINT"] ++ tlsSettings

/-- `cmd/gateway/config.go:11-28`; the version is overwritten after `Load`. -/
def gatewaySettings : List Setting :=
  [needText "ADDR" ":8081", needText "LOG_CACHE_ADDR" "localhost:8080",
   { name := "HEALTH_PORT".toList, kind := .int, init := .int 6063 },
   needText "PROXY_CERT_PATH", needText "PROXY_KEY_PATH"] ++ tlsSettings

/-- `cmd/cf-auth-proxy/config.go:9-48`. -/
def authProxySettings : List Setting :=
  [needText "LOG_CACHE_GATEWAY_ADDR" "localhost:8081", needText "ADDR" ":8083",
   optText "INTERNAL_IP" "0.0.0.0",
   { name := "HEALTH_PORT".toList, kind := .int, init := .int 6065 },
   needText "EXTERNAL_CERT", needText "EXTERNAL_KEY",
   { name := "SKIP_CERT_VERIFY".toList, kind := .bool, init := .bool false },
   needText "PROXY_CA_PATH", optText "SECURITY_EVENT_LOG",
   { name := "TOKEN_PRUNING_INTERVAL".toList, kind := .duration, init := .duration 60000000000 },
   { name := "CACHE_EXPIRATION_INTERVAL".toList, kind := .duration, init := .duration 60000000000 },
   needText "CAPI_ADDR", needText "CAPI_CA_PATH", needText "CAPI_COMMON_NAME",
   needText "UAA_CLIENT_ID", needText "UAA_CLIENT_SECRET", needText "UAA_ADDR", needText "UAA_CA_PATH"]

/-- `cmd/nozzle/config.go:9-35`. -/
def nozzleSettings : List Setting :=
  [needText "LOGS_PROVIDER_ADDR", needText "LOGS_PROVIDER_CA_FILE_PATH",
   needText "LOGS_PROVIDER_CERT_FILE_PATH", needText "LOGS_PROVIDER_KEY_FILE_PATH",
   needText "LOG_CACHE_ADDR" ":8080",
   { name := "HEALTH_PORT".toList, kind := .int, init := .int 6061 },
   needText "SHARD_ID" "log-cache",
   { name := "SELECTORS".toList, kind := .list, required := true,
     init := .list ["log".toList, "gauge".toList, "counter".toList, "timer".toList, "event".toList] }] ++
  tlsSettings

/-- `cmd/syslog-server/config.go:10-29`. -/
def syslogSettings : List Setting :=
  [needText "LOG_CACHE_ADDR" ":8080",
   { name := "SYSLOG_PORT".toList, kind := .int, required := true, init := .int 8888 },
   { name := "HEALTH_PORT".toList, kind := .int, init := .int 6061 }] ++ tlsSettings ++
  [needText "SYSLOG_TLS_CERT_PATH", needText "SYSLOG_TLS_KEY_PATH",
   { name := "SYSLOG_IDLE_TIMEOUT".toList, kind := .duration, init := .duration 120000000000 }]

/-- `cmd/blackbox/config.go:10-31`. -/
def blackboxSettings : List Setting :=
  [{ name := "EMISSION_INTERVAL".toList, kind := .duration, required := true, init := .duration 0 },
   { name := "SAMPLE_INTERVAL".toList, kind := .duration, required := true, init := .duration 0 },
   { name := "WINDOW_INTERVAL".toList, kind := .duration, required := true, init := .duration 0 },
   { name := "WINDOW_LAG".toList, kind := .duration, required := true, init := .duration 0 },
   needText "SOURCE_ID",
   { name := "CF_BLACKBOX_ENABLED".toList, kind := .bool, init := .bool false },
   optText "DATA_SOURCE_HTTP_ADDR", optText "UAA_ADDR", optText "CLIENT_ID", optText "CLIENT_SECRET",
   { name := "SKIP_TLS_VERIFY".toList, kind := .bool, init := .bool false },
   optText "DATA_SOURCE_GRPC_ADDR" "localhost:8080"] ++ tlsSettings

/-! ## What the intervals are used for -/

/-- `time.NewTicker(d)`: the times of the first `n` ticks, counted from its creation;
`none` is its panic. Ticks that find the previous one unread are dropped by Go: here
the reader is fast enough.
Library code, reached from `cmd/blackbox/main.go:54`, `blackbox.go:91`, `scheduler.go:143-157`. -/
def newTicker (d : Int) (n : Nat) : Option (List Int) :=
  if d ≤ 0 then none else some ((List.range n).map fun i : Nat => d * ((i : Int) + 1))

/-- `time.Tick(d)`: like `NewTicker`, but a nil channel, on which nothing ever arrives,
for `d ≤ 0`. Library code, reached from `capi_client.go:284`. -/
def timeTick (d : Int) (n : Nat) : List Int :=
  if d ≤ 0 then [] else (List.range n).map fun i : Nat => d * ((i : Int) + 1)

/-- When the loop of `Scheduler.Start` (`internal/scheduler/scheduler.go:143-157`) runs: at
once, and then with the ticks (`n` of them). -/
def schedulerTerms (interval : Int) (n : Nat) : List Int := 0 :: timeTick interval n

/-- When `pruneTokens` (`internal/auth/capi_client.go:283-297`) removes outdated tokens. -/
def tokenPrunes (interval : Int) (n : Nat) : List Int := timeTick interval n

/-- When the blackbox queries (`cmd/blackbox/main.go:54-83`) and when it emits
(`internal/blackbox/blackbox.go:86-102`); `none`: the process dies. -/
def blackboxTicks (sample emission : Int) (n : Nat) : Option (List Int × List Int) :=
  match newTicker sample n, newTicker emission n with
  | some a, some b => some (a, b)
  | _, _ => none

/-! ## The address of the gateway -/

/-- `url.URL` without user, query and fragment.
Library code, reached from `cmd/cf-auth-proxy/main.go:53-60`, `cf_auth_proxy.go:33`. -/
structure GoUrl where
  scheme : Str := []
  opaq : Str := []
  host : Str := []
  path : Str := []
deriving DecidableEq, Repr

/-- ASCII letters. Library code, reached from `cmd/cf-auth-proxy/main.go:53`. -/
def asciiLetter (c : Char) : Bool := ('a' ≤ c && c ≤ 'z') || ('A' ≤ c && c ≤ 'Z')

/-- `getScheme` of `net/url` from position `i` on (`first`: is it 0). `none`: error;
otherwise the scheme, if the text has one, and the rest. `all` is the whole text and
`seen` what was read of it. Library code, reached from `cmd/cf-auth-proxy/main.go:53`. -/
def urlScheme (all : Str) : Bool → Str → Str → Option (Str × Str)
  | _, _, [] => some ([], all)
  | first, seen, c :: cs =>
    if asciiLetter c then urlScheme all false (seen ++ [c]) cs
    else if isDecimal c || c = '+' || c = '-' || c = '.' then
      (if first then some ([], all) else urlScheme all false (seen ++ [c]) cs)
    else if c = ':' then (if first then none else some (seen, cs))
    else some ([], all)

/-- `validOptionalPort` for the last colon of a host.
Library code, reached from `cmd/cf-auth-proxy/main.go:53`. -/
def portOk (host : Str) : Bool :=
  match (host.reverse.takeWhile (· ≠ ':')).all isDecimal, host.contains ':' with
  | _, false => true
  | ok, true => ok

/-- `url.Parse`, for texts of letters, digits and `. - _ : /` only (other characters bring
escapes, user names, queries and fragments, which are not modelled).
Library code, reached from `cmd/cf-auth-proxy/main.go:53`, `cf_auth_proxy.go:33`. -/
def urlParse (s : Str) : Option GoUrl :=
  match urlScheme s true [] s with
  | none => none
  | some (scheme, rest) =>
    let scheme := scheme.map lowerChar
    if !("/".toList.isPrefixOf rest) ∧ scheme ≠ [] then some { scheme := scheme, opaq := rest }
    else if !("/".toList.isPrefixOf rest) ∧ (rest.takeWhile (· ≠ '/')).contains ':' then none
    else if "//".toList.isPrefixOf rest ∧ (scheme ≠ [] ∨ !("///".toList.isPrefixOf rest)) then
      let host := (rest.drop 2).takeWhile (· ≠ '/')
      if portOk host then
        some { scheme := scheme, host := host, path := (rest.drop 2).dropWhile (· ≠ '/') }
      else none
    else some { scheme := scheme, path := rest }

/-- `URL.String` for a URL with a scheme.
Library code, reached from `cmd/cf-auth-proxy/main.go:95`. -/
def urlString (u : GoUrl) : Str :=
  u.scheme ++ ':' :: (if u.opaq ≠ [] then u.opaq
    else (if u.host ≠ [] ∨ u.path ≠ [] then "//".toList else []) ++ u.host ++
      (if u.path ≠ [] ∧ u.path.head? ≠ some '/' ∧ u.host ≠ [] then ['/'] else []) ++ u.path)

/-- `cmd/cf-auth-proxy/main.go:53-60` and `NewCFAuthProxy`
(`internal/cfauthproxy/cf_auth_proxy.go:32-36`): the target of the reverse proxy; `none`:
the process exits. -/
def proxyTarget (addr : Str) : Option GoUrl :=
  match urlParse addr with
  | none => none
  | some u => urlParse (urlString { u with scheme := "https".toList })

/-- `singleJoiningSlash` of `net/http/httputil`.
Library code, reached from `cf_auth_proxy.go:114`. -/
def joinSlash (a b : Str) : Str :=
  if a.getLast? = some '/' ∧ b.head? = some '/' then a ++ b.drop 1
  else if a.getLast? ≠ some '/' ∧ b.head? ≠ some '/' then a ++ '/' :: b
  else a ++ b

/-- `httputil.NewSingleHostReverseProxy` (`cf_auth_proxy.go:113-117`): where a request for
`path` goes: scheme, host and path. The HTTP client refuses URLs without a host (`none`),
which the proxy answers with 502. -/
def proxySends (target : GoUrl) (path : Str) : Option (Str × Str × Str) :=
  if target.host = [] then none
  else some (target.scheme, target.host, joinSlash target.path path)

/-! ## The index of a node -/

/-- The number of nodes: without addresses, the node's own is the only one
(`internal/cache/log_cache.go:73-75`). -/
def nodeCount (addrs : List Str) : Nat := if addrs = [] then 1 else addrs.length

/-- `setupRouting` (`log_cache.go:194-228`) for the index of the settings, any integer, when
no dial fails (C83): the client slices and the local index. -/
def setupNode (index : Int) (n : Nat) : List Nat × Nat :=
  if index < 0 then setupClients n (fun _ => true) n 0
  else setupClients index.toNat (fun _ => true) n 0

/-- A request marked as local only that arrives at node `j` puts its envelopes into the
store of node `k`. Node `j` hands it to the client at its local index
(`internal/routing/ingress_reverse_proxy.go:42-44`). That is its store if the index is its
own (`log_cache.go:219-227`), and otherwise the batched client of another address, which
sends it on, marked as local only (`batched_ingress_client.go:74-89`). -/
inductive LocalLands (index : Nat → Int) (n : Nat) : Nat → Nat → Prop
  | here {j : Nat} : ((setupNode (index j) n).2 : Int) = index j → LocalLands index n j j
  | on {j k : Nat} : ((setupNode (index j) n).2 : Int) ≠ index j →
      LocalLands index n (setupNode (index j) n).2 k → LocalLands index n j k

/-- An envelope sent to node `j` by a client, of a source that belongs to the clients
`owners` of that node's table, is put into the store of node `k`
(`ingress_reverse_proxy.go:46-67`). -/
def EnvelopeLands (index : Nat → Int) (n : Nat) (owners : List Nat) (j k : Nat) : Prop :=
  ∃ i ∈ owners, i < n ∧ if (i : Int) = index j then k = j else LocalLands index n i k

/-! ## Leadership of the scheduler -/

/-- An answer of the leadership endpoint: `none` is a connection error.
Models what `cmd/scheduler/main.go:40` gets. -/
structure LeaderAnswer where
  status : Nat
  hasBody : Bool

/-- The function given to `WithSchedulerLeadership` (`cmd/scheduler/main.go:38-48`).
`limit` is the number of connections the process may have open; `kept` counts those that
earlier calls left behind: the body of an answer is never read or closed, so that the HTTP
client cannot use its connection again or close it (standard library; answers without a
body free it at once). Without a free connection the call fails. -/
def askLeader (limit kept : Nat) (a : Option LeaderAnswer) : Bool × Nat :=
  if kept < limit then
    match a with
    | none => (false, kept)
    | some r => (decide (r.status = 200), if r.hasBody then kept + 1 else kept)
  else (false, kept)

/-- A sequence of calls. Models `cmd/scheduler/main.go:38-48`. -/
def askLeaders (limit : Nat) : Nat → List (Option LeaderAnswer) → List Bool
  | _, [] => []
  | kept, a :: as =>
    let (b, kept') := askLeader limit kept a
    b :: askLeaders limit kept' as

end LogCache
