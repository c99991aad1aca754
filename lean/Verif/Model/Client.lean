import Verif.Model.Num
import Verif.Model.Reader
import Verif.Model.Routing
/-!
# The client library: `/repo/pkg/client/client.go` and
# `/repo/pkg/client/oauth2_http_client.go`

URL escaping, JSON decoding and the transports are dependencies: a request is its
decoded path and parameters, an answer its status and decoded body.
-/
namespace LogCache

/-! ## Parameters -/

/-- `url.Values`. Library code, reached from `client.go:121-128, 199-239`. -/
abbrev Values := List (Str × List Str)

/-- `Values.Set`. Library code, reached from `client.go:161-197`. -/
def Values.set (q : Values) (k v : Str) : Values := mapSet q k [v]

/-- `Values.Add`. Library code, reached from `client.go:161-197`. -/
def Values.add (q : Values) (k v : Str) : Values := mapSet q k ((List.lookup k q).getD [] ++ [v])

/-- The digit of a number below ten. Library code, reached from `client.go:122, 163, 171`. -/
def fmtDigit (n : Nat) : Char := Char.ofNat ('0'.toNat + n)

/-- The loop of `strconv.FormatInt` in base 10: digits from the right.
Library code, reached from `client.go:122, 163, 171`. -/
def fmtNat (n : Nat) (acc : Str) : Str :=
  if n < 10 then fmtDigit n :: acc else fmtNat (n / 10) (fmtDigit (n % 10) :: acc)
termination_by n

/-- `strconv.FormatInt(n, 10)`, `strconv.Itoa`.
Library code, reached from `client.go:122, 163, 171`. -/
def formatInt (n : Int) : Str :=
  if n < 0 then '-' :: fmtNat n.natAbs [] else fmtNat n.natAbs []

/-- `EnvelopeType.String` (`/repo/pkg/rpc/logcache_v1/egress.pb.go:56-58`): the name,
or the number of an unknown type (`proto.EnumName`). -/
def etypeString : EType → Str
  | .any => "ANY".toList
  | .log => "LOG".toList
  | .counter => "COUNTER".toList
  | .gauge => "GAUGE".toList
  | .timer => "TIMER".toList
  | .event => "EVENT".toList
  | .other n => formatInt n

/-- `EnvelopeType_value[s]` (egress.pb.go:47-54) with Go's `ok`. -/
def etypeValue (s : Str) : Option EType :=
  if s = "ANY".toList then some .any
  else if s = "LOG".toList then some .log
  else if s = "COUNTER".toList then some .counter
  else if s = "GAUGE".toList then some .gauge
  else if s = "TIMER".toList then some .timer
  else if s = "EVENT".toList then some .event
  else none

/-- The read options (client.go:154-197). -/
inductive ReadOpt where
  | endTime (t : Int)
  | limit (n : Int)
  | types (ts : List EType)
  | descending
  | nameFilter (s : Str)

/-- Applying an option (client.go:161-197). -/
def ReadOpt.apply (q : Values) : ReadOpt → Values
  | .endTime t => q.set "end_time".toList (formatInt t)
  | .limit n => q.set "limit".toList (formatInt n)
  | .types ts => ts.foldl (fun q t => q.add "envelope_types".toList (etypeString t)) q
  | .descending => q.set "descending".toList "true".toList
  | .nameFilter s => q.set "name_filter".toList s

/-- `v[0]` of a parameter that is set (client.go:212-232). -/
def Values.first (q : Values) (k : Str) : Option Str := (List.lookup k q).bind List.head?

/-- The request of `grpcRead` (client.go:199-239).  `ParseInt` errors are ignored and
leave 0; an unknown type name reads as 0, `ANY`.  Simplification: `ParseInt` also
returns the nearest bound when it fails with a range error. -/
def grpcRead (sourceId : Str) (start : Int) (opts : List ReadOpt) : ReadRequest :=
  let q := opts.foldl ReadOpt.apply []
  { sourceId := sourceId
    start := start
    limit := ((q.first "limit".toList).bind parseInt64).getD 0
    stop := ((q.first "end_time".toList).bind parseInt64).getD 0
    types := ((List.lookup "envelope_types".toList q).getD []).map fun s => (etypeValue s).getD .any
    nameFilter := (q.first "name_filter".toList).getD []
    descending := (List.lookup "descending".toList q).isSome }

/-- The parameters of the HTTP request of `Read` (client.go:121-128). -/
def httpReadParams (start : Int) (opts : List ReadOpt) : Values :=
  opts.foldl ReadOpt.apply (Values.set [] "start_time".toList (formatInt start))

/-- An optional number among the parameters. Models `client.go:212-232`. -/
def intParam (q : Values) (k : Str) : Option Int :=
  match q.first k with
  | none => some 0
  | some s => parseInt64 s

/-- The values of a repeated enum parameter; an unknown name is an error.
Models `client.go:212-232` and `egress.pb.gw.go:35-64`. -/
def typesParam : List Str → Option (List EType)
  | [] => some []
  | s :: ss => match etypeValue s, typesParam ss with
    | some t, some ts => some (t :: ts)
    | _, _ => none

/-- `request_Egress_Read_0` (`/repo/pkg/rpc/logcache_v1/egress.pb.gw.go:35-64`): how
the gateway reads the parameters (`runtime.PopulateQueryParameters`, a dependency,
from memory: the first value counts, numbers by `strconv`, enums by name; it also
takes numbers of known types, which the client never sends).  `none`: answered with
400. -/
def gatewayRead (sourceId : Str) (q : Values) : Option ReadRequest :=
  match intParam q "start_time".toList, intParam q "end_time".toList, intParam q "limit".toList,
    typesParam ((List.lookup "envelope_types".toList q).getD []) with
  | some start, some stop, some limit, some types =>
    some { sourceId := sourceId, start := start, stop := stop, limit := limit, types := types,
           descending := decide (q.first "descending".toList = some "true".toList),
           nameFilter := (q.first "name_filter".toList).getD [] }
  | _, _, _, _ => none

/-! ## API paths -/

/-- `semver.Version`; `pre`: whether it has a pre-release part.
Library code, reached from `client.go:291-346, 713-724`. -/
structure Semver where
  major : Nat
  minor : Nat
  patch : Nat
  pre : Bool := false
deriving DecidableEq, Repr

/-- `v.GTE(o)` for an `o` without pre-release part (`semver`, a dependency).
Library code, reached from `client.go:291-306`. -/
def Semver.gte (v o : Semver) : Bool :=
  if v.major ≠ o.major then decide (v.major > o.major)
  else if v.minor ≠ o.minor then decide (v.minor > o.minor)
  else if v.patch ≠ o.patch then decide (v.patch > o.patch)
  else !v.pre

/-- `LAST_LOG_CACHE_VERSION_WITHOUT_INFO` (client.go:714-718). -/
def lastWithoutInfo : Semver := ⟨1, 4, 7, false⟩

/-- `FIRST_LOG_CACHE_VERSION_AFTER_API_MOVE` (client.go:719-723). -/
def firstAfterMove : Semver := ⟨2, 0, 0, false⟩

/-- The answer to an HTTP request: `failed` is a transport error, `body = none` a body
that cannot be decoded. Models what `client.go:130-151, 321-341` gets. -/
inductive HttpAns (α : Type) where
  | failed
  | resp (status : Nat) (body : Option α)

/-- `LogCacheVersion` (client.go:308-346). `parse` is `semver.Parse`. -/
def logCacheVersion (parse : Str → Option Semver) : HttpAns Str → Option Semver
  | .failed => none
  | .resp status body =>
    if status = 404 then some lastWithoutInfo
    else if status ≠ 200 then none
    else body.bind parse

/-- `getBaseApiPath` (client.go:291-306); the field `baseApiPath` is never set. -/
def baseApiPath (parse : Str → Option Semver) (info : HttpAns Str) : Option Str :=
  match logCacheVersion parse info with
  | none => none
  | some v => if v.gte firstAfterMove then some "/api/v1".toList else some "/v1".toList

/-- A request of the client. Models what `client.go:110-133` sends. -/
structure HttpReq where
  path : Str
  params : Values := []
deriving DecidableEq, Repr

/-- `Read` by HTTP (client.go:100-151): the requests it makes, and the answer (`none`:
error).  `info` and `ans` are the answers to the two requests. -/
def httpRead (parse : Str → Option Semver) (info : HttpAns Str) (ans : HttpAns (List Envelope))
    (sourceId : Str) (start : Int) (opts : List ReadOpt) : List HttpReq × Option (List Envelope) :=
  let req0 : HttpReq := { path := "/api/v1/info".toList }
  match baseApiPath parse info with
  | none => ([req0], none)
  | some base =>
    ([req0, { path := base ++ "/read/".toList ++ sourceId, params := httpReadParams start opts }],
     match ans with
     | .failed => none
     | .resp status body => if status ≠ 200 then none else body)

/-- `LogCacheVMUptime` (client.go:348-391): `vm_uptime` of the body, empty when it is
missing; the result is -1 with every error. -/
def vmUptime : HttpAns Str → Int × Bool
  | .failed => (-1, false)
  | .resp status body =>
    if status ≠ 200 then (-1, false)
    else match body with
      | none => (-1, false)
      | some s =>
        if s = [] then (-1, false)
        else match parseInt64 s with
          | none => (-1, false)
          | some n => (n, true)

/-! ## Tokens -/

/-- What an `Oauth2HTTPClient` does: it is called (`pre`: the Authorization header the
request already has), asks the Oauth2 server for a token and gets it or not, sends a
request with an Authorization header, gets its answer (`none`: transport error).  `i`
is the call. Models `oauth2_http_client.go:85-200`. -/
inductive OEv where
  | called (i : Nat) (pre : Option Str)
  | asked (i : Nat)
  | fetched (i : Nat) (token : Option Str)
  | sent (i : Nat) (authorization : Str)
  | answered (i : Nat) (status : Option Nat)
deriving DecidableEq, Repr

/-- Where a call of `Do` is.  `locking`: before `mu.Lock` (oauth2_http_client.go:119,
148); `checked`: the token was not empty, before it is returned (:122-123);
`fetching`: waiting for the Oauth2 server; `stored`: the token is stored, before it is
returned (:198-199); `sending`, `waiting`: the request (:96-101); `clearing`: the
answer was not 2xx, before the token is cleared (:103-104). -/
inductive OThread where
  | locking
  | checked
  | fetching
  | stored
  | sending (authorization : Str) (own : Bool)
  | waiting (own : Bool)
  | clearing
  | done
deriving DecidableEq, Repr

/-- An `Oauth2HTTPClient` and the calls on it. Models `oauth2_http_client.go:16-27`. -/
structure OState where
  token : Str := []
  locked : Bool := false
  threads : List OThread := []

/-- Thread `i` goes on at `t`. Models `oauth2_http_client.go:85-200`. -/
def OState.goto (s : OState) (i : Nat) (t : OThread) : OState := { s with threads := s.threads.set i t }

/-- The token of an answer of the Oauth2 server (oauth2_http_client.go:198). -/
def tokenOf (tokenType accessToken : Str) : Str := tokenType ++ ' ' :: accessToken

/-- Is the status a success (oauth2_http_client.go:103)? -/
def is2xx (status : Nat) : Bool := decide (200 ≤ status ∧ status < 300)

/-- One step of one call of `Do` (oauth2_http_client.go:85-200).  Reads and writes of
`token` are atomic, those outside the lock too: `clear` takes no lock. -/
inductive OStep : OState → List OEv → OState → Prop where
  /-- :86-89, a call whose request has an Authorization header. -/
  | callPre {s : OState} (a : Str) : OStep s [.called s.threads.length (some a)] { s with threads := s.threads ++ [.sending a false] }
  /-- :91. -/
  | call {s : OState} : OStep s [.called s.threads.length none] { s with threads := s.threads ++ [.locking] }
  /-- :119-122, 148-151. -/
  | lockHave {s : OState} {i : Nat} (h : s.threads[i]? = some .locking) (hl : s.locked = false)
      (ht : s.token ≠ []) : OStep s [] ({ s with locked := true }.goto i .checked)
  | lockFetch {s : OState} {i : Nat} (h : s.threads[i]? = some .locking) (hl : s.locked = false)
      (ht : s.token = []) : OStep s [.asked i] ({ s with locked := true }.goto i .fetching)
  /-- :123, 152: `return c.token`. -/
  | useToken {s : OState} {i : Nat} (h : s.threads[i]? = some .checked) :
      OStep s [] ({ s with locked := false }.goto i (.sending s.token true))
  /-- :177-196, an error. -/
  | fetchFail {s : OState} {i : Nat} (h : s.threads[i]? = some .fetching) :
      OStep s [.fetched i none] ({ s with locked := false }.goto i .done)
  /-- :198. -/
  | fetchOk {s : OState} {i : Nat} (ty at' : Str) (h : s.threads[i]? = some .fetching) :
      OStep s [.fetched i (some (tokenOf ty at'))] ({ s with token := tokenOf ty at' }.goto i .stored)
  /-- :199: `return c.token`. -/
  | useStored {s : OState} {i : Nat} (h : s.threads[i]? = some .stored) :
      OStep s [] ({ s with locked := false }.goto i (.sending s.token true))
  /-- :96-98, :88. -/
  | send {s : OState} {i : Nat} {a : Str} {own : Bool} (h : s.threads[i]? = some (.sending a own)) :
      OStep s [.sent i a] (s.goto i (.waiting own))
  /-- :99-101, :108, or :88. -/
  | answer {s : OState} {i : Nat} {own : Bool} (status : Option Nat) (h : s.threads[i]? = some (.waiting own))
      (hs : own = false ∨ ∀ c, status = some c → is2xx c = true) :
      OStep s [.answered i status] (s.goto i .done)
  /-- :103. -/
  | refused {s : OState} {i : Nat} (c : Nat) (h : s.threads[i]? = some (.waiting true))
      (hs : is2xx c = false) : OStep s [.answered i (some c)] (s.goto i .clearing)
  /-- :104. -/
  | clear {s : OState} {i : Nat} (h : s.threads[i]? = some .clearing) :
      OStep s [] ({ s with token := [] }.goto i .done)

/-- Some schedule of calls on a new client does `evs`. Models `oauth2_http_client.go:85-200`. -/
inductive ORun : List OEv → OState → Prop where
  | nil : ORun [] {}
  | step {evs evs' : List OEv} {s s' : OState} : ORun evs s → OStep s evs' s' → ORun (evs ++ evs') s'

/-- One call of `Do` that runs alone (oauth2_http_client.go:85-109): `pre` is the
Authorization header the request already has, `tok` what the Oauth2 server answers
when asked, `ans` the answer to the request. Result: what happens, the stored token. -/
def doAlone (i : Nat) (token : Str) (pre : Option Str) (tok : Option (Str × Str)) (ans : Option Nat) :
    List OEv × Str :=
  match pre with
  | some a => ([.called i pre, .sent i a, .answered i ans], token)
  | none =>
    let finish (t : Str) : Str := match ans with
      | none => t
      | some c => if is2xx c then t else []
    if token ≠ [] then ([.called i pre, .sent i token, .answered i ans], finish token)
    else match tok with
      | none => ([.called i pre, .asked i, .fetched i none], token)
      | some (ty, at') =>
        let t := tokenOf ty at'
        ([.called i pre, .asked i, .fetched i (some t), .sent i t, .answered i ans], finish t)

/-- A call for `doAlone`. Models `oauth2_http_client.go:85`. -/
structure OCall where
  pre : Option Str := none
  tok : Option (Str × Str) := none
  ans : Option Nat := none

/-- Calls one after the other, numbered from `i`. Models `oauth2_http_client.go:85-109`. -/
def doSeq : Nat → Str → List OCall → List OEv
  | _, _, [] => []
  | i, token, c :: cs =>
    let r := doAlone i token c.pre c.tok c.ans
    r.1 ++ doSeq (i + 1) r.2 cs

end LogCache
