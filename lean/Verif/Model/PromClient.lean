import Verif.Model.JsonText
import Verif.Model.Query
import Verif.Model.Engine

/-!
# Queries made with the client library (`/repo/pkg/client/client.go:393-711`) and
# their way through the gateway (`/repo/internal/gateway/gateway.go:124-219`)

Simplifications: the address of the client has no parameters of its own (`u.Query()` at
client.go:443, 518, 583, 651 starts empty); URL escaping is a dependency.
-/
namespace LogCache
variable {F : Type}

/-! ## Requests -/

/-- The options of the library for queries (client.go:396-426). -/
inductive PromOpt where
  | time (t : Int)
  | start (t : Int)
  | stop (t : Int)
  | step (s : Str)

/-- Applying an option (client.go:400-426). -/
def PromOpt.apply (q : Values) : PromOpt → Values
  | .time t => q.set "time".toList (formatClientTime t)
  | .start t => q.set "start".toList (formatClientTime t)
  | .stop t => q.set "end".toList (formatClientTime t)
  | .step s => q.set "step".toList s

/-- `PromQL_InstantQueryRequest` (`/repo/pkg/rpc/logcache_v1/promql.pb.go`). -/
structure InstantReq where
  query : Str
  time : Str
deriving DecidableEq, Repr

/-- `PromQL_RangeQueryRequest`. `promql.proto:27-32`. -/
structure RangeReq where
  query : Str
  start : Str
  stop : Str
  step : Str
deriving DecidableEq, Repr

/-- The request of `grpcPromQL` (client.go:618-639). -/
def grpcPromQL (query : Str) (opts : List PromOpt) : InstantReq :=
  let q := opts.foldl PromOpt.apply []
  { query := query, time := (q.first "time".toList).getD [] }

/-- The request of `grpcPromQLRange` (client.go:477-506). -/
def grpcPromQLRange (query : Str) (opts : List PromOpt) : RangeReq :=
  let q := opts.foldl PromOpt.apply []
  { query := query
    start := (q.first "start".toList).getD []
    stop := (q.first "end".toList).getD []
    step := (q.first "step".toList).getD [] }

/-- The request of `PromQL` and `PromQLRaw` over HTTP (client.go:578-596, 646-664). -/
def httpPromQL (query : Str) (opts : List PromOpt) : HttpReq :=
  { path := "/api/v1/query".toList
    params := opts.foldl PromOpt.apply (Values.set [] "query".toList query) }

/-- The request of `PromQLRange` and `PromQLRangeRaw` over HTTP (client.go:438-456,
513-531). -/
def httpPromQLRange (query : Str) (opts : List PromOpt) : HttpReq :=
  { path := "/api/v1/query_range".toList
    params := opts.foldl PromOpt.apply (Values.set [] "query".toList query) }

/-! ## The gateway -/

/-- The answer to a gRPC call: a message or a status code other than OK with its
description. Models what `client.go:501, 634` and `promql.pb.gw.go:43, 60` get. -/
inductive GrpcAns (α : Type) where
  | ok (a : α)
  | error (code : Nat) (msg : Str)

/-- A log cache node answering queries; a result message may be empty.
Models `promql.go:61-103, 181-227`. -/
structure PromServer (F : Type) where
  instant : InstantReq → GrpcAns (Option (PResult F))
  range : RangeReq → GrpcAns (Option (PResult F))

/-- `request_PromQLQuerier_InstantQuery_0`
(`/repo/pkg/rpc/logcache_v1/promql.pb.gw.go:35-46`); `PopulateQueryParameters` takes the
first value of each known field and leaves out unknown parameters. -/
def gatewayInstant (q : Values) : InstantReq :=
  { query := (q.first "query".toList).getD [], time := (q.first "time".toList).getD [] }

/-- `request_PromQLQuerier_RangeQuery_0` (promql.pb.gw.go:52-63). -/
def gatewayRange (q : Values) : RangeReq :=
  { query := (q.first "query".toList).getD []
    start := (q.first "start".toList).getD []
    stop := (q.first "end".toList).getD []
    step := (q.first "step".toList).getD [] }

/-- The body of `httpErrorHandler` (gateway.go:199-203). -/
def promErrorBody (msg : Str) : Json :=
  .obj [("status".toList, .str "error".toList), ("errorType".toList, .str "internal".toList),
    ("error".toList, .str msg)]

/-- The answer to a query: the marshalled result, or what `httpErrorHandler` writes
(gateway.go:181-219; promql.pb.gw.go:121-128, 150-157).  `st` is
`runtime.HTTPStatusFromCode`; a result that cannot be marshalled is an error of code 2,
`Unknown`, with some text `why`. -/
def gatewayProm (fl : FloatLib F) (st : Nat → Nat) (why : Str) : GrpcAns (Option (PResult F)) → Nat × Str
  | .error code msg => (st code, (promErrorBody msg).line)
  | .ok r => match marshalText fl r with
    | some t => (200, t)
    | none => (st 2, (promErrorBody why).line)

/-- The gateway on the paths of queries (gateway.go:124-164). -/
def gatewayServe (fl : FloatLib F) (st : Nat → Nat) (why : Str) (s : PromServer F) (r : HttpReq) : HttpAns Str :=
  if r.path = "/api/v1/query".toList then
    let a := gatewayProm fl st why (s.instant (gatewayInstant r.params))
    .resp a.1 (some a.2)
  else if r.path = "/api/v1/query_range".toList then
    let a := gatewayProm fl st why (s.range (gatewayRange r.params))
    .resp a.1 (some a.2)
  else .resp 404 none

/-! ## Answers -/

/-- What `PromQL` and `PromQLRange` make of an answer (client.go:464-474, 605-615);
`un` is the decoder. -/
def readProm (un : Json → Option (PResult F)) : HttpAns Str → Option (PResult F)
  | .failed => none
  | .resp status body => if status ≠ 200 then none else body.bind (decodeText un)

/-- `PromQLQueryResult` (client.go:701-711). -/
structure RawResult where
  status : Str
  resultType : Str
  result : Option Json
  errorType : Str
  error : Str

/-- `json.Unmarshal(body, &result)` (client.go:561, 694). -/
def rawBody : Json → Option RawResult
  | .null => some ⟨[], [], none, [], []⟩
  | .obj fs => match dataFields (.obj fs), textField fs "status", textField fs "errorType", textField fs "error" with
    | some d, some status, some errorType, some error =>
      (textField d "resultType").map fun ty => ⟨status, ty, field d "result", errorType, error⟩
    | _, _, _, _ => none
  | _ => none

/-- What `PromQLRaw` and `PromQLRangeRaw` make of an answer (client.go:543-565,
676-698). -/
def readRaw : HttpAns Str → Option RawResult
  | .failed => none
  | .resp status body =>
    if status = 404 then none
    else if status ≠ 200 ∧ status ≠ 400 ∧ status ≠ 500 then none
    else body.bind fun t => (unmarshalJson t).bind rawBody

/-- `PromQL` and `PromQLRange` over gRPC (client.go:501-505, 634-638). -/
def grpcProm {α : Type} : GrpcAns α → Option α
  | .ok a => some a
  | .error _ _ => none

/-! ## The server -/

/-- What the gRPC server answers for a handled query: errors without a code have code 2,
`Unknown`, and a crash breaks the connection, code 14, `Unavailable`.  `msg` is the text
of the error. Library code, reached from `promql.go:61-103, 181-227`. -/
def serverAns (msg : Str) : QueryEnd F → GrpcAns (Option (PResult F))
  | .answer r => .ok (some r)
  | .error => .error 2 msg
  | .crash => .error 14 msg

/-- A node answering queries (promql.go:61-103, 181-227 behind its gRPC server).
Simplification: the engine knows only plain selectors, which `parse` reads; `now` is the
time at which the node handles the query, `read` and `order` are as in `runEngine`. -/
def promNode (fl : FloatLib F) (rfc dur : Str → Option Int) (parse : Str → Option (List Matcher)) (num : PVal → F)
    (read : Nat → ReadRequest → Option (List Envelope)) (order : Nat → List Matcher → List Str) (now : Int)
    (msg : Str) : PromServer F where
  instant r := serverAns msg (instantQuery fl rfc (fun q t => (parse q).map (plainInstant num · t)) read order now
    r.query r.time).result
  range r := serverAns msg (rangeQuery fl rfc dur (fun q a b d => (parse q).map (plainRange num · a b d)) read order
    r.query r.start r.stop r.step).result

end LogCache
