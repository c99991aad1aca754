import Verif.Model.Client
import Verif.Model.Walk
import Verif.Model.Routing
import Verif.Model.Nozzle
/-!
# The options of the client library, the scheduler, the nozzle and the syslog server

Models the constructors and functions with options of `/repo/pkg/client/walk.go`,
`/repo/pkg/client/window.go`, `/repo/pkg/client/client.go`,
`/repo/internal/promql/data_reader/walking_data_reader.go`,
`/repo/internal/scheduler/scheduler.go`, `/repo/internal/nozzle/nozzle.go` and
`/repo/internal/syslog/server.go`. Loggers are left out. Options of grpc, leadership functions
and HTTP clients are opaque names. A `time.Time` is its number of nanoseconds since 1970;
`none` is the zero time.
-/
namespace LogCache

/-- `UnixNano` of a time (library code, reached from walk.go:134): that of the zero time, the
first of January of the year 1, does not fit and wraps around. -/
def unixNano : Option Int → Int
  | some t => t
  | none => -6795364578871345152

/-- The back-offs of the library with their arguments (walk.go:197, 218-222, 250-264). -/
inductive BackoffOpt where
  | done
  | always (interval : Int)
  | limited (interval : Int) (maxCount : Int) (onlyErr : Bool)
deriving DecidableEq

/-- `WalkOption` (walk.go:117-183). -/
inductive WalkOpt where
  | start (t : Option Int)
  | stop (t : Option Int)
  | limit (n : Int)
  | types (ts : List EType)
  | nameFilter (s : Str)
  | backoff (b : BackoffOpt)
  | delay (d : Int)

/-- `walkConfig` with its back-off (walk.go:304-313), as `Walk` begins with it
(walk.go:29-33). -/
structure WalkParams where
  cfg : WalkCfg := {}
  backoff : BackoffOpt := .done

/-- What an option does (walk.go:132-183). No types are no slice. -/
def WalkOpt.apply (p : WalkParams) : WalkOpt → WalkParams
  | .start t => { p with cfg := { p.cfg with start := unixNano t } }
  | .stop t => { p with cfg := { p.cfg with stop := t } }
  | .limit n => { p with cfg := { p.cfg with limit := some n } }
  | .types ts => { p with cfg := { p.cfg with types := if ts = [] then none else some ts } }
  | .nameFilter s => { p with cfg := { p.cfg with nameFilter := s } }
  | .backoff b => { p with backoff := b }
  | .delay d => { p with cfg := { p.cfg with delay := d } }

/-- The parameters of a walk with these options (walk.go:29-37). -/
def walkParams (opts : List WalkOpt) : WalkParams := opts.foldl WalkOpt.apply {}

/-- The options of the reads of a walk (walk.go:39-54). -/
def walkReadOpts (c : WalkCfg) : List ReadOpt :=
  (match c.stop with | some t => [.endTime t] | none => []) ++
  (match c.limit with | some n => [.limit n] | none => []) ++
  (match c.types with | some ts => [.types ts] | none => []) ++
  (if c.nameFilter ≠ [] then [.nameFilter c.nameFilter] else [])

/-- The options of the walk of `WalkingDataReader.Read` (walking_data_reader.go:33-37). -/
def dataReaderOpts (req : ReadRequest) : List WalkOpt :=
  [.start (some req.start), .stop (some req.stop), .limit req.limit, .types req.types,
    .backoff (.limited 1000000000 5 true)]

/-- The options of the walk behind `BuildWalker` (window.go:60-63), for times that are not
zero. -/
def walkerOpts (start stop : Int) : List WalkOpt := [.start (some start), .stop (some stop)]

/-- `WindowOption` (window.go:69-104). -/
inductive WindowOpt where
  | start (t : Option Int)
  | width (w : Int)
  | interval (i : Int)

/-- What an option does (window.go:84-104). -/
def WindowOpt.apply (c : WindowCfg) : WindowOpt → WindowCfg
  | .start t => { c with start := t }
  | .width w => { c with width := w }
  | .interval i => { c with interval := i }

/-- The configuration of a Window with these options (window.go:17-25). -/
def windowParams (opts : List WindowOpt) : WindowCfg := opts.foldl WindowOpt.apply {}

/-- `ClientOption` (client.go:50-96). -/
inductive ClientOpt where
  | httpClient (name : Str)
  | viaGrpc (dial : List Str)

/-- What of a `Client` options set (client.go:25-32, 34-41): the HTTP client, `none` if it is
the library's own, and the options of the gRPC connection if there is one. -/
structure ClientParams where
  http : Option Str := none
  grpc : Option (List Str) := none

/-- What an option does (client.go:69-96); connecting does not fail. -/
def ClientOpt.apply (c : ClientParams) : ClientOpt → ClientParams
  | .httpClient name => { c with http := some name }
  | .viaGrpc dial => { c with grpc := some dial }

/-- `NewClient` (client.go:34-47). -/
def newClient (opts : List ClientOpt) : ClientParams := opts.foldl ClientOpt.apply {}

/-- How a client reads (client.go:106-108): `none` over gRPC, otherwise with the HTTP client. -/
def ClientParams.readsWith (c : ClientParams) : Option (Option Str) :=
  match c.grpc with
  | some _ => none
  | none => some c.http

/-- `SchedulerOption` (scheduler.go:61-113). -/
inductive SchedOpt where
  | interval (d : Int)
  | count (n : Int)
  | replication (n : Int)
  | dial (os : List Str)
  | leadership (f : Str)

/-- The fields of `Scheduler` that options set (scheduler.go:16-27), with what `NewScheduler`
puts there first (scheduler.go:32-39). -/
structure SchedParams where
  interval : Int := 60000000000
  count : Int := 100
  replication : Int := 1
  dial : List Str := ["insecure".toList]
  leadership : Str := "always".toList
deriving DecidableEq

/-- What an option does (scheduler.go:74-113). -/
def SchedOpt.apply (p : SchedParams) : SchedOpt → SchedParams
  | .interval d => { p with interval := d }
  | .count n => { p with count := n }
  | .replication n => { p with replication := n }
  | .dial os => { p with dial := os }
  | .leadership f => { p with leadership := f }

/-- `NewScheduler` (scheduler.go:31-59) without the connections. -/
def newScheduler (opts : List SchedOpt) : SchedParams := opts.foldl SchedOpt.apply {}

/-- The options of the command (`/repo/cmd/scheduler/main.go:30-51`). -/
def schedCommandOpts (interval count replication : Int) (endpoint : Str) : List SchedOpt :=
  [.interval interval, .count count, .replication replication, .dial ["tls".toList]] ++
    (if endpoint ≠ [] then [.leadership endpoint] else [])

/-- The tasks that `Start` adds, with the number of instances of each (scheduler.go:121-141). -/
def SchedParams.tasks (p : SchedParams) : Option (List (HRange × Int)) :=
  (schedRanges p.count).map fun rs => rs.map fun r => (r, p.replication)

/-- `NozzleOption` (nozzle.go:74-89). -/
inductive NozzleOpt where
  | dial (os : List Str)
  | selectors (names : List Str)

/-- The fields of `Nozzle` that options set (nozzle.go:24-38), with what `NewNozzle` puts there
first (nozzle.go:54-62). -/
structure NozzleParams where
  dial : List Str := ["insecure".toList]
  selectors : List Str := []

/-- What an option does (nozzle.go:79-89). -/
def NozzleOpt.apply (p : NozzleParams) : NozzleOpt → NozzleParams
  | .dial os => { p with dial := os }
  | .selectors names => { p with selectors := names }

/-- `NewNozzle` (nozzle.go:53-72) without the buffer. -/
def newNozzle (opts : List NozzleOpt) : NozzleParams := opts.foldl NozzleOpt.apply {}

/-- `ServerOption` of the syslog server (server.go:40, 68-78). -/
inductive SyslogOpt where
  | port (p : Int)
  | idle (d : Int)

/-- The fields of `Server` that options set (server.go:24-34), with what `NewServer` puts there
first (server.go:50-56). -/
structure SyslogParams where
  port : Int := 0
  idle : Int := 120000000000

/-- What an option does (server.go:68-78). -/
def SyslogOpt.apply (p : SyslogParams) : SyslogOpt → SyslogParams
  | .port n => { p with port := n }
  | .idle d => { p with idle := d }

/-- `NewServer` (server.go:42-66). -/
def newSyslogServer (opts : List SyslogOpt) : SyslogParams := opts.foldl SyslogOpt.apply {}

end LogCache
