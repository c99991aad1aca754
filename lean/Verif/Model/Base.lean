/-!
# Data that flows through log-cache

Models the parts of `loggregator_v2.Envelope` (dependency
`code.cloudfoundry.org/go-loggregator/rpc/loggregator_v2`, not in the sandbox)
that `/repo` reads, and `logcache_v1.EnvelopeType`
(`/repo/pkg/rpc/logcache_v1/egress.pb.go`).
-/

namespace LogCache

/-- Go strings. Simplification: a sequence of characters instead of bytes.
Names at `egress.proto:22-30`. -/
abbrev Str := List Char

/-- `loggregator_v2.GaugeValue`.  The `float64` value is only ever copied by the
code modelled here, so it is an opaque number (think: its bit pattern).
Models its use at `store.go:339-348` and `promql.go:359-366`. -/
structure GaugeValue where
  unit : Str
  value : Int
deriving DecidableEq, Repr

/-- The `Message` oneof of an envelope, as used by
`/repo/internal/cache/store/store.go:325-370` and `459-480`.
Go maps are association lists (the order is the iteration order). -/
inductive Message where
  | log (payload : Str) (isErr : Bool)
  | counter (name : Str) (delta total : Nat)
  | gauge (metrics : List (Str × GaugeValue))
  | timer (name : Str) (start stop : Int)
  | event (title body : Str)
deriving DecidableEq, Repr

/-- `loggregator_v2.Envelope`; the fields copied at
`/repo/internal/cache/store/store.go:349-359`.  `message = none` is the nil
oneof.  Timestamps are unbounded integers (Go: `int64` nanoseconds). -/
structure Envelope where
  timestamp : Int
  sourceId : Str := []
  instanceId : Str := []
  deprecatedTags : List (Str × Str) := []
  tags : List (Str × Str) := []
  message : Option Message := none
deriving DecidableEq, Repr

/-- `logcache_v1.EnvelopeType` (`/repo/pkg/rpc/logcache_v1/egress.pb.go`,
`EnvelopeType_ANY = 0` … `EnvelopeType_EVENT = 5`).  proto3 enums are open, so a
client can send any other number: `other n`. -/
inductive EType where
  | any | log | counter | gauge | timer | event
  | other (n : Int)
deriving DecidableEq, Repr

/-- Go's `math.MaxInt64`; `/repo/internal/cache/store/store.go:30` calls this
value `MIN_INT64`. -/
def maxInt64 : Int := 9223372036854775807

/-- Go's `int64` arithmetic wraps around. Needed for `store.go:110-151, 540-542`. -/
def wrap64 (n : Int) : Int := (n + 2 ^ 63) % 2 ^ 64 - 2 ^ 63

end LogCache
