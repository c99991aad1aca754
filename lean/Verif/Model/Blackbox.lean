import Verif.Model.PromClient

/-!
# The blackbox: `/repo/internal/blackbox/blackbox.go` and `/repo/cmd/blackbox/main.go`

A program that sends test metrics to log cache, counts how many can be queried, and
publishes the share.  Times and durations are in nanoseconds.
-/
namespace LogCache

/-! ## More of float64 -/

/-- `x + y`; the exact sum of finite numbers is a multiple of the smaller power of
two. Library code, reached from `blackbox.go:231`. -/
def F64.add : F64 → F64 → F64
  | .nan, _ => .nan
  | _, .nan => .nan
  | .inf s, .inf s' => if s = s' then .inf s else .nan
  | .inf s, .fin _ _ _ => .inf s
  | .fin _ _ _, .inf s => .inf s
  | .fin s m e, .fin s' m' e' =>
    let g := min e e'
    let a : Int := (if s then -1 else 1) * (m * 2 ^ (e - g).toNat : Nat)
    let b : Int := (if s' then -1 else 1) * (m' * 2 ^ (e' - g).toNat : Nat)
    if a + b = 0 then .fin (s && s') 0 0 else f64Pow (decide (a + b < 0)) (a + b).natAbs g

/-- `fmt.Sprintf("%.0f", x)`. Library code, reached from `blackbox.go:265`. -/
def F64.fmt0 : F64 → Str
  | .nan => "NaN".toList
  | .inf neg => if neg then "-Inf".toList else "+Inf".toList
  | .fin neg m e => (if neg then ['-'] else []) ++ fmtNat (roundDiv (m * 2 ^ e.toNat) (2 ^ (-e).toNat)) []

/-- `Duration.Seconds()` of the standard library: whole seconds and the rest apart.
Library code, reached from `blackbox.go:231, 265`. -/
def durSeconds (d : Int) : F64 :=
  F64.add (f64OfInt (d.tdiv 1000000000)) ((f64OfInt (d.tmod 1000000000)).divNat 1000000000)

/-- `Time.Truncate(d)` of the standard library for `d > 0`: multiples of `d` are counted
from the year 1, which is 62135596800 seconds before the epoch.
Library code, reached from `blackbox.go:93, 269`. -/
def truncTime (d t : Int) : Int := t - (t + 62135596800000000000) % d

/-! ## Measuring -/

/-- `ReliabilityCalculator` (blackbox.go:200-208), without the loggers. -/
structure Calculator where
  sampleInterval : Int
  windowInterval : Int
  windowLag : Int
  emissionInterval : Int
  sourceId : Str

/-- `ExpectedSamples` (blackbox.go:230-232). -/
def Calculator.expectedSamples (c : Calculator) : F64 :=
  (durSeconds c.windowInterval).div (durSeconds c.emissionInterval)

/-- `MAGIC_METRIC_NAME` (blackbox.go:18-27); there is only one. -/
def magicMetric : Str := "blackbox_test_metric".toList

/-- The query of `CountMetricPoints` (blackbox.go:265). -/
def Calculator.queryText (c : Calculator) : Str :=
  magicMetric ++ "{source_id=\"".toList ++ c.sourceId ++ "\"}[".toList ++
    (durSeconds c.windowInterval).fmt0 ++ "s]".toList

/-- Its time (blackbox.go:269). -/
def Calculator.queryTime (c : Calculator) (now : Int) : Int := truncTime c.sampleInterval (now - c.windowLag)

/-- The query as it is made (blackbox.go:270). -/
def Calculator.request (c : Calculator) (now : Int) : InstantReq :=
  grpcPromQL c.queryText [.time (c.queryTime now)]

/-- `CountMetricPoints` (blackbox.go:264-291) on what `PromQL` returns; `none` is an
error.  Only the first series is counted. -/
def countPoints {F : Type} : Option (Option (PResult F)) → Option Nat
  | some (some (.matrix (s :: _))) => some s.points.length
  | _ => none

/-- `Calculate` (blackbox.go:210-228). -/
def Calculator.calculate {F : Type} (c : Calculator) (ans : Option (Option (PResult F))) : Option F64 :=
  (countPoints ans).map fun (n : Nat) => (f64OfInt n).div (f64OfInt (wrap64 (c.expectedSamples.toInt64 * 1)))

/-- The times `printMissingSamples` looks for (blackbox.go:235-241), in milliseconds:
from the time of the query while below the number of expected samples. Simplification:
an interval below a millisecond never ends here; there are no times then. -/
def Calculator.expectedTimes (c : Calculator) (queryTime : Int) : List Int :=
  let q := queryTime.tdiv 1000000
  let step := c.emissionInterval.tdiv 1000000
  let n := c.expectedSamples.toInt64
  if q < n then (List.range ((n - q + step - 1) / step).toNat).map fun (i : Nat) => q + i * step else []

/-- The times `printMissingSamples` reports as missing (blackbox.go:234-262); a time that
is no integer reads as 0. -/
def Calculator.missing (c : Calculator) (queryTime : Int) (times : List Str) : List Int :=
  (c.expectedTimes queryTime).filter fun t => !(times.any fun s => (parseInt64 s).getD 0 = t)

/-! ## Publishing -/

/-- What `EmitMeasuredMetrics` does: nothing, a crash, or it publishes values.
Models `blackbox.go:146-193`. -/
inductive Published where
  | nothing
  | crash
  | sent (sourceId : Str) (metrics : List (Str × F64))
deriving DecidableEq, Repr

/-- `EmitMeasuredMetrics` (blackbox.go:146-193); `client` is what the information
endpoint answers, and `none` the nil interface, whose method call panics. -/
def emitMeasured (sourceId : Str) (client : Option (HttpAns Str)) (metrics : List (Str × F64)) : Published :=
  if metrics = [] then .nothing
  else match client with
    | none => .crash
    | some info =>
      let up := (vmUptime info).1
      if 0 ≤ up ∧ up < 600 then .nothing else .sent sourceId metrics

/-- One round of `main` (`/repo/cmd/blackbox/main.go:65-83`): `grpc` and `http` are the
answers to the queries, `info` that of the information endpoint.  With
`CF_BLACKBOX_ENABLED` unset `httpEgressClient` is nil (main.go:42-52). -/
def blackboxRound {F : Type} (c : Calculator) (enabled : Bool) (grpc http : Option (Option (PResult F)))
    (info : HttpAns Str) : Published :=
  let m1 := match c.calculate grpc with
    | some x => [("blackbox.grpc_reliability".toList, x)]
    | none => []
  let m2 := if enabled then match c.calculate http with
      | some x => [("blackbox.http_reliability".toList, x)]
      | none => []
    else []
  emitMeasured c.sourceId (if enabled then some info else none) (m1 ++ m2)

/-! ## Test metrics -/

/-- The loop of `emitTestMetrics` (blackbox.go:127-139): attempts so far, and whether one
was accepted; `accept i` is the answer to the `i`-th. -/
def emitAttempts (accept : Nat → Bool) : Nat → Nat → Nat × Bool
  | 0, i => (i, false)
  | retries + 1, i => if accept i then (i + 1, true) else emitAttempts accept retries (i + 1)

/-- An emission: the number of attempts, whether one was accepted, and whether a failure
was logged. Models `blackbox.go:124-143`. -/
structure Emission where
  attempts : Nat
  delivered : Bool
  logged : Bool
deriving DecidableEq, Repr

/-- `emitTestMetrics` (blackbox.go:104-144): the `err` of the loop is another variable
than the one that is checked afterwards, which stays nil. -/
def emitTest (accept : Nat → Bool) : Emission :=
  let r := emitAttempts accept 5 0
  let err := false
  { attempts := r.1, delivered := r.2, logged := err }

/-- `StartEmittingTestMetrics` (blackbox.go:86-102) on the times of its ticks: the
timestamp of each emission, and whether a warning was logged. -/
def emitLoop (interval : Int) : Option Int → List Int → List (Int × Bool)
  | _, [] => []
  | last, now :: rest =>
    let ts := truncTime interval now
    let warned := match last with
      | none => false
      | some l => decide (l + interval ≠ ts)
    (ts, warned) :: emitLoop interval (some ts) rest

end LogCache
