import Verif.Model.Engine

/-!
# A query that is a selector with a range

An instant query `metric{...}[5m]`, and a function of one, such as
`count_over_time(metric{...}[5m])`.  As in `Engine`, the engine is a library
(`github.com/prometheus/prometheus/promql`) that is not in the repository; its evaluation is
written down from recollection, on the series sets and iterators of
`internal/promql/promql.go:419-523`.  No value is a staleness marker.
-/
namespace LogCache

/-- `matrixIterSlice` of the engine at one time `t` (milliseconds), read through
promql.go:499-518: the points in the buffer that are not older than the range, and the
point found if it is of exactly that time. -/
def matrixPoints (b : BufIter) (range t : Int) : Option (List Point) :=
  match b.seek range t with
  | none => none
  | some (b', ok) =>
    let out := b'.ring.filter fun p => decide (t - range ≤ p.t)
    if ok then
      match b'.it.at with
      | none => none
      | some p => some (if p.t = t then out ++ [p] else out)
    else some out

/-- `matrixSelector` of the engine on the series of promql.go:467-484: the series with a
point in the range. -/
def evalMatrix (range t : Int) : List SeriesData → Option (List (List (Str × Str) × List Point))
  | [] => some []
  | s :: ss =>
    match matrixPoints (newBuffer s.points) range t with
    | none => none
    | some ps => (evalMatrix range t ss).map fun rest => if ps = [] then rest else (seriesLabels s, ps) :: rest

/-- The answer of `Select` (promql.go:299-398) as the engine reads it for a selector with a
range; a panic becomes an error. -/
def matrixOf (range t : Int) (ans : Option (List SeriesData)) : Option (List (List (Str × Str) × List Point)) :=
  match ans with
  | none => none
  | some series =>
    match expandSet (series.length + 1) { series := series } with
    | none => none
    | some all => evalMatrix range t all

/-- The engine executing, at time `t` (nanoseconds), an instant query (promql.go:88-94) that
is the selector `ms` with a range (milliseconds).  It asks for the time of the range. -/
def rangeInstant {F : Type} (num : PVal → F) (ms : List Matcher) (range t : Int) : EngineRun F :=
  .ask (fromTime (t - range * 1000000)) (fromTime t) ms fun ans =>
    .done ((matrixOf range (timeMilliseconds t) ans).map fun m =>
      .matrix (m.map fun s => ⟨s.1, s.2.map fun p => (p.t, num p.v)⟩))

/-- `dropMetricName` of the engine. Library code, reached from `promql.go:88-94, 212-218`. -/
def dropMetricName (ls : List (Str × Str)) : List (Str × Str) :=
  ls.filter fun l => decide (l.1 ≠ nameLabel)

/-- The engine executing, at time `t` (nanoseconds), an instant query (promql.go:88-94) that
is a function `f` of the selector `ms` with a range (milliseconds), such as
`count_over_time`, `sum_over_time` or `max_over_time`, which give every series a value. -/
def overTimeInstant {F : Type} (num : PVal → F) (f : List (Int × F) → F) (ms : List Matcher) (range t : Int) :
    EngineRun F :=
  .ask (fromTime (t - range * 1000000)) (fromTime t) ms fun ans =>
    .done ((matrixOf range (timeMilliseconds t) ans).map fun m =>
      .vector (m.map fun s => ⟨dropMetricName s.1, timeMilliseconds t, f (s.2.map fun p => (p.t, num p.v))⟩))

end LogCache
