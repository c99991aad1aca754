import Verif.Model.Query

/-!
# A query that is a plain selector

The series sets and iterators of `internal/promql/promql.go:419-523` as the query engine
uses them.  The engine is a library (`github.com/prometheus/prometheus/promql` and its
`storage` package) whose source is not in the repository; its evaluation of a query that is
a single selector without range or offset is written down here from its documented
behaviour.  Simplifications: no value is a staleness marker, and the series of a range
query are not sorted by their labels.
-/
namespace LogCache

/-- `concreteSeriesSet`, promql.go:448-452. -/
structure SeriesSet where
  cur : Nat := 0
  series : List SeriesData

/-- `Next`, promql.go:454-457. -/
def SeriesSet.next (s : SeriesSet) : SeriesSet × Bool :=
  ({ s with cur := s.cur + 1 }, decide (s.cur + 1 - 1 < s.series.length))

/-- `At`, promql.go:459-461; `none` is an index-out-of-range panic. -/
def SeriesSet.at (s : SeriesSet) : Option SeriesData :=
  if s.cur = 0 then none else s.series[s.cur - 1]?

/-- `expandSeriesSet` of the engine: all series of a set (promql.go:448-465), one after the
other.  The fuel is one more than the number of series. -/
def expandSet : Nat → SeriesSet → Option (List SeriesData)
  | 0, _ => none
  | fuel + 1, s =>
    let r := s.next
    if r.2 then
      match r.1.at with
      | none => none
      | some x => (expandSet fuel r.1).map (x :: ·)
    else some []

/-- `Labels`, promql.go:478-480, on the labels of `convertToLabels` (promql.go:419-428):
`labels.New` sorts them by name. -/
def seriesLabels (s : SeriesData) : List (Str × Str) :=
  s.tags.mergeSort fun a b => strLe a.1 b.1

/-- The engine's `LookbackDelta`, five minutes, in milliseconds.
Library code, reached from `promql.go:88-94, 212-218`. -/
def lookback : Int := 300000

/-- `storage.BufferedSeriesIterator` of the engine around an iterator of
promql.go:486-523: the points passed in the last `delta`, oldest first, the time of the
current point (`none`: the smallest int64, before any point) and whether there is one. -/
structure BufIter where
  it : SeriesIter
  ring : List Point
  last : Option Int
  ok : Bool
deriving DecidableEq, Repr

/-- `NewBuffer` of the engine around a new iterator (promql.go:482-497). -/
def newBuffer (points : List Point) : BufIter :=
  ⟨(SeriesIter.next { points := points }).1, [], none, true⟩

/-- `sampleRing.add` of the engine: append and drop what is too old.
Library code, reached from `promql.go:88-94, 212-218`. -/
def ringAdd (delta : Int) (ring : List Point) (p : Point) : List Point :=
  (ring ++ [p]).dropWhile fun q => decide (q.t < p.t - delta)

/-- `BufferedSeriesIterator.Next` of the engine on promql.go:507-518; `none` is a panic of
`At`. -/
def BufIter.next (delta : Int) (b : BufIter) : Option (BufIter × Bool) :=
  if b.ok then
    match b.it.at with
    | none => none
    | some p =>
      let r := b.it.next
      if r.2 then
        match r.1.at with
        | none => none
        | some q => some (⟨r.1, ringAdd delta b.ring p, some q.t, true⟩, true)
      else some (⟨r.1, ringAdd delta b.ring p, b.last, false⟩, false)
  else some (b, false)

/-- The loop at the end of `BufferedSeriesIterator.Seek` of the engine (promql.go:507-518):
`Next` until the time is reached. -/
def BufIter.advance (delta t : Int) : Nat → BufIter → Option (BufIter × Bool)
  | 0, _ => none
  | fuel + 1, b =>
    match b.next delta with
    | none => none
    | some (b', ok) =>
      if ok then
        if b'.last.any (fun l => decide (t ≤ l)) then some (b', true) else BufIter.advance delta t fuel b'
      else some (b', false)

/-- The second half of `BufferedSeriesIterator.Seek` of the engine.
Library code, reached from `promql.go:88-94, 212-218`. -/
def BufIter.reach (delta t : Int) (b : BufIter) : Option (BufIter × Bool) :=
  if b.last.any (fun l => decide (t ≤ l)) then some (b, true)
  else b.advance delta t (b.it.points.length + 1)

/-- `BufferedSeriesIterator.Seek` of the engine on promql.go:499-518. -/
def BufIter.seek (b : BufIter) (delta t : Int) : Option (BufIter × Bool) :=
  if b.last.all (fun l => decide (l < t - delta)) then
    let r := b.it.seek (t - delta)
    if r.2 then
      match r.1.at with
      | none => none
      | some p => BufIter.reach delta t ⟨r.1, [], some p.t, true⟩
    else some (⟨r.1, [], b.last, false⟩, false)
  else b.reach delta t

/-- `vectorSelectorSingle` of the engine without offset: the point a selector shows at time
`t` (milliseconds), read through promql.go:499-518. -/
def selectorPoint (b : BufIter) (t : Int) : Option (BufIter × Option Point) :=
  match b.seek lookback t with
  | none => none
  | some (b', ok) =>
    let back := match b'.ring.getLast? with
      | some p => if p.t < t - lookback then none else some p
      | none => none
    if ok then
      match b'.it.at with
      | none => none
      | some p => if t < p.t then some (b', back) else some (b', some p)
    else some (b', back)

/-- The loop of the engine over the times of a query, for one series; each value is given
the time of its step. Library code, reached from `promql.go:88-94, 212-218`. -/
def evalSteps : List Int → BufIter → Option (List (Int × PVal))
  | [], _ => some []
  | t :: ts, b =>
    match selectorPoint b t with
    | none => none
    | some (b', p) => (evalSteps ts b').map ((p.map fun p => (t, p.v)).toList ++ ·)

/-- The engine's evaluation of a selector at some times: the series with a value at one of
them. Library code, reached from `promql.go:88-94, 212-218`. -/
def evalSelector (ts : List Int) : List SeriesData → Option (List (List (Str × Str) × List (Int × PVal)))
  | [] => some []
  | s :: ss =>
    match evalSteps ts (newBuffer s.points) with
    | none => none
    | some ps => (evalSelector ts ss).map fun rest => if ps = [] then rest else (seriesLabels s, ps) :: rest

/-- `timestamp.FromTime` of the engine: whole milliseconds, rounded down.
Library code, reached from `promql.go:88-94, 212-218`. -/
def fromTime (t : Int) : Int := t / 1000000

/-- `timeMilliseconds` of the engine: whole milliseconds, rounded towards zero.
Library code, reached from `promql.go:88-94, 212-218`. -/
def timeMilliseconds (t : Int) : Int := t.tdiv 1000000

/-- The answer of `Select` (promql.go:299-398) as the engine reads it, evaluated at `ts`;
a panic becomes an error. -/
def selectorMatrix (ts : List Int) (ans : Option (List SeriesData)) :
    Option (List (List (Str × Str) × List (Int × PVal))) :=
  match ans with
  | none => none
  | some series =>
    match expandSet (series.length + 1) { series := series } with
    | none => none
    | some all => evalSelector ts all

/-- The value of an instant query (promql.go:88-94) at time `t` (nanoseconds) that is a
selector with the answer `ans`: the vector of the series with a value at `t`. -/
def instantValue {F : Type} (num : PVal → F) (t : Int) (ans : Option (List SeriesData)) : Option (EngineValue F) :=
  (selectorMatrix [timeMilliseconds t] ans).map fun m =>
    .vector (m.filterMap fun s => s.2.head?.map fun p => ⟨s.1, timeMilliseconds t, num p.2⟩)

/-- The engine executing, at time `t` (nanoseconds), an instant query (promql.go:88-94) that
is the selector `ms`; `num` turns values into floats.  It asks for the last five minutes. -/
def plainInstant {F : Type} (num : PVal → F) (ms : List Matcher) (t : Int) : EngineRun F :=
  .ask (fromTime (t - lookback * 1000000)) (fromTime t) ms fun ans => .done (instantValue num t ans)

/-- The times of a range query: `start`, `start + step`, … up to `stop` (milliseconds).
Library code, reached from `promql.go:88-94, 212-218`. -/
def stepTimes (start stop step : Int) : List Int :=
  (List.range ((stop - start) / step + 1).toNat).map fun k : Nat => start + step * (k : Int)

/-- The loop of the engine over the steps of a range query,
`for ts := start; ts <= end; ts += interval` (from memory), on 64 bits; `none`: it has not
ended after so many rounds.  Nothing in the loop looks at the query's deadline.
Library code, reached from `promql.go:212-218`. -/
def stepLoop (stop step : Int) : Nat → Int → Option (List Int)
  | 0, _ => none
  | n + 1, ts => if stop < ts then some [] else (stepLoop stop step n (wrap64 (ts + step))).map fun rest => ts :: rest

/-- The engine executing a range query (promql.go:212-218) that is the selector `ms`, from
`a` to `b` with step `d` (nanoseconds).  The engine takes a query for an instant query if
its two times are equal and its step is zero.  Any other step below a millisecond is a
division by zero, which becomes an error.  Simplification: negative steps are not
considered. -/
def plainRange {F : Type} (num : PVal → F) (ms : List Matcher) (a b d : Int) : EngineRun F :=
  .ask (fromTime (a - lookback * 1000000)) (fromTime b) ms fun ans =>
    .done (if a = b ∧ d = 0 then instantValue num a ans
      else if timeMilliseconds d = 0 then none
      else (selectorMatrix (stepTimes (timeMilliseconds a) (timeMilliseconds b) (timeMilliseconds d)) ans).map fun m =>
        .matrix (m.map fun s => ⟨s.1, s.2.map fun p => (p.1, num p.2)⟩))

end LogCache
