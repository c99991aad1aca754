import Verif.Model.Promql

/-!
# Specification vocabulary for PromQL: which sources a query names, valid metric
names, what a matcher means
-/

namespace LogCache.Spec

/-- `w` is one of the `|`-separated alternatives of `v`. -/
def IsAlternative (w v : Str) : Prop :=
  '|' ∉ w ∧ ∃ pre post, v = pre ++ w ++ post ∧
    (pre = [] ∨ ∃ p, pre = p ++ ['|']) ∧ (post = [] ∨ ∃ q, post = '|' :: q)

/-- A selector asks for source `id`: one of its `source_id` matchers is `= id`, or
`=~` with `id` as one of the alternatives. -/
def NamesSource (ms : List Matcher) (id : Str) : Prop :=
  ∃ m ∈ ms, m.name = "source_id".toList ∧
    (m.type = .equal ∧ m.value = id ∨ m.type = .regexp ∧ IsAlternative id m.value)

/-- A selector occurring anywhere in a query. -/
inductive HasSelector : PExpr → List Matcher → Prop where
  | vector {ms} : HasSelector (.vector ms) ms
  | matrix {ms} : HasSelector (.matrix ms) ms
  | node {n args e ms} : e ∈ args → HasSelector e ms → HasSelector (.node n args) ms

/-- Some selector of the query asks for source `id`. -/
def QueryNames (e : PExpr) (id : Str) : Prop := ∃ ms, HasSelector e ms ∧ NamesSource ms id

/-- The selectors of a query, left to right. -/
def selectorsOf : PExpr → List (List Matcher)
  | .vector ms => [ms]
  | .matrix ms => [ms]
  | .literal _ => []
  | .node _ args => ofList args
where
  ofList : List PExpr → List (List Matcher)
    | [] => []
    | e :: es => selectorsOf e ++ ofList es

/-- A matcher that names sources, without the sources it names; every other matcher as it is. -/
def blankMatcher (m : Matcher) : Matcher :=
  if m.name = "source_id".toList ∧ (m.type = .equal ∨ m.type = .regexp)
  then { m with type := .equal, value := [] } else m

/-- A query without the sources it names: all of its operators, literals and other matchers. -/
def blankSources : PExpr → PExpr
  | .vector ms => .vector (ms.map blankMatcher)
  | .matrix ms => .matrix (ms.map blankMatcher)
  | .literal t => .literal t
  | .node n args => .node n (ofList args)
where
  ofList : List PExpr → List PExpr
    | [] => []
    | e :: es => blankSources e :: ofList es

/-- Everything the engine learns from log-cache when it runs a query: the answers
of its selectors.  `order` picks the iteration order of each selector's id set. -/
def queryInputs (interval start stop : Int) (read : ReadRequest → Option (List Envelope))
    (order : List Matcher → List Str) (e : PExpr) : List (Option (List SeriesData)) :=
  (selectorsOf e).map fun ms => select interval start stop read (order ms) ms

/-- `order` lists each selector's ids, in some order and each once. -/
def ValidOrder (order : List Matcher → List Str) : Prop :=
  ∀ ms, (order ms).Nodup ∧ ∀ id, id ∈ order ms ↔ NamesSource ms id

/-- ASCII letters. -/
def letter (c : Char) : Prop := 'A' ≤ c ∧ c ≤ 'Z' ∨ 'a' ≤ c ∧ c ≤ 'z'
/-- ASCII digits. -/
def digit (c : Char) : Prop := '0' ≤ c ∧ c ≤ '9'

instance : DecidablePred letter := fun c => by unfold letter; infer_instance
instance : DecidablePred digit := fun c => by unfold digit; infer_instance

/-- A valid Prometheus metric name without colons: letters, digits and underscores,
not starting with a digit. -/
def ValidName (s : Str) : Prop :=
  (∀ c ∈ s, letter c ∨ digit c ∨ c = '_') ∧ ∀ c, s.head? = some c → ¬ digit c

/-- Two label lists are the same map. -/
def SameLabels (t u : List (Str × Str)) : Prop := ∀ k, t.lookup k = u.lookup k

/-- `v` contains the label name `k` as a dash-delimited segment after its start. -/
def HasSegment (k v : Str) : Prop :=
  ∃ pre post, v = pre ++ '-' :: k ++ post ∧ (post = [] ∨ ∃ q, post = '-' :: q)

/-- No label name contains a dash and no label value contains a label name as a
dash-delimited segment after its start. -/
def Unambiguous (ts : List (List (Str × Str))) : Prop :=
  ∀ t ∈ ts, ∀ p ∈ t, '-' ∉ p.1 ∧ ∀ u ∈ ts, ∀ q ∈ u, ¬ HasSegment q.1 p.2

/-- What a matcher means in PromQL (an absent label is the empty string). -/
def Satisfies (re : Str → Str → Bool) (m : Matcher) (labels : List (Str × Str)) : Prop :=
  let v := (labels.lookup m.name).getD []
  match m.type with
  | .equal => v = m.value
  | .notEqual => v ≠ m.value
  | .regexp => re m.value v = true
  | .notRegexp => re m.value v = false

/-- The metric a selector asks for: its last `__name__` matcher. -/
def metricOf (ms : List Matcher) : Str :=
  (((ms.filter fun m => decide (m.name = "__name__".toList)).getLast?).map (·.value)).getD []

/-- A matcher on anything but the metric name and the source id. -/
def Ordinary (m : Matcher) : Prop := m.name ≠ "__name__".toList ∧ m.name ≠ "source_id".toList

/-- The labels of an envelope's points: its tags, its source id, and its instance
id if it has one. -/
def IsLabelOf (e : Envelope) (k v : Str) : Prop :=
  if k = "source_id".toList then v = e.sourceId
  else if k = "instance_id".toList ∧ e.instanceId ≠ [] then v = e.instanceId
  else e.tags.lookup k = some v

/-- The number as the 64 bits of an `int64` hold it. -/
def As64 (n d : Int) : Prop := -2 ^ 63 ≤ d ∧ d < 2 ^ 63 ∧ ∃ k : Int, n = d + k * 2 ^ 64

/-- The name under which PromQL finds a metric: letters, and digits but for a leading one, are
kept, all else becomes an underscore. -/
def cleaned (n : Str) : Str :=
  n.mapIdx fun i c => if letter c ∨ digit c ∧ i ≠ 0 then c else '_'

/-- `v` is the value envelope `e` has for a metric of that (cleaned) name. -/
def HasValue (metric : Str) (e : Envelope) (v : PVal) : Prop :=
  match e.message with
  | some (.counter n _ total) => cleaned n = metric ∧ v = .counter total
  | some (.gauge ms) => ∃ p ∈ ms, cleaned p.1 = metric ∧ v = .gauge p.2.value
  | some (.timer n start stop) => cleaned n = metric ∧ ∃ d, v = .timer d ∧ As64 (stop - start) d
  | _ => False

/-- What a selector evaluated from `start` to `stop` asks of one of its sources: all
gauges, counters and timers from one second before `start` up to `stop`. -/
def metricsAsked (start stop : Int) (id : Str) : ReadRequest where
  sourceId := id
  start := start - 1000000000
  stop := stop
  limit := 0
  types := [.gauge, .counter, .timer]
  descending := false
  nameFilter := []

/-- Envelopes in order of time. -/
def ByTime (es : List Envelope) : Prop := es.Pairwise fun a b => a.timestamp ≤ b.timestamp

/-- `t` (milliseconds) is the time of a point made of an envelope with timestamp `ts`
(nanoseconds): the last multiple of the interval up to `ts`, or `ts` itself without an
interval. -/
def PointTime (interval ts t : Int) : Prop :=
  if interval ≤ 0 then t = ts.tdiv 1000000
  else ∃ k, interval * k ≤ ts ∧ ts < interval * (k + 1) ∧ t = (interval * k).tdiv 1000000

end LogCache.Spec
