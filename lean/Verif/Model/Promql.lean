import Verif.Model.Base
import Verif.Model.Routing
import Verif.Model.Reader

/-!
# PromQL: source ids, selectors and series

Models `/repo/internal/promql/promql.go:284-741`.  The PromQL parser, printer,
tree walk and engine are dependencies (`prometheus/promql`): a query is modelled
as its syntax tree, and printing a tree and parsing it again gives the same tree.
Both `promql.Walk` (used for extraction and replacement) and the engine visit the
same selectors of a tree.
-/

namespace LogCache

/-- `labels.MatchType` (prometheus): `=`, `!=`, `=~`, `!~`.
Library code, reached from `promql.go:299-318, 645-655`. -/
inductive MatchType where
  | equal | notEqual | regexp | notRegexp
deriving DecidableEq, Repr

/-- `labels.Matcher` (prometheus), as used at `promql.go:299-320`. -/
structure Matcher where
  type : MatchType
  name : Str
  value : Str
deriving DecidableEq, Repr

/-- A PromQL syntax tree.  `vector` is `promql.VectorSelector`, `matrix` is
`promql.MatrixSelector`, `literal` is a number or string, `node` is any other
operator, call, aggregation, parenthesis or subquery with its operands.
Library code, reached from `promql.go:589-635, 657-710`. -/
inductive PExpr where
  | vector (ms : List Matcher)
  | matrix (ms : List Matcher)
  | literal (text : Str)
  | node (name : Str) (args : List PExpr)

/-- `strings.Split(s, sep)` for a one-character separator: the pieces between the
separators, never an empty list (Go standard library).
Library code, reached from `promql.go:648`. -/
def splitOn (sep : Char) : Str → List Str
  | [] => [[]]
  | c :: cs =>
    if c = sep then [] :: splitOn sep cs
    else match splitOn sep cs with
      | [] => [[c]]
      | w :: ws => (c :: w) :: ws

/-- `strings.Split(s, "|")`, `promql.go:648` and `728`. -/
def splitPipe : Str → List Str := splitOn '|'

/-- `strings.Join(xs, "|")`, `promql.go:721` and `740`. -/
def joinPipe : List Str → Str
  | [] => []
  | [w] => w
  | w :: w' :: ws => w ++ '|' :: joinPipe (w' :: ws)

/-- `"source_id"`. Models `promql.go:310, 639`. -/
def sourceIdLabel : Str := "source_id".toList
/-- `"__name__"`. Models `promql.go:306`. -/
def nameLabel : Str := "__name__".toList
/-- `"instance_id"`. Models `promql.go:380-388`. -/
def instanceIdLabel : Str := "instance_id".toList

/-- `sourceIDs[x] = struct{}{}` on a `map[string]struct{}`, kept as a list
without repetitions (the order is not observable: callers quantify over it).
Models `promql.go:645-655`. -/
def setInsert (ids : List Str) (x : Str) : List Str := if x ∈ ids then ids else ids ++ [x]

/-- `addSourceIDsFromLabelMatcher`, `promql.go:645-655`. -/
def addSourceIds (ids : List Str) (m : Matcher) : List Str :=
  match m.type with
  | .regexp => (splitPipe m.value).foldl setInsert ids
  | .equal => setInsert ids m.value
  | _ => ids

/-- `addSourceIDsFromMatchers`, `promql.go:637-643`. -/
def addFromMatchers (ids : List Str) (ms : List Matcher) : List Str :=
  ms.foldl (fun ids m => if m.name = sourceIdLabel then addSourceIds ids m else ids) ids

mutual
/-- `promql.Walk` with `sourceIDVisitor.Visit`, `promql.go:622-635`. -/
def extractWalk : List Str → PExpr → List Str
  | ids, .vector ms => addFromMatchers ids ms
  | ids, .matrix ms => addFromMatchers ids ms
  | ids, .literal _ => ids
  | ids, .node _ args => extractWalkList ids args
/-- The operands of a node, in order (`promql.Walk`).
Library code, reached from `promql.go:589-635`. -/
def extractWalkList : List Str → List PExpr → List Str
  | ids, [] => ids
  | ids, e :: es => extractWalkList (extractWalk ids e) es
end

/-- `ExtractSourceIds` after parsing, `promql.go:589-610`, up to the order of the
answer (a map iteration). -/
def extractSourceIds (e : PExpr) : List Str := extractWalk [] e

/-- The expansions map of `ReplaceSourceIdSets`: `none` is an absent key.
Models `promql.go:657-682`. -/
abbrev Expansions := Str → Option (List Str)

/-- `if len(expansions) > 1 { MatchRegexp } else { MatchEqual }` and
`strings.Join`, `promql.go:716-721` and `735-740`. -/
def setExpansions (m : Matcher) (xs : List Str) : Matcher :=
  { m with type := if xs.length > 1 then .regexp else .equal, value := joinPipe xs }

/-- `replaceSourceIdsInEqualMatcher`, `promql.go:712-723`. -/
def replaceEqual (ex : Expansions) (m : Matcher) : Matcher :=
  match ex m.value with
  | some xs => setExpansions m xs
  | none => m

/-- `replaceSourceIdsInRegexpMatcher`, `promql.go:725-741`. -/
def replaceRegexp (ex : Expansions) (m : Matcher) : Matcher :=
  setExpansions m ((splitPipe m.value).flatMap fun id => (ex id).getD [])

/-- The loop body of `replaceInMatchers`, `promql.go:699-710`. -/
def replaceMatcher (ex : Expansions) (m : Matcher) : Matcher :=
  if m.name = sourceIdLabel then
    match m.type with
    | .equal => replaceEqual ex m
    | .regexp => replaceRegexp ex m
    | _ => m
  else m

mutual
/-- `promql.Walk` with `sourceIdReplacementVisitor.Visit`, `promql.go:684-710`;
the visitor updates the matchers in place. -/
def replaceSets (ex : Expansions) : PExpr → PExpr
  | .vector ms => .vector (ms.map (replaceMatcher ex))
  | .matrix ms => .matrix (ms.map (replaceMatcher ex))
  | .literal t => .literal t
  | .node n args => .node n (replaceSetsList ex args)
/-- The operands of a node. Library code, reached from `promql.go:684-710`. -/
def replaceSetsList (ex : Expansions) : List PExpr → List PExpr
  | [] => []
  | e :: es => replaceSets ex e :: replaceSetsList ex es
end

/-! ## Select -/

/-- The first loop of `Select`, `promql.go:299-318`: metric name, ordinary labels
(name and value, whatever the matcher type), source ids. -/
structure SelectArgs where
  metric : Str := []
  labels : List (Str × Str) := []
  ids : List Str := []
deriving DecidableEq, Repr

/-- One iteration of the first loop of `Select`, `promql.go:305-318`. -/
def selectArg (a : SelectArgs) (m : Matcher) : SelectArgs :=
  if m.name = nameLabel then { a with metric := m.value }
  else if m.name = sourceIdLabel then { a with ids := addSourceIds a.ids m }
  else { a with labels := a.labels ++ [(m.name, m.value)] }

/-- The first loop of `Select`, `promql.go:299-318`. -/
def selectArgs (ms : List Matcher) : SelectArgs := ms.foldl selectArg {}

/-- Is `c` in the character class `[A-z_]` of the regular expression at
`promql.go:415` (the range `A-z` includes the six characters between `Z` and `a`)? -/
def inAz (c : Char) : Bool := ('A' ≤ c && c ≤ 'z') || c = '_'

/-- Does `c` match `\w` (RE2: ASCII letters, digits and underscore)?
Library code, reached from `promql.go:415`. -/
def isWord (c : Char) : Bool :=
  ('0' ≤ c && c ≤ '9') || ('A' ≤ c && c ≤ 'Z') || ('a' ≤ c && c ≤ 'z') || c = '_'

/-- Does `c` match `[\W_]`? Library code, reached from `promql.go:415`. -/
def inWUnderscore (c : Char) : Bool := !isWord c || c = '_'

/-- `SanitizeMetricName`, `promql.go:410-417`: every match of
``^[^A-z_]|[\W_]+?`` (each match is a single character) becomes an underscore. -/
def sanitize : Str → Str
  | [] => []
  | c :: cs =>
    (if !inAz c || inWUnderscore c then '_' else c) ::
      cs.map fun d => if inWUnderscore d then '_' else d

/-- `hasLabels`, `promql.go:430-438`. -/
def hasLabels (tags : List (Str × Str)) (ls : List (Str × Str)) : Bool :=
  ls.all fun l => tags.lookup l.1 = some l.2

/-- The value of a point.  `float64` conversions are kept symbolic: a counter's
total, a gauge's value, or a timer's duration. Models `promql.go:351-376`. -/
inductive PVal where
  | counter (total : Nat) | gauge (v : Int) | timer (d : Int)
deriving DecidableEq, Repr

/-- `point`, `promql.go:473-476`. -/
structure Point where
  t : Int
  v : PVal
deriving DecidableEq, Repr

/-- `checkMapForSanitizedMetricName`, `promql.go:400-408`: the first gauge entry,
in map iteration order, whose sanitized name is the metric. -/
def findSanitized (metric : Str) : List (Str × GaugeValue) → Option GaugeValue
  | [] => none
  | (k, v) :: rest => if sanitize k = metric then some v else findSanitized metric rest

/-- The value switch of `Select`, `promql.go:351-376`; `none` is `continue`.
The difference of a timer's ends is an `int64`. -/
def pointValue (metric : Str) (e : Envelope) : Option PVal :=
  match e.message with
  | some (.counter n _ total) => if sanitize n = metric then some (.counter total) else none
  | some (.gauge ms) => (findSanitized metric ms).map fun v => .gauge v.value
  | some (.timer n start stop) => if sanitize n = metric then some (.timer (wrap64 (stop - start))) else none
  | _ => none

/-- `time.Unix(0, ts).Truncate(interval).UnixNano()`, `promql.go:378`: round down
to a multiple of the interval since the zero time; for the intervals used (a
second, or none) multiples since the epoch.  `Truncate` of a non-positive
interval does nothing. -/
def truncateTime (interval ts : Int) : Int :=
  if interval ≤ 0 then ts else ts - ts % interval

/-- The tags of a point, `promql.go:380-388`. -/
def pointTags (e : Envelope) : List (Str × Str) :=
  let tags := mapSet e.tags sourceIdLabel e.sourceId
  if e.instanceId = [] then tags else mapSet tags instanceIdLabel e.instanceId

/-- One envelope of `Select`'s inner loop, `promql.go:346-394`. -/
def selectPoint (a : SelectArgs) (interval : Int) (e : Envelope) : Option (List (Str × Str) × Point) :=
  if hasLabels e.tags a.labels then
    (pointValue a.metric e).map fun v =>
      (pointTags e, { t := (truncateTime interval e.timestamp).tdiv 1000000, v := v })
  else none

/-- `sort.Strings` order (Go compares bytes; here code points, the same order
for UTF-8). Library code, reached from `promql.go:557-571`. -/
def strLe (a b : Str) : Bool := !(b < a)

/-- `getSeriesID`, `promql.go:557-571`. -/
def seriesId (tags : List (Str × Str)) : Str :=
  (((tags.map Prod.fst).mergeSort strLe).map fun k =>
    '-' :: k ++ '-' :: ((tags.lookup k).getD [])).flatten

/-- `seriesData`, `promql.go:525-528`. -/
structure SeriesData where
  tags : List (Str × Str)
  points : List Point
deriving DecidableEq, Repr

/-- `seriesSetBuilder.add`, `promql.go:540-555`: the map from series id to data. -/
def builderAdd (b : List (Str × SeriesData)) (tp : List (Str × Str) × Point) : List (Str × SeriesData) :=
  let id := seriesId tp.1
  let d := (b.lookup id).getD { tags := tp.1, points := [] }
  mapSet b id { d with points := d.points ++ [tp.2] }

/-- The request `Select` makes for one source id, `promql.go:329-339`. -/
def selectRequest (start stop : Int) (id : Str) : ReadRequest :=
  { sourceId := id, start := start - 1000000000, stop := stop,
    types := [.gauge, .counter, .timer] }

/-- `Select`, `promql.go:299-398`, with the source ids iterated in the order
`ids`; `read` is the data reader (`none` is an error).  `none` is an error. -/
def selectLoop (a : SelectArgs) (interval start stop : Int) (read : ReadRequest → Option (List Envelope)) :
    List Str → List (Str × SeriesData) → Option (List (Str × SeriesData))
  | [], b => some b
  | id :: ids, b =>
    match read (selectRequest start stop id) with
    | none => none
    | some es => selectLoop a interval start stop read ids ((es.filterMap (selectPoint a interval)).foldl builderAdd b)

/-- `Select`, `promql.go:299-398`; `order` is the iteration order of the source id
set.  The result is the series set (in map order). -/
def select (interval start stop : Int) (read : ReadRequest → Option (List Envelope))
    (order : List Str) (ms : List Matcher) : Option (List SeriesData) :=
  let a := selectArgs ms
  if a.ids = [] then none
  else (selectLoop a interval start stop read order []).map fun b => b.map Prod.snd

/-! ## Series iterators -/

/-- `sort.Search(n, f)` (Go standard library), as used at `promql.go:501-503`:
binary search on `[i, j)`. -/
def searchLoop (f : Nat → Bool) : Nat → Nat → Nat → Nat
  | 0, i, _ => i
  | fuel + 1, i, j =>
    if i < j then
      let h := (i + j) / 2
      if f h then searchLoop f fuel i h else searchLoop f fuel (h + 1) j
    else i

/-- `sort.Search(n, f)`. Library code, reached from `promql.go:501`. -/
def sortSearch (n : Nat) (f : Nat → Bool) : Nat := searchLoop f n 0 n

/-- `concreteSeriesIterator`, `promql.go:486-497`: `cur` starts at `-1`. -/
structure SeriesIter where
  cur : Int := -1
  points : List Point
deriving DecidableEq, Repr

/-- `Seek`, `promql.go:500-505`. -/
def SeriesIter.seek (it : SeriesIter) (t : Int) : SeriesIter × Bool :=
  let cur := sortSearch it.points.length fun n => decide (((it.points[n]?).map (·.t)).getD 0 ≥ t)
  ({ it with cur := cur }, decide (cur < it.points.length))

/-- `Next`, `promql.go:515-518`. -/
def SeriesIter.next (it : SeriesIter) : SeriesIter × Bool :=
  ({ it with cur := it.cur + 1 }, decide (it.cur + 1 < it.points.length))

/-- `At`, `promql.go:508-512`; `none` is an index-out-of-range panic. -/
def SeriesIter.at (it : SeriesIter) : Option Point :=
  if it.cur < 0 then none else it.points[it.cur.toNat]?

end LogCache
