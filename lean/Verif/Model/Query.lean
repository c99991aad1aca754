import Verif.Model.Float
import Verif.Model.Marshal
import Verif.Model.Promql
import Verif.Model.Syslog

/-!
# The handlers of PromQL queries (`internal/promql/promql.go:61-103`, `181-227`)

The query engine is a library: here it is any program that asks selectors and then
gives its result.  A query that is cut off by its deadline is one that ends with an
error.
-/
namespace LogCache

/-- The engine executing a query: it ends with a value or an error (`none`), or it asks a
querier for the times `mint` to `maxt` (milliseconds) to evaluate a selector and goes on
with the answer (`none` is an error). Library code, reached from `promql.go:94, 218`. -/
inductive EngineRun (F : Type) where
  | done (r : Option (EngineValue F))
  | ask (mint maxt : Int) (ms : List Matcher) (k : Option (List SeriesData) → EngineRun F)

/-- One call of `Select`: the querier's times in nanoseconds, the selector, and what
was returned. Models `promql.go:277-398`. -/
structure SelectCall where
  start : Int
  stop : Int
  ms : List Matcher
  answer : Option (List SeriesData)

/-- `qq.Exec(ctx)` (promql.go:94, 218) with the `logCacheQueryable` of the request
(promql.go:270-288): the calls of `Select` and the engine's result. The data behind the
`n`-th call is `read n`; `order n` gives the order in which it goes through the source ids.
The querier's times wrap around like int64. -/
def runEngine {F : Type} (read : Nat → ReadRequest → Option (List Envelope)) (order : Nat → List Matcher → List Str) :
    Nat → EngineRun F → List SelectCall × Option (EngineValue F)
  | _, .done r => ([], r)
  | n, .ask mint maxt ms k =>
    let start := wrap64 (mint * 1000000)
    let stop := wrap64 (maxt * 1000000)
    let ans := select 1000000000 start stop (read n) (order n ms) ms
    let rest := runEngine read order (n + 1) (k ans)
    (⟨start, stop, ms, ans⟩ :: rest.1, rest.2)

/-- `closureErr != nil` (promql.go:62, 72, 97): `Select` reports each error it returns
(promql.go:320-324, 341-344). -/
def closureErr (calls : List SelectCall) : Bool := calls.any fun c => c.answer.isNone

/-- What becomes of a query. Models `promql.go:61-103, 181-227`. -/
inductive QueryEnd (F : Type) where
  | error
  | crash
  | answer (r : PResult F)

/-- A handled query: the calls of `Select`, by how much `log_cache_promql_timeout` went
up, and the end. Models `promql.go:61-103, 181-227`. -/
structure HandledQuery (F : Type) where
  calls : List SelectCall
  failures : Nat
  result : QueryEnd F

/-- What follows `qq.Exec` (promql.go:97-102, 221-226); `conv` is the conversion of
values. -/
def finishQuery {F : Type} (conv : EngineValue F → Option (PResult F))
    (x : List SelectCall × Option (EngineValue F)) : HandledQuery F :=
  if closureErr x.1 then ⟨x.1, 1, .error⟩
  else match x.2 with
    | none => ⟨x.1, 0, .error⟩
    | some v => match conv v with
      | some r => ⟨x.1, 0, .answer r⟩
      | none => ⟨x.1, 0, .crash⟩

/-- The time of an instant query (promql.go:77-86): the parameter, or the current second
if there is none. `now.Truncate(time.Second)` is `now` rounded down: seconds since the
epoch and since the zero time agree. -/
def requestTime (rfc : Str → Option Int) (now : Int) (time : Str) : Option Int :=
  if time = [] then some (now - now % 1000000000) else parseTime rfc time

/-- `InstantQuery` (promql.go:61-103); `engine` is `NewInstantQuery`, which parses the
query (`none`: error). -/
def instantQuery {F : Type} (fl : FloatLib F) (rfc : Str → Option Int)
    (engine : Str → Int → Option (EngineRun F)) (read : Nat → ReadRequest → Option (List Envelope))
    (order : Nat → List Matcher → List Str) (now : Int) (query time : Str) : HandledQuery F :=
  match requestTime rfc now time with
  | none => ⟨[], 0, .error⟩
  | some t => match engine query t with
    | none => ⟨[], 0, .error⟩
    | some p => finishQuery (toInstant fl) (runEngine read order 0 p)

/-- `RangeQuery` (promql.go:181-227); `engine` is `NewRangeQuery` on start, end and
step. -/
def rangeQuery {F : Type} (fl : FloatLib F) (rfc dur : Str → Option Int)
    (engine : Str → Int → Int → Int → Option (EngineRun F)) (read : Nat → ReadRequest → Option (List Envelope))
    (order : Nat → List Matcher → List Str) (query start stop step : Str) : HandledQuery F :=
  match parseStep dur step with
  | none => ⟨[], 0, .error⟩
  | some d => match parseTime rfc start with
    | none => ⟨[], 0, .error⟩
    | some a => match parseTime rfc stop with
      | none => ⟨[], 0, .error⟩
      | some b => match engine query a b d with
        | none => ⟨[], 0, .error⟩
        | some p => finishQuery (toRange fl) (runEngine read order 0 p)

end LogCache
