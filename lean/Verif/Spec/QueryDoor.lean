import Verif.Spec.QueryEnd
import Verif.Model.QueryDoor

/-! # What a user may ask for with a query -/

namespace LogCache.Spec

/-- A user may read a source. -/
def UserMayRead (c : UserCtx) (auth : Str → Str → Bool) (id : Str) : Prop := c.isAdmin = true ∨ auth id c.token = true

/-- What a user gets to see of the sources that a selector names: a source it names or an app
that has such a name (`rel`), and the user may read it. -/
def SeenSource (c : UserCtx) (auth : Str → Str → Bool) (rel : Str → Option (List Str)) (ms : List Matcher)
    (id : Str) : Prop :=
  ∃ name, NamesSource ms name ∧ (id = name ∨ id ∈ (rel name).getD []) ∧ UserMayRead c auth id

/-- The envelope is of a source in `S`, has the metric and the labels a selector asks for, and
`v` is its value. -/
def ShowsOf (S : Str → Prop) (ms : List Matcher) (e : Envelope) (v : PVal) : Prop :=
  S e.sourceId ∧ HasValue (metricOf ms) e v ∧ ∀ m ∈ ms, Ordinary m → IsLabelOf e m.name m.value

/-- The envelope `x` is shown and has the labels of `e`. -/
def InSeriesOf (S : Str → Prop) (ms : List Matcher) (e x : Envelope) : Prop := (∃ v, ShowsOf S ms x v) ∧ Alike x e

/-- What a range query shows at a step, as in `StepShows`, of the sources in `S`. -/
def StepShowsOf (es : List Envelope) (S : Str → Prop) (ms : List Matcher) (e : Envelope) (stop T : Int) :
    Option (Envelope × PVal) → Prop
  | some (x, v) => ShowsOf S ms x v ∧
      (FirstWith es (fun y => InSeriesOf S ms e y ∧ InSecond T stop y) x ∨
        (∀ y ∈ es, ¬ (InSeriesOf S ms e y ∧ InSecond T stop y)) ∧
          LastWith es (fun y => InSeriesOf S ms e y ∧ SecondsBefore T stop y) x)
  | none => ∀ y ∈ es, InSeriesOf S ms e y → ¬ InSecond T stop y ∧ ¬ SecondsBefore T stop y

/-- Two selectors that differ at most in their matchers on the source id. -/
def SameButSources (ms ms' : List Matcher) : Prop :=
  List.Forall₂ (fun m m' => m' = m ∨ m.name = "source_id".toList ∧ m'.name = "source_id".toList) ms ms'

/-- A user with the valid token `token` asks for the plain selector `ms`, as the proxy parses
it; `rel` are the apps that the names have, as the proxy is told.  The ids the user may read
are free of `|`, and a node reads the selector that the proxy prints. -/
structure UserAsks (oauth : Str → Option UserCtx) (auth : Str → Str → Bool)
    (related : List Str → Str → Option Expansions) (order : List Str → List Str) (parse : Str → Option PExpr)
    (print : PExpr → Str) (nodeParse : Str → Option (List Matcher)) (token query : Str) (ms : List Matcher)
    (c : UserCtx) (rel : Expansions) : Prop where
  given : token ≠ []
  user : oauth token = some c
  asked : parse query = some (.vector ms)
  plain : PlainSelector ms
  listed : ∀ l, (order l).Perm l
  apps : ∀ ids, (∀ id, id ∈ ids ↔ NamesSource ms id) → related ids token = some rel
  clean : ∀ name id, NamesSource ms name → (id = name ∨ id ∈ (rel name).getD []) → UserMayRead c auth id → '|' ∉ id
  readBack : ∀ ms', SameButSources ms ms' → nodeParse (print (.vector ms')) = some ms'

/-- The user may read, of every source that the selector names, the source or an app of that
name. -/
def MayAsk (c : UserCtx) (auth : Str → Str → Bool) (rel : Str → Option (List Str)) (ms : List Matcher) : Prop :=
  ∀ name, NamesSource ms name → ∃ id, (id = name ∨ id ∈ (rel name).getD []) ∧ UserMayRead c auth id

end LogCache.Spec
