import Verif.Model.PromClient
import Verif.Model.Client
import Verif.Spec.Marshal
import Verif.Spec.Client
import Verif.Spec.EnvelopeFormat

/-!
# The HTTP interface as someone sees it who does not use the client library

The names and values of the parameters of a request, and the form of the answer to a query.
-/

namespace LogCache.Spec

/-! ## Parameters -/

/-- The first value of the parameter. -/
def ParamGiven (q : Values) (k : String) (v : Str) : Prop := ∃ vs, List.lookup k.toList q = some (v :: vs)

/-- The parameter is missing. -/
def ParamMissing (q : Values) (k : String) : Prop := ∀ vs, (k.toList, vs) ∉ q

/-- The value of a text, which is empty if it is missing. -/
def ParamText (q : Values) (k : String) (v : Str) : Prop := ParamGiven q k v ∨ ParamMissing q k ∧ v = []

/-- The value of a number in decimal notation, which is zero if it is missing. -/
def ParamNumber (q : Values) (k : String) (n : Int) : Prop := ParamGiven q k (decInt n) ∨ ParamMissing q k ∧ n = 0

/-- The value of a flag, which is down if it is missing. -/
def ParamFlag (q : Values) (k : String) (b : Bool) : Prop :=
  b = true ∧ ParamGiven q k "true".toList ∨ b = false ∧ (ParamGiven q k "false".toList ∨ ParamMissing q k)

/-- The names of the types of envelopes. -/
inductive TypeName : EType → String → Prop
  | any : TypeName .any "ANY"
  | log : TypeName .log "LOG"
  | counter : TypeName .counter "COUNTER"
  | gauge : TypeName .gauge "GAUGE"
  | timer : TypeName .timer "TIMER"
  | event : TypeName .event "EVENT"

/-- The values of a list of types, each as a value of its own. -/
def ParamTypes (q : Values) (k : String) (ts : List EType) : Prop :=
  (∃ vs, List.lookup k.toList q = some vs ∧ List.Forall₂ (fun t v => ∃ s, TypeName t s ∧ v = s.toList) ts vs) ∨
    ParamMissing q k ∧ ts = []

/-- The parameters of a request to read the source `r.sourceId`. -/
structure ReadParams (q : Values) (r : ReadRequest) : Prop where
  start : ParamNumber q "start_time" r.start
  stop : ParamNumber q "end_time" r.stop
  limit : ParamNumber q "limit" r.limit
  types : ParamTypes q "envelope_types" r.types
  descending : ParamFlag q "descending" r.descending
  name : ParamText q "name_filter" r.nameFilter

/-! ## The answer to a query -/

/-- The text of a value: a number to which it is nearest, or a word. -/
def ValueText (x : F64) (s : Str) : Prop :=
  match x with
  | .nan => s = "NaN".toList
  | .inf neg => s = if neg then "-Inf".toList else "+Inf".toList
  | .fin neg _ _ => ∃ q, SignedText s neg q ∧ Nearest64 (if neg then -q else q) x

/-- A point: its time in seconds with three decimals and its value as text. -/
def PointShown (t : Int) (x : F64) (j : Json) : Prop :=
  ∃ s, j = .arr [.num (thousandthsText t), .str s] ∧ ValueText x s

/-- The labels of a series. -/
def LabelsShown (ls : List (Str × Str)) (j : Json) : Prop := MapShown (fun s v => v = .str s) ls j

/-- The value of a series at a time. -/
def SampleShown (x : EngineSample {x : F64 // Binary64 x}) (j : Json) : Prop :=
  ∃ m v, Member j "metric" m ∧ LabelsShown x.labels m ∧ Member j "value" v ∧ PointShown x.t x.v.1 v

/-- The values of a series at some times; no values are `null`. -/
def SeriesShown (x : EngineSeries {x : F64 // Binary64 x}) (j : Json) : Prop :=
  ∃ m v, Member j "metric" m ∧ LabelsShown x.labels m ∧ Member j "values" v ∧
    (x.points = [] ∧ v = .null ∨
      x.points ≠ [] ∧ ∃ js, v = .arr js ∧ List.Forall₂ (fun p j => PointShown p.1 p.2.1 j) x.points js)

/-- What was computed, in JSON. -/
def DataShown (x : EngineValue {x : F64 // Binary64 x}) (j : Json) : Prop :=
  match x with
  | .scalar t v => Member j "resultType" (.str "scalar".toList) ∧ ∃ p, Member j "result" p ∧ PointShown t v.1 p
  | .vector xs => Member j "resultType" (.str "vector".toList) ∧
      ∃ js, Member j "result" (.arr js) ∧ List.Forall₂ SampleShown xs js
  | .matrix xs => Member j "resultType" (.str "matrix".toList) ∧
      ∃ js, Member j "result" (.arr js) ∧ List.Forall₂ SeriesShown xs js
  | .string _ _ => False

/-- The answer to a query that succeeded. -/
def QueryShown (x : EngineValue {x : F64 // Binary64 x}) (j : Json) : Prop :=
  Member j "status" (.str "success".toList) ∧ ∃ d, Member j "data" d ∧ DataShown x d

/-- The answer to a query that failed. -/
def FailureShown (msg : Str) (j : Json) : Prop :=
  Member j "status" (.str "error".toList) ∧ Member j "errorType" (.str "internal".toList) ∧
    Member j "error" (.str msg) ∧ NoMember j "data"

/-- The labels of a series have different names. -/
def OneValueEach (ls : List (Str × Str)) : Prop := (ls.map Prod.fst).Nodup

/-- A time before the year 280000. -/
def TimeInRange (t : Int) : Prop := t.natAbs < 2 ^ 43 * 1000

/-- What the query engine computes, except for strings: labels have different names. -/
def EngineResult (x : EngineValue {x : F64 // Binary64 x}) : Prop :=
  match x with
  | .scalar t _ => TimeInRange t
  | .vector xs => ∀ s ∈ xs, OneValueEach s.labels ∧ TimeInRange s.t
  | .matrix xs => ∀ s ∈ xs, OneValueEach s.labels ∧ ∀ p ∈ s.points, TimeInRange p.1
  | .string _ _ => False

end LogCache.Spec
