import Verif.Spec.Promql
import Verif.Spec.Read
import Verif.Spec.Client

/-!
# Specification vocabulary for the values a plain selector returns
-/

namespace LogCache.Spec

/-- The stored envelopes of every source: in order of time, under their own source id, with
maps for tags. -/
structure StoredLogs (log : Str → List Envelope) : Prop where
  byTime : ∀ id, ByTime (log id)
  own : ∀ id, ∀ e ∈ log id, e.sourceId = id
  tags : ∀ id, ∀ e ∈ log id, (e.tags.map Prod.fst).Nodup

/-- What a query asks of a source is answered from the stored envelopes, for the sources that a
selector names. -/
def AnswersFrom (ms : List Matcher) (log : Str → List Envelope) (read : ReadRequest → Option (List Envelope)) : Prop :=
  ∀ id start stop, NamesSource ms id → FitsInt64 start → FitsInt64 stop → stop ≠ 0 →
    read { sourceId := id, start := start, stop := stop, types := [.gauge, .counter, .timer] } =
      some (answer start stop (some [.gauge, .counter, .timer]) none (log id))

/-- A selector that names a source and otherwise only asks for labels to be equal to
something, and not for the label `instance_id`. -/
def PlainSelector (ms : List Matcher) : Prop :=
  (∃ id, NamesSource ms id) ∧
  ∀ m ∈ ms, Ordinary m → m.type = .equal ∧ m.value ≠ [] ∧ m.name ≠ "instance_id".toList

/-- The selector asks for this envelope, and `v` is its value. -/
def Shows (ms : List Matcher) (e : Envelope) (v : PVal) : Prop :=
  NamesSource ms e.sourceId ∧ HasValue (metricOf ms) e v ∧ ∀ m ∈ ms, Ordinary m → IsLabelOf e m.name m.value

/-- Two envelopes have the same labels. -/
def Alike (x e : Envelope) : Prop := ∀ k v, IsLabelOf x k v ↔ IsLabelOf e k v

/-- `ls` are the labels of `e`. -/
def CarriesLabels (ls : List (Str × Str)) (e : Envelope) : Prop :=
  ∀ k v, ls.lookup k = some v ↔ IsLabelOf e k v

/-- No label name has a dash in it, and no label value has a label name in it between
dashes. -/
def ClearLabels (log : Str → List Envelope) : Prop :=
  ∀ id, ∀ e ∈ log id, ∀ k v, IsLabelOf e k v → '-' ∉ k ∧
    ∀ id', ∀ e' ∈ log id', ∀ k' v', IsLabelOf e' k' v' → ¬ HasSegment k' v

/-- The beginning of the second of an envelope, in nanoseconds. -/
def secondOf (e : Envelope) : Int := e.timestamp - e.timestamp % 1000000000

/-- The last envelope in the list with a property. -/
def LastWith (es : List Envelope) (Q : Envelope → Prop) (e : Envelope) : Prop :=
  ∃ pre post, es = pre ++ e :: post ∧ Q e ∧ ∀ x ∈ post, ¬ Q x

/-- The first envelope in the list with a property. -/
def FirstWith (es : List Envelope) (Q : Envelope → Prop) (e : Envelope) : Prop :=
  ∃ pre post, es = pre ++ e :: post ∧ Q e ∧ ∀ x ∈ pre, ¬ Q x

/-- A selector asks for this envelope and it has the labels of `e`. -/
def InSeries (ms : List Matcher) (e x : Envelope) : Prop := (∃ v, Shows ms x v) ∧ Alike x e

/-- The envelope is from before the time `T` and from the five minutes before it, counted from
the beginning of its second. -/
def Recent (T : Int) (x : Envelope) : Prop := T - 300000000000 ≤ secondOf x ∧ x.timestamp < T

/-- The envelope is read by a range query ending at `stop` and is from the second that begins
at `T`. -/
def InSecond (T stop : Int) (x : Envelope) : Prop := secondOf x = T ∧ x.timestamp < stop

/-- The envelope is read by a range query ending at `stop` and its second began in the five
minutes before `T`. -/
def SecondsBefore (T stop : Int) (x : Envelope) : Prop :=
  T - 300000000000 ≤ secondOf x ∧ secondOf x < T ∧ x.timestamp < stop

/-- What a range query ending at `stop` shows at the step `T` for the series of `e`, out of
the stored envelopes `es`: the first envelope of the second beginning at `T` if there is
one, otherwise the last one whose second began in the five minutes before. -/
def StepShows (es : List Envelope) (ms : List Matcher) (e : Envelope) (stop T : Int) :
    Option (Envelope × PVal) → Prop
  | some (x, v) => Shows ms x v ∧
      (FirstWith es (fun y => InSeries ms e y ∧ InSecond T stop y) x ∨
        (∀ y ∈ es, ¬ (InSeries ms e y ∧ InSecond T stop y)) ∧
          LastWith es (fun y => InSeries ms e y ∧ SecondsBefore T stop y) x)
  | none => ∀ y ∈ es, InSeries ms e y → ¬ InSecond T stop y ∧ ¬ SecondsBefore T stop y

/-- The times of a range query: `start`, `start + step`, … as far as `stop`. -/
def IsStep (start stop step T : Int) : Prop := ∃ k : Nat, T = start + step * k ∧ T ≤ stop

end LogCache.Spec
