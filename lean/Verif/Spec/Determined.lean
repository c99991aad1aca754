import Verif.Spec.Promql
/-! # The same stored data, seen twice

Tags and the metrics of a gauge are maps: Go gives their entries in another order each time. -/
namespace LogCache.Spec

/-- The same message, with the metrics of a gauge in any order. -/
def MessageAnyOrder : Option Message → Option Message → Prop
  | some (.gauge ms), some (.gauge ms') => ms.Perm ms'
  | m, m' => m = m'

/-- The same envelope, with the entries of its maps in any order. -/
def EnvelopeAnyOrder (e e' : Envelope) : Prop :=
  e.timestamp = e'.timestamp ∧ e.sourceId = e'.sourceId ∧ e.instanceId = e'.instanceId ∧
    e.deprecatedTags.Perm e'.deprecatedTags ∧ e.tags.Perm e'.tags ∧ MessageAnyOrder e.message e'.message

/-- The same envelopes one by one. -/
inductive SameAnswer : List Envelope → List Envelope → Prop
  | nil : SameAnswer [] []
  | cons {e e' : Envelope} {es es' : List Envelope} :
      EnvelopeAnyOrder e e' → SameAnswer es es' → SameAnswer (e :: es) (e' :: es')

/-- The two readers answer every request with the same envelopes, or both with an error. -/
def SameReads (read read' : ReadRequest → Option (List Envelope)) : Prop :=
  ∀ req, (read req = none ∧ read' req = none) ∨
    ∃ es es', read req = some es ∧ read' req = some es' ∧ SameAnswer es es'

/-- No envelope has two metrics of the selected (cleaned) name. -/
def OneOfName (metric : Str) (e : Envelope) : Prop :=
  ∀ ms, e.message = some (.gauge ms) → ∀ p ∈ ms, ∀ q ∈ ms, cleaned p.1 = metric → cleaned q.1 = metric → p = q

/-- The same series: the labels may come in another order. -/
def SeriesAlike (s s' : SeriesData) : Prop := SameLabels s.tags s'.tags ∧ s.points = s'.points

end LogCache.Spec
