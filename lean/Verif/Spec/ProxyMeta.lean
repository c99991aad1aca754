import Verif.Spec.EnvelopeFormat
/-!
# The format of the meta information

`/repo/README.md:103-121`.
-/
namespace LogCache.Spec

/-- The fields of a source as the README has them: `expired` is there if envelopes were pruned. -/
def MetaDocumented (m : WireMeta) (j : Json) : Prop :=
  Member j "count" (.str (decInt m.count)) ∧
  (if m.expired = 0 then NoMember j "expired" ∨ Member j "expired" (.str (decInt 0))
    else Member j "expired" (.str (decInt m.expired))) ∧
  Member j "oldestTimestamp" (.str (decInt m.oldest)) ∧ Member j "newestTimestamp" (.str (decInt m.newest))

/-- The text is a JSON document with a field `meta`, which has each of these sources, in order,
and no other. -/
def MetaBody (m : List (Str × WireMeta)) (t : Str) : Prop :=
  ∃ j v, JsonDoc j t ∧ Member j "meta" v ∧ MapShown MetaDocumented m v

/-- The same entries, whatever their order. -/
def SameLookup {α : Type} (m m' : List (Str × α)) : Prop := ∀ id, m.lookup id = m'.lookup id

end LogCache.Spec
