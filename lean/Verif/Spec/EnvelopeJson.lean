import Verif.Model.EnvelopeJson
import Verif.Spec.Float
import Verif.Spec.Client

/-! # The envelopes and the meta information there are

What the fields of the protocol messages can hold: 64 bit integers, float64 numbers, 32 bit
enumerations, and maps with one value for each key (in the order of the keys). -/

namespace LogCache.Spec

/-- One value for each key, in the order of the keys. -/
def KeysInOrder {α : Type} (m : List (Str × α)) : Prop := m.Pairwise fun a b => a.1 < b.1

def ValidTagValue : TagValue → Prop
  | .integer n => FitsInt64 n
  | .decimal x => Binary64 x
  | _ => True

def ValidMessage : WireMessage → Prop
  | .log _ t => -2 ^ 31 ≤ t ∧ t < 2 ^ 31
  | .counter _ d t => d < 2 ^ 64 ∧ t < 2 ^ 64
  | .gauge ms => KeysInOrder ms ∧ ∀ p ∈ ms, Binary64 p.2.value
  | .timer _ a b => FitsInt64 a ∧ FitsInt64 b
  | .event _ _ => True

def ValidEnvelope (e : WireEnvelope) : Prop :=
  FitsInt64 e.timestamp ∧ KeysInOrder e.deprecatedTags ∧ (∀ p ∈ e.deprecatedTags, ValidTagValue p.2) ∧
    KeysInOrder e.tags ∧ ∀ m, e.message = some m → ValidMessage m

def ValidMetaMap (m : List (Str × WireMeta)) : Prop :=
  KeysInOrder m ∧ ∀ p ∈ m, FitsInt64 p.2.count ∧ FitsInt64 p.2.expired ∧ FitsInt64 p.2.oldest ∧ FitsInt64 p.2.newest

/-- The names of the fields of an envelope in JSON: those of the protocol, and those the
JSON mapping of protocol buffers makes of them. -/
def envelopeNames : List Str :=
  ["timestamp".toList, "source_id".toList, "sourceId".toList, "instance_id".toList, "instanceId".toList,
    "deprecated_tags".toList, "deprecatedTags".toList, "tags".toList, "log".toList, "counter".toList, "gauge".toList,
    "timer".toList, "event".toList]

/-- An envelope without the fields named by `gone`: the number 0, empty text, no tags. -/
def withoutFields (gone : Str → Bool) (e : WireEnvelope) : WireEnvelope :=
  { timestamp := if gone "timestamp".toList then 0 else e.timestamp
    sourceId := if gone "source_id".toList then [] else e.sourceId
    instanceId := if gone "instance_id".toList then [] else e.instanceId
    deprecatedTags := if gone "deprecated_tags".toList then [] else e.deprecatedTags
    tags := if gone "tags".toList then [] else e.tags
    message := e.message }

/-- A name of the protocol in camel case. -/
def camelName (k : Str) : Str :=
  if k = "source_id".toList then "sourceId".toList
  else if k = "instance_id".toList then "instanceId".toList
  else if k = "deprecated_tags".toList then "deprecatedTags".toList
  else if k = "oldest_timestamp".toList then "oldestTimestamp".toList
  else if k = "newest_timestamp".toList then "newestTimestamp".toList
  else k

/-- The names of the fields of the meta information of a source in JSON. -/
def metaNames : List Str :=
  ["count".toList, "expired".toList, "oldest_timestamp".toList, "oldestTimestamp".toList, "newest_timestamp".toList,
    "newestTimestamp".toList]

/-- Meta information without the fields named by `gone`. -/
def withoutMetaFields (gone : Str → Bool) (m : WireMeta) : WireMeta :=
  { count := if gone "count".toList then 0 else m.count
    expired := if gone "expired".toList then 0 else m.expired
    oldest := if gone "oldest_timestamp".toList then 0 else m.oldest
    newest := if gone "newest_timestamp".toList then 0 else m.newest }

/-- An answer with the given meta information in JSON. -/
def metaAnswerOf (m : List (Str × Json)) : Json := .obj [("meta".toList, .obj m)]

/-- An answer to a read with the given envelopes in JSON. -/
def answerOf (es : List Json) : Json := .obj [("envelopes".toList, .obj [("batch".toList, .arr es)])]

end LogCache.Spec
