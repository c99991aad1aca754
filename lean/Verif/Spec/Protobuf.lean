import Verif.Model.Protobuf
import Verif.Spec.EnvelopeJson

/-! # What is sent over gRPC, and what arrives

Maps are written in any order (Go's iteration order), and arrive as maps, here with their
keys in order.  An empty payload arrives as none.  Everything else arrives as it was. -/

namespace LogCache.Spec

/-- The entries of a map, written in some order. -/
def SameMap {α : Type} (written arrived : List (Str × α)) : Prop := written.Perm arrived

/-- An empty payload is not written. -/
def SamePayload (written arrived : Option (List UInt8)) : Prop :=
  arrived = if written = some [] then none else written

def SameMessage : WireMessage → WireMessage → Prop
  | .log p' t', .log p t => SamePayload p' p ∧ t' = t
  | .gauge m', .gauge m => SameMap m' m
  | m', m => m' = m

structure SameEnvelope (written arrived : WireEnvelope) : Prop where
  timestamp : written.timestamp = arrived.timestamp
  sourceId : written.sourceId = arrived.sourceId
  instanceId : written.instanceId = arrived.instanceId
  deprecatedTags : SameMap written.deprecatedTags arrived.deprecatedTags
  tags : SameMap written.tags arrived.tags
  message : match written.message, arrived.message with
    | none, none => True
    | some m', some m => SameMessage m' m
    | _, _ => False

def SameBatch (written arrived : List WireEnvelope) : Prop := List.Forall₂ SameEnvelope written arrived

/-- A batch that may be nil. -/
def SameBatch? (written arrived : Option (List WireEnvelope)) : Prop :=
  match written, arrived with
  | none, none => True
  | some es', some es => SameBatch es' es
  | _, _ => False

/-- The envelope types there are in a request: the named ones, and every other 32 bit number. -/
def ValidType : EType → Prop
  | .other n => -2 ^ 31 ≤ n ∧ n < 2 ^ 31 ∧ (n < 0 ∨ 5 < n)
  | _ => True

def ValidReadRequest (r : ReadRequest) : Prop :=
  FitsInt64 r.start ∧ FitsInt64 r.stop ∧ FitsInt64 r.limit ∧ ∀ t ∈ r.types, ValidType t

def ValidRange (r : HRange) : Prop := r.start < 2 ^ 64 ∧ r.stop < 2 ^ 64

def SameSample (written arrived : PSample F64) : Prop :=
  SameMap written.metric arrived.metric ∧ written.point = arrived.point

def SameSeries (written arrived : PSeries F64) : Prop :=
  SameMap written.metric arrived.metric ∧ written.points = arrived.points

def SameResult : PResult F64 → PResult F64 → Prop
  | .vector xs', .vector xs => List.Forall₂ SameSample xs' xs
  | .matrix xs', .matrix xs => List.Forall₂ SameSeries xs' xs
  | r', r => r' = r

def ValidSample (s : PSample F64) : Prop := KeysInOrder s.metric ∧ Binary64 s.point.value
def ValidSeries (s : PSeries F64) : Prop := KeysInOrder s.metric ∧ ∀ p ∈ s.points, Binary64 p.value

def ValidResult : PResult F64 → Prop
  | .scalar p => Binary64 p.value
  | .vector xs => ∀ s ∈ xs, ValidSample s
  | .matrix xs => ∀ s ∈ xs, ValidSeries s

/-! ## The wire format

Of the documentation of protocol buffers: a varint is a sequence of bytes, all but the last
with the top bit set, of which the lower seven bits count, the lowest first.  A field is a
tag, which is eight times the number of the field plus its wire type (0 a varint, 1 eight
bytes, 2 a length and so many bytes), and the value.  The tags below are written as the
bytes they are. -/

def varintValue : List UInt8 → Nat
  | [] => 0
  | b :: bs => b.toNat % 128 + 128 * varintValue bs

/-- All bytes but the last have the top bit set. -/
def IsVarint (bs : List UInt8) : Prop := ∃ front last, bs = front ++ [last] ∧ (∀ b ∈ front, 128 ≤ b.toNat) ∧ last.toNat < 128

/-- A number of 64 bits as a varint; a negative one as its two's complement. -/
def varintOf (n : Int) : List UInt8 := putVarint (if n < 0 then (2 ^ 64 + n).toNat else n.toNat)

def intBytes (tag : UInt8) (n : Int) : List UInt8 := if n = 0 then [] else tag :: varintOf n
def boolBytes (tag : UInt8) (b : Bool) : List UInt8 := if b then [tag, 1] else []
def lenBytes (tag : UInt8) (bs : List UInt8) : List UInt8 := tag :: varintOf bs.length ++ bs
def textBytes (tag : UInt8) (s : Str) : List UInt8 := if s = [] then [] else lenBytes tag (s.flatMap String.utf8EncodeChar)
/-- The eight bytes of a number, the lowest first. -/
def eightBytes (n : Nat) : List UInt8 := (List.range 8).map fun i => UInt8.ofNat (n / 256 ^ i % 256)
def floatBytes (tag : UInt8) (x : F64) : List UInt8 := if f64Bits x = 0 then [] else tag :: eightBytes (f64Bits x)
def mapBytes {α : Type} (tag : UInt8) (val : α → List UInt8) (m : List (Str × α)) : List UInt8 :=
  m.flatMap fun kv => lenBytes tag (lenBytes 0x0A (kv.1.flatMap String.utf8EncodeChar) ++ lenBytes 0x12 (val kv.2))

def tagValueBytes : TagValue → List UInt8
  | .unset => []
  | .text s => lenBytes 0x0A (s.flatMap String.utf8EncodeChar)
  | .integer n => 0x10 :: varintOf n
  | .decimal x => 0x19 :: eightBytes (f64Bits x)

def gaugeValueBytes (g : WireGauge) : List UInt8 := textBytes 0x0A g.unit ++ floatBytes 0x11 g.value

def messageBytes : WireMessage → List UInt8
  | .log p t => lenBytes 0x22 ((if p.getD [] = [] then [] else lenBytes 0x0A (p.getD [])) ++ intBytes 0x10 t)
  | .counter n d t => lenBytes 0x2A (textBytes 0x0A n ++ (intBytes 0x10 d ++ intBytes 0x18 t))
  | .gauge ms => lenBytes 0x32 (mapBytes 0x0A gaugeValueBytes ms)
  | .timer n a b => lenBytes 0x3A (textBytes 0x0A n ++ (intBytes 0x10 a ++ intBytes 0x18 b))
  | .event t b => lenBytes 0x52 (textBytes 0x0A t ++ textBytes 0x12 b)

/-- An envelope, with its fields in order and its message last. -/
def envelopeBytes (e : WireEnvelope) : List UInt8 :=
  intBytes 0x08 e.timestamp ++ (textBytes 0x12 e.sourceId ++ (mapBytes 0x1A tagValueBytes e.deprecatedTags ++
    (textBytes 0x42 e.instanceId ++ (mapBytes 0x4A (fun s => s.flatMap String.utf8EncodeChar) e.tags ++
      match e.message with
      | none => []
      | some m => messageBytes m))))

/-- A message that may be nil. -/
def optBytes {α : Type} (tag : UInt8) (f : α → List UInt8) : Option α → List UInt8
  | none => []
  | some x => lenBytes tag (f x)

def batchBytes (es : List WireEnvelope) : List UInt8 := es.flatMap fun e => lenBytes 0x0A (envelopeBytes e)

def metaInfoBytes (m : WireMeta) : List UInt8 :=
  intBytes 0x08 m.count ++ (intBytes 0x10 m.expired ++ (intBytes 0x18 m.oldest ++ intBytes 0x20 m.newest))

def rangeBytes (r : HRange) : List UInt8 := intBytes 0x08 r.start ++ intBytes 0x10 r.stop
def rangesBytes (rs : List HRange) : List UInt8 := rs.flatMap fun r => lenBytes 0x0A (rangeBytes r)

def labelBytes (m : List (Str × Str)) : List UInt8 := mapBytes 0x0A (fun s => s.flatMap String.utf8EncodeChar) m
def pointBytes (p : PPoint F64) : List UInt8 := textBytes 0x0A p.time ++ floatBytes 0x11 p.value
def vectorBytes (xs : List (PSample F64)) : List UInt8 :=
  xs.flatMap fun s => lenBytes 0x0A (labelBytes s.metric ++ lenBytes 0x12 (pointBytes s.point))
def matrixBytes (xs : List (PSeries F64)) : List UInt8 :=
  xs.flatMap fun s => lenBytes 0x0A (labelBytes s.metric ++ s.points.flatMap fun p => lenBytes 0x12 (pointBytes p))
def resultBytes : PResult F64 → List UInt8
  | .scalar p => lenBytes 0x0A (pointBytes p)
  | .vector xs => lenBytes 0x12 (vectorBytes xs)
  | .matrix xs => lenBytes 0x1A (matrixBytes xs)

/-- A message and the numbers of its fields. -/
structure Described where
  Value : Type
  proto : Proto Value
  numbers : List Nat

/-- The messages of the interfaces. -/
def described : List Described :=
  [⟨_, wireEnvelopeProto, [1, 2, 3, 4, 5, 6, 7, 8, 9, 10]⟩, ⟨_, tagValueProto, [1, 2, 3]⟩, ⟨_, logProto, [1, 2]⟩,
    ⟨_, counterProto, [1, 2, 3]⟩, ⟨_, gaugeProto, [1]⟩, ⟨_, wireGaugeProto, [1, 2]⟩, ⟨_, timerProto, [1, 2, 3]⟩,
    ⟨_, eventProto, [1, 2]⟩, ⟨_, batchProto, [1]⟩, ⟨_, sendReqProto, [1, 2]⟩, ⟨_, readReqProto, [1, 2, 3, 4, 5, 6, 7]⟩,
    ⟨_, readRespProto, [1]⟩, ⟨_, metaReqProto, [1]⟩, ⟨_, wireMetaProto, [1, 2, 3, 4]⟩, ⟨_, metaRespProto, [1]⟩,
    ⟨_, rangeProto, [1, 2]⟩, ⟨_, rangesProto, [1]⟩, ⟨_, oneRangeProto, [1]⟩, ⟨_, setRangesProto, [1]⟩,
    ⟨_, instantReqProto, [1, 2]⟩, ⟨_, rangeReqProto, [1, 2, 3, 4]⟩, ⟨_, pointProto, [1, 2]⟩, ⟨_, sampleProto, [1, 2]⟩,
    ⟨_, seriesProto, [1, 2]⟩, ⟨_, vectorProto, [1]⟩, ⟨_, matrixProto, [1]⟩, ⟨_, instantResultProto, [1, 2, 3]⟩,
    ⟨_, rangeResultProto, [1]⟩]

/-- Bytes that are whole fields, of any numbers. -/
def WholeFields (s : List UInt8) : Prop := parseFields s ≠ none

/-- A field that can be written. -/
def WritableValue : WireVal → Prop
  | .varint n => n < 2 ^ 64
  | .fixed64 n => n < 2 ^ 64
  | .bytes bs => bs.length < 2 ^ 64
  | .fixed32 n => n < 2 ^ 32

end LogCache.Spec
