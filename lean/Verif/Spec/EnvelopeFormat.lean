import Verif.Spec.EnvelopeJson
import Verif.Spec.Num
import Verif.Spec.JsonGrammar
import Mathlib.Data.List.Forall2

/-!
# The format of envelopes in JSON

What a reader of the API's answers relies on, independent of the code that writes or reads
them: the names of the fields and the form of their values.
-/

namespace LogCache.Spec

/-- The object has just one field of that name, with that value. -/
def Member (j : Json) (k : String) (v : Json) : Prop :=
  ∃ fs, j = .obj fs ∧ (fs.filter fun f => decide (f.1 = k.toList)).map Prod.snd = [v]

/-- The object has no field of that name. -/
def NoMember (j : Json) (k : String) : Prop := ∃ fs, j = .obj fs ∧ ∀ f ∈ fs, f.1 ≠ k.toList

/-- Each number once as a digit of base64 (RFC 4648). -/
def base64Digit (n : Nat) : Char :=
  if n < 26 then Char.ofNat ('A'.toNat + n)
  else if n < 52 then Char.ofNat ('a'.toNat + (n - 26))
  else if n < 62 then Char.ofNat ('0'.toNat + (n - 52))
  else if n = 62 then '+' else '/'

/-- The last `w` binary digits of a number, the highest first. -/
def lowDigits (w n : Nat) : List Bool := (List.range w).map fun i => n.testBit (w - 1 - i)

/-- The text is the base64 notation of the bytes: their bits in groups of six, filled up
with zeros, and the text is filled up with `=` to a multiple of four. -/
def IsBase64 (bs : List UInt8) (t : Str) : Prop :=
  ∃ (ds : List Nat) (zeros pads : Nat), (∀ d ∈ ds, d < 64) ∧ zeros < 6 ∧ pads < 3 ∧
    ds.flatMap (lowDigits 6) = bs.flatMap (fun b => lowDigits 8 b.toNat) ++ List.replicate zeros false ∧
    t = ds.map base64Digit ++ List.replicate pads '=' ∧ t.length % 4 = 0

/-- A float64: a number to which it is nearest, or a word. -/
def FloatShown (x : F64) (v : Json) : Prop :=
  match x with
  | .nan => v = .str "NaN".toList
  | .inf neg => v = .str (if neg then "-Infinity".toList else "Infinity".toList)
  | .fin neg _ _ => ∃ t q, v = .num t ∧ SignedText t neg q ∧ Nearest64 (if neg then -q else q) x

/-- A map: a field for every entry. -/
def MapShown {α : Type} (shown : α → Json → Prop) (m : List (Str × α)) (j : Json) : Prop :=
  ∃ fs, j = .obj fs ∧ List.Forall₂ (fun p f => f.1 = p.1 ∧ shown p.2 f.2) m fs

/-- A value of `deprecated_tags`. -/
def TagValueShown : TagValue → Json → Prop
  | .unset, j => j = .obj []
  | .text s, j => Member j "text" (.str s)
  | .integer n, j => Member j "integer" (.str (decInt n))
  | .decimal x, j => ∃ v, Member j "decimal" v ∧ FloatShown x v

/-- The value and the unit of a metric of a gauge. -/
def GaugeShown (g : WireGauge) (j : Json) : Prop :=
  Member j "unit" (.str g.unit) ∧ ∃ v, Member j "value" v ∧ FloatShown g.value v

/-- The bytes of a log in base64, and whether it was on standard output or standard error. -/
def LogShown (payload : Option (List UInt8)) (type : Int) (j : Json) : Prop :=
  (match payload with
    | none => Member j "payload" .null
    | some bs => ∃ t, Member j "payload" (.str t) ∧ IsBase64 bs t) ∧
  ∃ v, Member j "type" v ∧ (type = 0 → v = .str "OUT".toList) ∧ (type = 1 → v = .str "ERR".toList) ∧
    (type ≠ 0 → type ≠ 1 → v = .num (decInt type))

/-- The kinds of messages. -/
def messageNames : List String := ["log", "counter", "gauge", "timer", "event"]

/-- The object has a field of this name, and none of the other kinds of messages. -/
def OnlyMember (j : Json) (k : String) (v : Json) : Prop :=
  Member j k v ∧ ∀ n ∈ messageNames, n ≠ k → NoMember j n

/-- An envelope in JSON. -/
def EnvelopeShown (e : WireEnvelope) (j : Json) : Prop :=
  Member j "timestamp" (.str (decInt e.timestamp)) ∧ Member j "source_id" (.str e.sourceId) ∧
  Member j "instance_id" (.str e.instanceId) ∧
  (∃ v, Member j "deprecated_tags" v ∧ MapShown TagValueShown e.deprecatedTags v) ∧
  (∃ v, Member j "tags" v ∧ MapShown (fun s v => v = .str s) e.tags v) ∧
  match e.message with
  | none => ∀ n ∈ messageNames, NoMember j n
  | some (.log p t) => ∃ v, OnlyMember j "log" v ∧ LogShown p t v
  | some (.counter n d t) => ∃ v, OnlyMember j "counter" v ∧ Member v "name" (.str n) ∧
      Member v "delta" (.str (dec d)) ∧ Member v "total" (.str (dec t))
  | some (.gauge ms) => ∃ v w, OnlyMember j "gauge" v ∧ Member v "metrics" w ∧ MapShown GaugeShown ms w
  | some (.timer n a b) => ∃ v, OnlyMember j "timer" v ∧ Member v "name" (.str n) ∧
      Member v "start" (.str (decInt a)) ∧ Member v "stop" (.str (decInt b))
  | some (.event t b) => ∃ v, OnlyMember j "event" v ∧ Member v "title" (.str t) ∧ Member v "body" (.str b)

/-- The answer to a read in JSON. -/
def ReadShown (es : List WireEnvelope) (j : Json) : Prop :=
  ∃ b js, Member j "envelopes" b ∧ Member b "batch" (.arr js) ∧ List.Forall₂ EnvelopeShown es js

/-- The meta information of a source in JSON. -/
def MetaShown (m : WireMeta) (j : Json) : Prop :=
  Member j "count" (.str (decInt m.count)) ∧ Member j "expired" (.str (decInt m.expired)) ∧
  Member j "oldest_timestamp" (.str (decInt m.oldest)) ∧ Member j "newest_timestamp" (.str (decInt m.newest))

end LogCache.Spec
