import Verif.Model.JsonText
import Verif.Model.FloatShort

/-!
# Envelopes and meta information as JSON

The gateway writes `ReadResponse` and `MetaResponse` with
`runtime.JSONPb{OrigName: true, EmitDefaults: true}`
(`/repo/internal/gateway/gateway.go:125-129`, `/repo/pkg/marshaler/marshaler.go:39-46`),
and the client library reads them with `jsonpb.Unmarshal`
(`/repo/pkg/client/client.go:146-151, 274-279`).  The messages are those of
`/repo/api/v1/egress.proto` and of `loggregator_v2` (dependency
`code.cloudfoundry.org/go-loggregator`).  `jsonpb` (github.com/golang/protobuf 1.3) and
`loggregator_v2` are not in the sandbox; they are modelled from memory.

Generated getters read nil messages as messages with empty fields, so that the two are not
distinguished here.  A Go map is the list of its entries in the order of their keys, of
which there is one for each map.
-/

namespace LogCache

/-! ## The messages -/

/-- `loggregator_v2.Value`, the values of `deprecated_tags`; `unset` is the nil oneof.
Library code, reached from `gateway.go:127` and `marshaler.go:39-46` (writing), `client.go:147, 275` (reading). -/
inductive TagValue where
  | unset
  | text (s : Str)
  | integer (n : Int)
  | decimal (x : F64)
deriving DecidableEq, Repr

/-- `loggregator_v2.GaugeValue`.
Library code, reached from `gateway.go:127` and `marshaler.go:39-46` (writing), `client.go:147, 275` (reading). -/
structure WireGauge where
  unit : Str := []
  value : F64 := .fin false 0 0
deriving DecidableEq, Repr

/-- The oneof of `loggregator_v2.Envelope`.  The payload of a log is a byte slice, nil or
not; its type is an open enumeration: 0 is `OUT`, 1 is `ERR`.
Library code, reached from `gateway.go:127` and `marshaler.go:39-46` (writing), `client.go:147, 275` (reading). -/
inductive WireMessage where
  | log (payload : Option (List UInt8)) (type : Int)
  | counter (name : Str) (delta total : Nat)
  | gauge (metrics : List (Str × WireGauge))
  | timer (name : Str) (start stop : Int)
  | event (title body : Str)
deriving DecidableEq, Repr

/-- `loggregator_v2.Envelope`, with everything it consists of.
Library code, reached from `gateway.go:127` and `marshaler.go:39-46` (writing), `client.go:147, 275` (reading). -/
structure WireEnvelope where
  timestamp : Int := 0
  sourceId : Str := []
  instanceId : Str := []
  deprecatedTags : List (Str × TagValue) := []
  tags : List (Str × Str) := []
  message : Option WireMessage := none
deriving DecidableEq, Repr

/-- `logcache_v1.MetaInfo` (`/repo/api/v1/egress.proto:53-58`). -/
structure WireMeta where
  count : Int := 0
  expired : Int := 0
  oldest : Int := 0
  newest : Int := 0
deriving DecidableEq, Repr

/-! ## Base64 (`encoding/base64`, `StdEncoding`) -/

/-- The digits.
Library code, reached from `gateway.go:127` and `marshaler.go:39-46` (writing), `client.go:147, 275` (reading). -/
def b64Digits : Str := "ABCDEFGHIJKLMNOPQRSTUVWXYZabcdefghijklmnopqrstuvwxyz0123456789+/".toList

/-- A digit.
Library code, reached from `gateway.go:127` and `marshaler.go:39-46` (writing), `client.go:147, 275` (reading). -/
def b64Char (n : Nat) : Char := b64Digits.getD n '='

/-- The value of a digit.
Library code, reached from `gateway.go:127` and `marshaler.go:39-46` (writing), `client.go:147, 275` (reading). -/
def b64Val (c : Char) : Option Nat := if c ∈ b64Digits then some (b64Digits.idxOf c) else none

/-- `EncodeToString`: three bytes are four digits.
Library code, reached from `gateway.go:127` and `marshaler.go:39-46` (writing), `client.go:147, 275` (reading). -/
def b64Encode : List UInt8 → Str
  | a :: b :: c :: r =>
    b64Char (a.toNat / 4) :: b64Char (a.toNat % 4 * 16 + b.toNat / 16) ::
      b64Char (b.toNat % 16 * 4 + c.toNat / 64) :: b64Char (c.toNat % 64) :: b64Encode r
  | [a, b] =>
    [b64Char (a.toNat / 4), b64Char (a.toNat % 4 * 16 + b.toNat / 16), b64Char (b.toNat % 16 * 4), '=']
  | [a] => [b64Char (a.toNat / 4), b64Char (a.toNat % 4 * 16), '=', '=']
  | [] => []

/-- The last four digits, with padding.
Library code, reached from `gateway.go:127` and `marshaler.go:39-46` (writing), `client.go:147, 275` (reading). -/
def b64Last (x y z w : Char) : Option (List UInt8) :=
  match b64Val x, b64Val y with
  | some x, some y =>
    if w = '=' then
      if z = '=' then some [UInt8.ofNat (x * 4 + y / 16)]
      else (b64Val z).map fun z => [UInt8.ofNat (x * 4 + y / 16), UInt8.ofNat (y % 16 * 16 + z / 4)]
    else none
  | _, _ => none

/-- Four digits.
Library code, reached from `gateway.go:127` and `marshaler.go:39-46` (writing), `client.go:147, 275` (reading). -/
def b64Quad (x y z w : Char) : Option (List UInt8) :=
  match b64Val x, b64Val y, b64Val z, b64Val w with
  | some x, some y, some z, some w =>
    some [UInt8.ofNat (x * 4 + y / 16), UInt8.ofNat (y % 16 * 16 + z / 4), UInt8.ofNat (z % 4 * 64 + w)]
  | _, _, _, _ => none

/-- Groups of four digits; the last one may be padded.
Library code, reached from `gateway.go:127` and `marshaler.go:39-46` (writing), `client.go:147, 275` (reading). -/
def b64Groups : Str → Option (List UInt8)
  | [] => some []
  | x :: y :: z :: w :: r =>
    match b64Quad x y z w with
    | some bs => (b64Groups r).map (bs ++ ·)
    | none => if r.isEmpty then b64Last x y z w else none
  | _ => none

/-- `DecodeString`: line breaks are ignored.
Library code, reached from `gateway.go:127` and `marshaler.go:39-46` (writing), `client.go:147, 275` (reading). -/
def b64Decode (s : Str) : Option (List UInt8) := b64Groups (s.filter fun c => c ≠ '\n' && c ≠ '\r')

/-! ## Writing (`jsonpb.Marshaler`) -/

/-- `± d * 10^k` with an exponent (`strconv`, `%e` with the fewest digits), without a zero
before an exponent of one digit, which `encoding/json` removes.
Library code, reached from `gateway.go:127` and `marshaler.go:39-46` (writing), `client.go:147, 275` (reading). -/
def fmtSci (neg : Bool) (d : Nat) (k : Int) : Str :=
  let p := trimZeros d 20
  let x := k + (20 - p.2 : Nat) + ((fmtNat p.1 []).length - 1 : Nat)
  (if neg then ['-'] else []) ++ (fmtNat p.1 []).take 1 ++
    (if (fmtNat p.1 []).length = 1 then [] else '.' :: (fmtNat p.1 []).drop 1) ++
    'e' :: (if x < 0 then '-' else '+') :: fmtNat x.natAbs []

/-- `x < y` for finite numbers without sign.
Library code, reached from `gateway.go:127` and `marshaler.go:39-46` (writing), `client.go:147, 275` (reading). -/
def f64Below (m : Nat) (e : Int) (m' : Nat) (e' : Int) : Bool :=
  decide (m * 2 ^ e.toNat * 2 ^ (-e').toNat < m' * 2 ^ e'.toNat * 2 ^ (-e).toNat)

/-- `floatEncoder` (`encoding/json`): with an exponent below `1e-6`
(`4722366482869645 * 2^-72`) and from `1e21` (`476837158203125 * 2^21`) on.
Library code, reached from `gateway.go:127` and `marshaler.go:39-46` (writing), `client.go:147, 275` (reading). -/
def jsonFloatText (neg : Bool) (m : Nat) (e : Int) : Str :=
  if m = 0 then (if neg then "-0".toList else "0".toList)
  else if f64Below m e 4722366482869645 (-72) || !f64Below m e 476837158203125 21 then
    fmtSci neg (shortDigits m e).1 (shortDigits m e).2
  else fmtPlain neg (shortDigits m e).1 (shortDigits m e).2

/-- A float64; what is not finite is a string.
Library code, reached from `gateway.go:127` and `marshaler.go:39-46` (writing), `client.go:147, 275` (reading). -/
def floatJson : F64 → Json
  | .nan => .str "NaN".toList
  | .inf neg => .str (if neg then "-Infinity".toList else "Infinity".toList)
  | .fin neg m e => .num (jsonFloatText neg m e)

/-- 64 bit integers are strings.
Library code, reached from `gateway.go:127` and `marshaler.go:39-46` (writing), `client.go:147, 275` (reading). -/
def intJson (n : Int) : Json := .str (formatInt n)

/-- Byte slices are strings in base64, nil is `null`.
Library code, reached from `gateway.go:127` and `marshaler.go:39-46` (writing), `client.go:147, 275` (reading). -/
def bytesJson : Option (List UInt8) → Json
  | none => .null
  | some bs => .str (b64Encode bs)

/-- Enumerations are names; an unknown number is a number.
Library code, reached from `gateway.go:127` and `marshaler.go:39-46` (writing), `client.go:147, 275` (reading). -/
def logTypeJson (n : Int) : Json :=
  if n = 0 then .str "OUT".toList else if n = 1 then .str "ERR".toList else .num (formatInt n)

/-- A map; keys are sorted.
Library code, reached from `gateway.go:127` and `marshaler.go:39-46` (writing), `client.go:147, 275` (reading). -/
def mapJson {α : Type} (f : α → Json) (m : List (Str × α)) : Json := .obj (m.map fun kv => (kv.1, f kv.2))

/-- `Value`: of a oneof only the field that is set is written.
Library code, reached from `gateway.go:127` and `marshaler.go:39-46` (writing), `client.go:147, 275` (reading). -/
def tagValueJson : TagValue → Json
  | .unset => .obj []
  | .text s => .obj [("text".toList, .str s)]
  | .integer n => .obj [("integer".toList, intJson n)]
  | .decimal x => .obj [("decimal".toList, floatJson x)]

/-- `GaugeValue`.
Library code, reached from `gateway.go:127` and `marshaler.go:39-46` (writing), `client.go:147, 275` (reading). -/
def wireGaugeJson (g : WireGauge) : Json := .obj [("unit".toList, .str g.unit), ("value".toList, floatJson g.value)]

/-- The oneof of an envelope: the name of the field and its value.
Library code, reached from `gateway.go:127` and `marshaler.go:39-46` (writing), `client.go:147, 275` (reading). -/
def wireMessageJson : WireMessage → Str × Json
  | .log p t => ("log".toList, .obj [("payload".toList, bytesJson p), ("type".toList, logTypeJson t)])
  | .counter n d t => ("counter".toList,
      .obj [("name".toList, .str n), ("delta".toList, intJson d), ("total".toList, intJson t)])
  | .gauge ms => ("gauge".toList, .obj [("metrics".toList, mapJson wireGaugeJson ms)])
  | .timer n a b => ("timer".toList,
      .obj [("name".toList, .str n), ("start".toList, intJson a), ("stop".toList, intJson b)])
  | .event t b => ("event".toList, .obj [("title".toList, .str t), ("body".toList, .str b)])

/-- `Envelope`: fields in the order of the struct, with their original names.
Library code, reached from `gateway.go:127` and `marshaler.go:39-46` (writing), `client.go:147, 275` (reading). -/
def wireEnvelopeJson (e : WireEnvelope) : Json :=
  .obj ([("timestamp".toList, intJson e.timestamp), ("source_id".toList, .str e.sourceId),
    ("instance_id".toList, .str e.instanceId), ("deprecated_tags".toList, mapJson tagValueJson e.deprecatedTags),
    ("tags".toList, mapJson .str e.tags)] ++ (e.message.map wireMessageJson).toList)

/-- `ReadResponse` (`egress.proto:41-43`) with its `EnvelopeBatch`, which may be nil. -/
def readResponseJson (r : Option (List WireEnvelope)) : Json :=
  .obj [("envelopes".toList, match r with
    | none => .null
    | some es => .obj [("batch".toList, .arr (es.map wireEnvelopeJson))])]

/-- `MetaInfo`.
Library code, reached from `gateway.go:127` and `marshaler.go:39-46` (writing), `client.go:147, 275` (reading). -/
def wireMetaJson (m : WireMeta) : Json :=
  .obj [("count".toList, intJson m.count), ("expired".toList, intJson m.expired),
    ("oldest_timestamp".toList, intJson m.oldest), ("newest_timestamp".toList, intJson m.newest)]

/-- `MetaResponse` (`egress.proto:49-51`). -/
def metaResponseJson (m : List (Str × WireMeta)) : Json := .obj [("meta".toList, mapJson wireMetaJson m)]

/-- What the gateway answers to a read (`marshaler.go:39-46`: with a newline). -/
def readAnswerText (r : Option (List WireEnvelope)) : Str := (readResponseJson r).line

/-- What the gateway answers to a request for meta information.
Models `marshaler.go:39-46` on `egress.proto:49-58`. -/
def metaAnswerText (m : List (Str × WireMeta)) : Str := (metaResponseJson m).line

/-! ## Reading (`jsonpb.Unmarshaler`)

`null` leaves every field as it is, that is, empty. -/

/-- `null` is the empty value.
Library code, reached from `gateway.go:127` and `marshaler.go:39-46` (writing), `client.go:147, 275` (reading). -/
def orZero {α : Type} (z : α) (f : Json → Option α) : Json → Option α
  | .null => some z
  | j => f j

/-- The text of a number, which may be between quotes.  Simplification: what is between
quotes is read without its escapes.
Library code, reached from `gateway.go:127` and `marshaler.go:39-46` (writing), `client.go:147, 275` (reading). -/
def numberText : Json → Option (Option Str)
  | .num t => some (some t)
  | .str s => match unmarshalJson s with
    | some (.num t) => some (some t)
    | some .null => some none
    | _ => none
  | _ => none

/-- A number; `parse` is that of its type.
Library code, reached from `gateway.go:127` and `marshaler.go:39-46` (writing), `client.go:147, 275` (reading). -/
def readNumber {α : Type} (z : α) (parse : Str → Option α) : Json → Option α :=
  orZero z fun j => match numberText j with
    | some (some t) => parse t
    | some none => some z
    | none => none

/-- A float64 (`nonFinite`).
Library code, reached from `gateway.go:127` and `marshaler.go:39-46` (writing), `client.go:147, 275` (reading). -/
def readFloat64 (j : Json) : Option F64 :=
  match j with
  | .str s =>
    if s = "NaN".toList then some .nan
    else if s = "Infinity".toList then some (.inf false)
    else if s = "-Infinity".toList then some (.inf true)
    else readNumber (.fin false 0 0) parseFloat j
  | _ => readNumber (.fin false 0 0) parseFloat j

/-- An int64.
Library code, reached from `gateway.go:127` and `marshaler.go:39-46` (writing), `client.go:147, 275` (reading). -/
def readInt64 : Json → Option Int := readNumber 0 parseInt64

/-- A uint64.
Library code, reached from `gateway.go:127` and `marshaler.go:39-46` (writing), `client.go:147, 275` (reading). -/
def readUint64 : Json → Option Nat := readNumber 0 parseUint64

/-- A string.
Library code, reached from `gateway.go:127` and `marshaler.go:39-46` (writing), `client.go:147, 275` (reading). -/
def readText64 : Json → Option Str := orZero [] fun j => match j with
  | .str s => some s
  | _ => none

/-- A byte slice.  Simplification: an array of numbers is not read.
Library code, reached from `gateway.go:127` and `marshaler.go:39-46` (writing), `client.go:147, 275` (reading). -/
def readBytes : Json → Option (Option (List UInt8)) := orZero none fun j => match j with
  | .str s => (b64Decode s).map some
  | _ => none

/-- An int32.
Library code, reached from `gateway.go:127` and `marshaler.go:39-46` (writing), `client.go:147, 275` (reading). -/
def parseInt32 (s : Str) : Option Int :=
  match parseInt64 s with
  | some n => if -2 ^ 31 ≤ n ∧ n < 2 ^ 31 then some n else none
  | none => none

/-- The type of a log: a name or a number.
Library code, reached from `gateway.go:127` and `marshaler.go:39-46` (writing), `client.go:147, 275` (reading). -/
def readLogType : Json → Option Int := orZero 0 fun j => match j with
  | .str s => if s = "OUT".toList then some 0 else if s = "ERR".toList then some 1 else none
  | .num t => parseInt32 t
  | _ => none

/-- Is a key before another? (The order of bytes is that of characters.)
Library code, reached from `gateway.go:127` and `marshaler.go:39-46` (writing), `client.go:147, 275` (reading). -/
def keyBefore (a b : Str) : Bool := decide (a < b)

/-- Setting an entry of a map.
Library code, reached from `gateway.go:127` and `marshaler.go:39-46` (writing), `client.go:147, 275` (reading). -/
def setKey {α : Type} (k : Str) (v : α) : List (Str × α) → List (Str × α)
  | [] => [(k, v)]
  | (k', v') :: m =>
    if keyBefore k k' then (k, v) :: (k', v') :: m
    else if k = k' then (k, v) :: m
    else (k', v') :: setKey k v m

/-- The entries of a map.
Library code, reached from `gateway.go:127` and `marshaler.go:39-46` (writing), `client.go:147, 275` (reading). -/
def readEntries {α : Type} (f : Json → Option α) : List (Str × Json) → List (Str × α) → Option (List (Str × α))
  | [], m => some m
  | (k, j) :: fs, m => match f j with
    | none => none
    | some v => readEntries f fs (setKey k v m)

/-- A map.
Library code, reached from `gateway.go:127` and `marshaler.go:39-46` (writing), `client.go:147, 275` (reading). -/
def readMap {α : Type} (f : Json → Option α) : Json → Option (List (Str × α)) := orZero [] fun j => match j with
  | .obj fs => readEntries f fs []
  | _ => none

/-- `consumeField`: a field by its original or its camel case name, preferring the latter;
`null` for none.
Library code, reached from `gateway.go:127` and `marshaler.go:39-46` (writing), `client.go:147, 275` (reading). -/
def takeField (fs : List (Str × Json)) (orig camel : String) : Json :=
  match field fs camel with
  | some v => v
  | none => (field fs orig).getD .null

/-- An object that has no other fields than those of the message.
Library code, reached from `gateway.go:127` and `marshaler.go:39-46` (writing), `client.go:147, 275` (reading). -/
def readObject {α : Type} (z : α) (names : List String) (f : List (Str × Json) → Option α) : Json → Option α :=
  orZero z fun j => match j with
    | .obj fs => if fs.all fun p => names.any fun n => n.toList = p.1 then f fs else none
    | _ => none

/-- Is a field there?
Library code, reached from `gateway.go:127` and `marshaler.go:39-46` (writing), `client.go:147, 275` (reading). -/
def hasField (fs : List (Str × Json)) (k : String) : Bool := (field fs k).isSome

/-- `Value`.  Simplification: of several fields of a oneof the first counts (Go: any).
Library code, reached from `gateway.go:127` and `marshaler.go:39-46` (writing), `client.go:147, 275` (reading). -/
def readTagValue : Json → Option TagValue :=
  readObject .unset ["text", "integer", "decimal"] fun fs =>
    if hasField fs "text" then (readText64 (takeField fs "text" "text")).map .text
    else if hasField fs "integer" then (readInt64 (takeField fs "integer" "integer")).map .integer
    else if hasField fs "decimal" then (readFloat64 (takeField fs "decimal" "decimal")).map .decimal
    else some .unset

/-- `GaugeValue`.
Library code, reached from `gateway.go:127` and `marshaler.go:39-46` (writing), `client.go:147, 275` (reading). -/
def readWireGauge : Json → Option WireGauge :=
  readObject {} ["unit", "value"] fun fs =>
    match readText64 (takeField fs "unit" "unit"), readFloat64 (takeField fs "value" "value") with
    | some u, some v => some ⟨u, v⟩
    | _, _ => none

/-- `Log`.
Library code, reached from `gateway.go:127` and `marshaler.go:39-46` (writing), `client.go:147, 275` (reading). -/
def readWireLog : Json → Option WireMessage :=
  readObject (.log none 0) ["payload", "type"] fun fs =>
    match readBytes (takeField fs "payload" "payload"), readLogType (takeField fs "type" "type") with
    | some p, some t => some (.log p t)
    | _, _ => none

/-- `Counter`.
Library code, reached from `gateway.go:127` and `marshaler.go:39-46` (writing), `client.go:147, 275` (reading). -/
def readWireCounter : Json → Option WireMessage :=
  readObject (.counter [] 0 0) ["name", "delta", "total"] fun fs =>
    match readText64 (takeField fs "name" "name"), readUint64 (takeField fs "delta" "delta"),
      readUint64 (takeField fs "total" "total") with
    | some n, some d, some t => some (.counter n d t)
    | _, _, _ => none

/-- `Gauge`.
Library code, reached from `gateway.go:127` and `marshaler.go:39-46` (writing), `client.go:147, 275` (reading). -/
def readWireMetrics : Json → Option WireMessage :=
  readObject (.gauge []) ["metrics"] fun fs => (readMap readWireGauge (takeField fs "metrics" "metrics")).map .gauge

/-- `Timer`.
Library code, reached from `gateway.go:127` and `marshaler.go:39-46` (writing), `client.go:147, 275` (reading). -/
def readWireTimer : Json → Option WireMessage :=
  readObject (.timer [] 0 0) ["name", "start", "stop"] fun fs =>
    match readText64 (takeField fs "name" "name"), readInt64 (takeField fs "start" "start"),
      readInt64 (takeField fs "stop" "stop") with
    | some n, some a, some b => some (.timer n a b)
    | _, _, _ => none

/-- `Event`.
Library code, reached from `gateway.go:127` and `marshaler.go:39-46` (writing), `client.go:147, 275` (reading). -/
def readWireEvent : Json → Option WireMessage :=
  readObject (.event [] []) ["title", "body"] fun fs =>
    match readText64 (takeField fs "title" "title"), readText64 (takeField fs "body" "body") with
    | some t, some b => some (.event t b)
    | _, _ => none

/-- The oneof of an envelope.  Simplification as for `Value`.
Library code, reached from `gateway.go:127` and `marshaler.go:39-46` (writing), `client.go:147, 275` (reading). -/
def readWireMessage (fs : List (Str × Json)) : Option (Option WireMessage) :=
  if hasField fs "log" then (readWireLog (takeField fs "log" "log")).map some
  else if hasField fs "counter" then (readWireCounter (takeField fs "counter" "counter")).map some
  else if hasField fs "gauge" then (readWireMetrics (takeField fs "gauge" "gauge")).map some
  else if hasField fs "timer" then (readWireTimer (takeField fs "timer" "timer")).map some
  else if hasField fs "event" then (readWireEvent (takeField fs "event" "event")).map some
  else some none

/-- `Envelope`.
Library code, reached from `gateway.go:127` and `marshaler.go:39-46` (writing), `client.go:147, 275` (reading). -/
def readWireEnvelope : Json → Option WireEnvelope :=
  readObject {} ["timestamp", "source_id", "sourceId", "instance_id", "instanceId", "deprecated_tags", "deprecatedTags",
      "tags", "log", "counter", "gauge", "timer", "event"] fun fs =>
    match readInt64 (takeField fs "timestamp" "timestamp"), readText64 (takeField fs "source_id" "sourceId"),
      readText64 (takeField fs "instance_id" "instanceId"),
      readMap readTagValue (takeField fs "deprecated_tags" "deprecatedTags"),
      readMap readText64 (takeField fs "tags" "tags"), readWireMessage fs with
    | some t, some s, some i, some d, some g, some m => some ⟨t, s, i, d, g, m⟩
    | _, _, _, _, _, _ => none

/-- A repeated field.
Library code, reached from `gateway.go:127` and `marshaler.go:39-46` (writing), `client.go:147, 275` (reading). -/
def readList {α : Type} (f : Json → Option α) : Json → Option (List α) := orZero [] fun j => match j with
  | .arr xs => traverse f xs
  | _ => none

/-- `EnvelopeBatch`.
Library code, reached from `gateway.go:127` and `marshaler.go:39-46` (writing), `client.go:147, 275` (reading). -/
def readWireBatch : Json → Option (List WireEnvelope) :=
  readObject [] ["batch"] fun fs => readList readWireEnvelope (takeField fs "batch" "batch")

/-- `ReadResponse`, of which the client returns `r.GetEnvelopes().GetBatch()`
(client.go:146-151). -/
def readReadResponse : Json → Option (List WireEnvelope) :=
  readObject [] ["envelopes"] fun fs => readWireBatch (takeField fs "envelopes" "envelopes")

/-- `MetaInfo`.
Library code, reached from `gateway.go:127` and `marshaler.go:39-46` (writing), `client.go:147, 275` (reading). -/
def readWireMeta : Json → Option WireMeta :=
  readObject {} ["count", "expired", "oldest_timestamp", "oldestTimestamp", "newest_timestamp", "newestTimestamp"] fun fs =>
    match readInt64 (takeField fs "count" "count"), readInt64 (takeField fs "expired" "expired"),
      readInt64 (takeField fs "oldest_timestamp" "oldestTimestamp"),
      readInt64 (takeField fs "newest_timestamp" "newestTimestamp") with
    | some c, some x, some o, some n => some ⟨c, x, o, n⟩
    | _, _, _, _ => none

/-- `MetaResponse`, of which the client returns the map (client.go:274-279). -/
def readMetaResponse : Json → Option (List (Str × WireMeta)) :=
  readObject [] ["meta"] fun fs => readMap readWireMeta (takeField fs "meta" "meta")

/-- The body of the answer to a read, as the client library reads it: the first document.
Models `client.go:146-151`. -/
def clientReadBody (t : Str) : Option (List WireEnvelope) := (decodeJson t).bind readReadResponse

/-- The body of the answer with meta information. Models `client.go:274-279`. -/
def clientMetaBody (t : Str) : Option (List (Str × WireMeta)) := (decodeJson t).bind readMetaResponse

end LogCache
