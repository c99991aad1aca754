import Verif.Model.EnvelopeJson
import Verif.Model.PromClient
import Verif.Model.Reader
import Verif.Model.Routing

/-!
# The messages of the gRPC interfaces as bytes

Field numbers and types are those of `/repo/api/v1/egress.proto`, `ingress.proto`,
`orchestration.proto` and `promql.proto` (struct tags in
`/repo/pkg/rpc/logcache_v1/*.pb.go`) and of `loggregator_v2` (dependency, from memory).
The encoding is that of protocol buffers as `github.com/golang/protobuf` 1.x implements it
(`table_marshal.go`, `table_unmarshal.go`, from memory).

Simplifications: the order in which the fields of one message are written is that of their
numbers, with the oneof last (reading does not depend on it); fields that are not known are
dropped when reading (Go keeps their bytes and writes them again); groups, which no
message here uses, are errors; all NaN are one.
-/

namespace LogCache

/-! ## Varints and fields -/

/-- A varint: seven bits per byte, the lowest first.
Library code, reached from the gRPC calls (`egress.proto:9-20`, `ingress.proto:8-12`, `promql.proto:7-19`). -/
def putVarint (n : Nat) : List UInt8 :=
  if n < 128 then [UInt8.ofNat n] else UInt8.ofNat (n % 128 + 128) :: putVarint (n / 128)
termination_by n

/-- Reading a varint of a bounded number of bytes.
Library code, reached from the gRPC calls (`egress.proto:9-20`, `ingress.proto:8-12`, `promql.proto:7-19`). -/
def getVarintN : Nat → List UInt8 → Option (Nat × List UInt8)
  | 0, _ => none
  | _ + 1, [] => none
  | k + 1, b :: r =>
    if b.toNat < 128 then some (b.toNat, r)
    else (getVarintN k r).map fun p => (b.toNat % 128 + 128 * p.1, p.2)

/-- `decodeVarint`: ten bytes at most, and no more than 64 bits.
Library code, reached from the gRPC calls (`egress.proto:9-20`, `ingress.proto:8-12`, `promql.proto:7-19`). -/
def getVarint (s : List UInt8) : Option (Nat × List UInt8) :=
  match getVarintN 10 s with
  | some (n, r) => if n < 2 ^ 64 then some (n, r) else none
  | none => none

/-- A number in `k` bytes, the lowest first.
Library code, reached from the gRPC calls (`egress.proto:9-20`, `ingress.proto:8-12`, `promql.proto:7-19`). -/
def putFixed : Nat → Nat → List UInt8
  | 0, _ => []
  | k + 1, n => UInt8.ofNat (n % 256) :: putFixed k (n / 256)

/-- Reading a number of `k` bytes.
Library code, reached from the gRPC calls (`egress.proto:9-20`, `ingress.proto:8-12`, `promql.proto:7-19`). -/
def getFixed : Nat → List UInt8 → Option (Nat × List UInt8)
  | 0, s => some (0, s)
  | _ + 1, [] => none
  | k + 1, b :: r => (getFixed k r).map fun p => (b.toNat + 256 * p.1, p.2)

/-- The value of a field.
Library code, reached from the gRPC calls (`egress.proto:9-20`, `ingress.proto:8-12`, `promql.proto:7-19`). -/
inductive WireVal where
  | varint (n : Nat)
  | fixed64 (n : Nat)
  | bytes (bs : List UInt8)
  | fixed32 (n : Nat)
deriving DecidableEq, Repr

/-- The wire type.
Library code, reached from the gRPC calls (`egress.proto:9-20`, `ingress.proto:8-12`, `promql.proto:7-19`). -/
def WireVal.wireType : WireVal → Nat
  | .varint _ => 0
  | .fixed64 _ => 1
  | .bytes _ => 2
  | .fixed32 _ => 5

/-- A field without its tag.
Library code, reached from the gRPC calls (`egress.proto:9-20`, `ingress.proto:8-12`, `promql.proto:7-19`). -/
def WireVal.body : WireVal → List UInt8
  | .varint n => putVarint n
  | .fixed64 n => putFixed 8 n
  | .bytes bs => putVarint bs.length ++ bs
  | .fixed32 n => putFixed 4 n

/-- Fields with their tags.
Library code, reached from the gRPC calls (`egress.proto:9-20`, `ingress.proto:8-12`, `promql.proto:7-19`). -/
def encFields : List (Nat × WireVal) → List UInt8
  | [] => []
  | (k, v) :: fs => putVarint (k * 8 + v.wireType) ++ v.body ++ encFields fs

/-- Reading the value of a field of a wire type.
Library code, reached from the gRPC calls (`egress.proto:9-20`, `ingress.proto:8-12`, `promql.proto:7-19`). -/
def readWireVal (wt : Nat) (s : List UInt8) : Option (WireVal × List UInt8) :=
  if wt = 0 then (getVarint s).map fun p => (.varint p.1, p.2)
  else if wt = 1 then (getFixed 8 s).map fun p => (.fixed64 p.1, p.2)
  else if wt = 2 then
    match getVarint s with
    | some (n, r) => if n ≤ r.length then some (.bytes (r.take n), r.drop n) else none
    | none => none
  else if wt = 5 then (getFixed 4 s).map fun p => (.fixed32 p.1, p.2)
  else none

/-- Reading fields; the number bounds how many.
Library code, reached from the gRPC calls (`egress.proto:9-20`, `ingress.proto:8-12`, `promql.proto:7-19`). -/
def parseFieldsN : Nat → List UInt8 → Option (List (Nat × WireVal))
  | _, [] => some []
  | 0, _ :: _ => none
  | k + 1, b :: s =>
    match getVarint (b :: s) with
    | none => none
    | some (t, r) => match readWireVal (t % 8) r with
      | none => none
      | some (v, r') => (parseFieldsN k r').map ((t / 8, v) :: ·)

/-- All fields of a message.
Library code, reached from the gRPC calls (`egress.proto:9-20`, `ingress.proto:8-12`, `promql.proto:7-19`). -/
def parseFields (s : List UInt8) : Option (List (Nat × WireVal)) := parseFieldsN s.length s

/-! ## Text and numbers -/

/-- Text in UTF-8.
Library code, reached from the gRPC calls (`egress.proto:9-20`, `ingress.proto:8-12`, `promql.proto:7-19`). -/
def utf8Bytes (s : Str) : List UInt8 := s.flatMap String.utf8EncodeChar

/-- Reading UTF-8 (`utf8.ValidString`).
Library code, reached from the gRPC calls (`egress.proto:9-20`, `ingress.proto:8-12`, `promql.proto:7-19`). -/
def utf8Text (bs : List UInt8) : Option Str := (ByteArray.mk bs.toArray).utf8Decode?.map Array.toList

/-- `math.Float64bits`.
Library code, reached from the gRPC calls (`egress.proto:9-20`, `ingress.proto:8-12`, `promql.proto:7-19`). -/
def f64Bits : F64 → Nat
  | .nan => 2047 * 2 ^ 52 + 2 ^ 51 + 1
  | .inf neg => (if neg then 2 ^ 63 else 0) + 2047 * 2 ^ 52
  | .fin neg m e =>
    (if neg then 2 ^ 63 else 0) + (if m < 2 ^ 52 then m else (e + 1075).toNat * 2 ^ 52 + (m - 2 ^ 52))

/-- `math.Float64frombits`.
Library code, reached from the gRPC calls (`egress.proto:9-20`, `ingress.proto:8-12`, `promql.proto:7-19`). -/
def f64OfBits (n : Nat) : F64 :=
  let neg := decide (2 ^ 63 ≤ n)
  let e : Nat := n / 2 ^ 52 % 2048
  let m : Nat := n % 2 ^ 52
  if e = 2047 then (if m = 0 then .inf neg else .nan)
  else if e = 0 then (if m = 0 then .fin neg 0 0 else .fin neg m (-1074))
  else .fin neg (2 ^ 52 + m) ((e : Int) - 1075)

/-- `uint64` of a signed number.
Library code, reached from the gRPC calls (`egress.proto:9-20`, `ingress.proto:8-12`, `promql.proto:7-19`). -/
def asUint64 (n : Int) : Nat := (n % (2 ^ 64 : Int)).toNat

/-- `int32` of a varint.
Library code, reached from the gRPC calls (`egress.proto:9-20`, `ingress.proto:8-12`, `promql.proto:7-19`). -/
def wrap32 (n : Int) : Int := (n + 2 ^ 31) % 2 ^ 32 - 2 ^ 31

/-! ## Messages -/

/-- How a message is written and read: its empty value, the fields of a value, and what a
field that was read does to a value; `none` is an error.
Library code, reached from the gRPC calls (`egress.proto:9-20`, `ingress.proto:8-12`, `promql.proto:7-19`). -/
structure Proto (α : Type) where
  zero : α
  fields : α → List (Nat × WireVal)
  step : α → Nat → WireVal → Option α

/-- One field after the other.
Library code, reached from the gRPC calls (`egress.proto:9-20`, `ingress.proto:8-12`, `promql.proto:7-19`). -/
def stepAll {α : Type} (step : α → Nat → WireVal → Option α) : α → List (Nat × WireVal) → Option α
  | z, [] => some z
  | z, (k, v) :: fs => match step z k v with
    | some z' => stepAll step z' fs
    | none => none

/-- `proto.Marshal`.
Library code, reached from the gRPC calls (`egress.proto:9-20`, `ingress.proto:8-12`, `promql.proto:7-19`). -/
def Proto.encode {α : Type} (p : Proto α) (x : α) : List UInt8 := encFields (p.fields x)

/-- Reading into a value (`unmarshal`).
Library code, reached from the gRPC calls (`egress.proto:9-20`, `ingress.proto:8-12`, `promql.proto:7-19`). -/
def Proto.merge {α : Type} (p : Proto α) (z : α) (bs : List UInt8) : Option α := (parseFields bs).bind (stepAll p.step z)

/-- `proto.Unmarshal`.
Library code, reached from the gRPC calls (`egress.proto:9-20`, `ingress.proto:8-12`, `promql.proto:7-19`). -/
def Proto.decode {α : Type} (p : Proto α) (bs : List UInt8) : Option α := p.merge p.zero bs

/-- Fields that are left out when they are zero.
Library code, reached from the gRPC calls (`egress.proto:9-20`, `ingress.proto:8-12`, `promql.proto:7-19`). -/
def optField (zero : Bool) (k : Nat) (v : WireVal) : List (Nat × WireVal) := if zero then [] else [(k, v)]

/-- Library code, reached from the gRPC calls (`egress.proto:9-20`, `ingress.proto:8-12`, `promql.proto:7-19`). -/
def intField (k : Nat) (n : Int) : List (Nat × WireVal) := optField (n = 0) k (.varint (asUint64 n))
/-- Library code, reached from the gRPC calls (`egress.proto:9-20`, `ingress.proto:8-12`, `promql.proto:7-19`). -/
def uintField (k : Nat) (n : Nat) : List (Nat × WireVal) := optField (n = 0) k (.varint n)
/-- Library code, reached from the gRPC calls (`egress.proto:9-20`, `ingress.proto:8-12`, `promql.proto:7-19`). -/
def boolField (k : Nat) (b : Bool) : List (Nat × WireVal) := optField (!b) k (.varint 1)
/-- Library code, reached from the gRPC calls (`egress.proto:9-20`, `ingress.proto:8-12`, `promql.proto:7-19`). -/
def strField (k : Nat) (s : Str) : List (Nat × WireVal) := optField s.isEmpty k (.bytes (utf8Bytes s))
/-- Library code, reached from the gRPC calls (`egress.proto:9-20`, `ingress.proto:8-12`, `promql.proto:7-19`). -/
def floatField (k : Nat) (x : F64) : List (Nat × WireVal) := optField (f64Bits x = 0) k (.fixed64 (f64Bits x))
/-- Library code, reached from the gRPC calls (`egress.proto:9-20`, `ingress.proto:8-12`, `promql.proto:7-19`). -/
def bytesField (k : Nat) (b : Option (List UInt8)) : List (Nat × WireVal) := optField (b.getD []).isEmpty k (.bytes (b.getD []))

/-- A field that was read; one of another wire type is skipped.
Library code, reached from the gRPC calls (`egress.proto:9-20`, `ingress.proto:8-12`, `promql.proto:7-19`). -/
def onText {α : Type} (z : α) (v : WireVal) (f : Str → α) : Option α := match v with
  | .bytes bs => (utf8Text bs).map f
  | _ => some z
/-- Library code, reached from the gRPC calls (`egress.proto:9-20`, `ingress.proto:8-12`, `promql.proto:7-19`). -/
def onBytes {α : Type} (z : α) (v : WireVal) (f : List UInt8 → Option α) : Option α := match v with
  | .bytes bs => f bs
  | _ => some z
/-- Library code, reached from the gRPC calls (`egress.proto:9-20`, `ingress.proto:8-12`, `promql.proto:7-19`). -/
def onInt {α : Type} (z : α) (v : WireVal) (f : Int → α) : Option α := match v with
  | .varint n => some (f (wrap64 n))
  | _ => some z
/-- Library code, reached from the gRPC calls (`egress.proto:9-20`, `ingress.proto:8-12`, `promql.proto:7-19`). -/
def onUint {α : Type} (z : α) (v : WireVal) (f : Nat → α) : Option α := match v with
  | .varint n => some (f n)
  | _ => some z
/-- Library code, reached from the gRPC calls (`egress.proto:9-20`, `ingress.proto:8-12`, `promql.proto:7-19`). -/
def onBool {α : Type} (z : α) (v : WireVal) (f : Bool → α) : Option α := match v with
  | .varint n => some (f (n != 0))
  | _ => some z
/-- Library code, reached from the gRPC calls (`egress.proto:9-20`, `ingress.proto:8-12`, `promql.proto:7-19`). -/
def onFloat {α : Type} (z : α) (v : WireVal) (f : F64 → α) : Option α := match v with
  | .fixed64 n => some (f (f64OfBits n))
  | _ => some z

/-- A map: each entry is a message of a key and a value; both are always written.
Library code, reached from the gRPC calls (`egress.proto:9-20`, `ingress.proto:8-12`, `promql.proto:7-19`). -/
def mapFields {α : Type} (k : Nat) (val : α → List UInt8) (m : List (Str × α)) : List (Nat × WireVal) :=
  m.map fun kv => (k, .bytes (encFields [(1, .bytes (utf8Bytes kv.1)), (2, .bytes (val kv.2))]))

/-- Reading an entry of a map; `val` reads into a value.
Library code, reached from the gRPC calls (`egress.proto:9-20`, `ingress.proto:8-12`, `promql.proto:7-19`). -/
def entryStep {α : Type} (val : α → List UInt8 → Option α) (z : Str × α) (k : Nat) (v : WireVal) : Option (Str × α) :=
  if k = 1 then onText z v fun s => (s, z.2)
  else if k = 2 then onBytes z v fun bs => (val z.2 bs).map fun x => (z.1, x)
  else some z

/-- Putting an entry that was read into a map.
Library code, reached from the gRPC calls (`egress.proto:9-20`, `ingress.proto:8-12`, `promql.proto:7-19`). -/
def readEntry {α : Type} (zero : α) (val : α → List UInt8 → Option α) (m : List (Str × α)) (bs : List UInt8) :
    Option (List (Str × α)) :=
  ((parseFields bs).bind (stepAll (entryStep val) ([], zero))).map fun kv => setKey kv.1 kv.2 m

/-! ### `loggregator_v2` -/

/-- `Value`: `text = 1`, `integer = 2`, `decimal = 3` (oneof).
Imported at `egress.proto:5`, from recollection. -/
def tagValueProto : Proto TagValue where
  zero := .unset
  fields
    | .unset => []
    | .text s => [(1, .bytes (utf8Bytes s))]
    | .integer n => [(2, .varint (asUint64 n))]
    | .decimal x => [(3, .fixed64 (f64Bits x))]
  step z k v :=
    if k = 1 then onText z v .text
    else if k = 2 then onInt z v .integer
    else if k = 3 then onFloat z v .decimal
    else some z

/-- `GaugeValue`: `unit = 1`, `value = 2`. Imported at `egress.proto:5`, from recollection. -/
def wireGaugeProto : Proto WireGauge where
  zero := {}
  fields g := strField 1 g.unit ++ floatField 2 g.value
  step z k v :=
    if k = 1 then onText z v fun s => { z with unit := s }
    else if k = 2 then onFloat z v fun x => { z with value := x }
    else some z

/-- `Log`: `payload = 1`, `type = 2`. Imported at `egress.proto:5`, from recollection. -/
def logProto : Proto (Option (List UInt8) × Int) where
  zero := (none, 0)
  fields l := bytesField 1 l.1 ++ intField 2 l.2
  step z k v :=
    if k = 1 then onBytes z v fun bs => some (some bs, z.2)
    else if k = 2 then onInt z v fun n => (z.1, wrap32 n)
    else some z

/-- `Counter`: `name = 1`, `delta = 2`, `total = 3`.
Imported at `egress.proto:5`, from recollection. -/
def counterProto : Proto (Str × Nat × Nat) where
  zero := ([], 0, 0)
  fields c := strField 1 c.1 ++ (uintField 2 c.2.1 ++ uintField 3 c.2.2)
  step z k v :=
    if k = 1 then onText z v fun s => (s, z.2.1, z.2.2)
    else if k = 2 then onUint z v fun n => (z.1, n, z.2.2)
    else if k = 3 then onUint z v fun n => (z.1, z.2.1, n)
    else some z

/-- `Gauge`: `metrics = 1`. Imported at `egress.proto:5`, from recollection. -/
def gaugeProto : Proto (List (Str × WireGauge)) where
  zero := []
  fields ms := mapFields 1 wireGaugeProto.encode ms
  step z k v := if k = 1 then onBytes z v (readEntry wireGaugeProto.zero wireGaugeProto.merge z) else some z

/-- `Timer`: `name = 1`, `start = 2`, `stop = 3`.
Imported at `egress.proto:5`, from recollection. -/
def timerProto : Proto (Str × Int × Int) where
  zero := ([], 0, 0)
  fields t := strField 1 t.1 ++ (intField 2 t.2.1 ++ intField 3 t.2.2)
  step z k v :=
    if k = 1 then onText z v fun s => (s, z.2.1, z.2.2)
    else if k = 2 then onInt z v fun n => (z.1, n, z.2.2)
    else if k = 3 then onInt z v fun n => (z.1, z.2.1, n)
    else some z

/-- `Event`: `title = 1`, `body = 2`. Imported at `egress.proto:5`, from recollection. -/
def eventProto : Proto (Str × Str) where
  zero := ([], [])
  fields e := strField 1 e.1 ++ strField 2 e.2
  step z k v :=
    if k = 1 then onText z v fun s => (s, z.2)
    else if k = 2 then onText z v fun s => (z.1, s)
    else some z

/-- The field of the oneof of an envelope: `log = 4`, `counter = 5`, `gauge = 6`, `timer = 7`,
`event = 10`. Imported at `egress.proto:5`, from recollection. -/
def wireMessageFields : WireMessage → List (Nat × WireVal)
  | .log p t => [(4, .bytes (logProto.encode (p, t)))]
  | .counter n d t => [(5, .bytes (counterProto.encode (n, d, t)))]
  | .gauge ms => [(6, .bytes (gaugeProto.encode ms))]
  | .timer n a b => [(7, .bytes (timerProto.encode (n, a, b)))]
  | .event t b => [(10, .bytes (eventProto.encode (t, b)))]

/-- `Envelope`: `timestamp = 1`, `source_id = 2`, `deprecated_tags = 3`, `instance_id = 8`,
`tags = 9` and the oneof, of which each field that is read replaces what was there.
Imported at `egress.proto:5`, from recollection. -/
def wireEnvelopeProto : Proto WireEnvelope where
  zero := {}
  fields e := intField 1 e.timestamp ++ (strField 2 e.sourceId ++ (mapFields 3 tagValueProto.encode e.deprecatedTags ++
    (strField 8 e.instanceId ++ (mapFields 9 utf8Bytes e.tags ++ (e.message.map wireMessageFields).getD []))))
  step z k v :=
    if k = 1 then onInt z v fun n => { z with timestamp := n }
    else if k = 2 then onText z v fun s => { z with sourceId := s }
    else if k = 3 then onBytes z v fun bs =>
      (readEntry tagValueProto.zero tagValueProto.merge z.deprecatedTags bs).map fun m => { z with deprecatedTags := m }
    else if k = 4 then onBytes z v fun bs => (logProto.decode bs).map fun l => { z with message := some (.log l.1 l.2) }
    else if k = 5 then onBytes z v fun bs => (counterProto.decode bs).map fun c => { z with message := some (.counter c.1 c.2.1 c.2.2) }
    else if k = 6 then onBytes z v fun bs => (gaugeProto.decode bs).map fun g => { z with message := some (.gauge g) }
    else if k = 7 then onBytes z v fun bs => (timerProto.decode bs).map fun t => { z with message := some (.timer t.1 t.2.1 t.2.2) }
    else if k = 8 then onText z v fun s => { z with instanceId := s }
    else if k = 9 then onBytes z v fun bs =>
      (readEntry [] (fun _ b => utf8Text b) z.tags bs).map fun m => { z with tags := m }
    else if k = 10 then onBytes z v fun bs => (eventProto.decode bs).map fun e => { z with message := some (.event e.1 e.2) }
    else some z

/-- A repeated message field.
Library code, reached from the gRPC calls (`egress.proto:9-20`, `ingress.proto:8-12`, `promql.proto:7-19`). -/
def listFields {α : Type} (k : Nat) (enc : α → List UInt8) (xs : List α) : List (Nat × WireVal) := xs.map fun x => (k, .bytes (enc x))

/-- `EnvelopeBatch`: `batch = 1`. Imported at `egress.proto:5`, from recollection. -/
def batchProto : Proto (List WireEnvelope) where
  zero := []
  fields es := listFields 1 wireEnvelopeProto.encode es
  step z k v := if k = 1 then onBytes z v fun bs => (wireEnvelopeProto.decode bs).map fun e => z ++ [e] else some z

/-- A message field that may be nil.
Library code, reached from the gRPC calls (`egress.proto:9-20`, `ingress.proto:8-12`, `promql.proto:7-19`). -/
def subField {α : Type} (k : Nat) (enc : α → List UInt8) (x : Option α) : List (Nat × WireVal) :=
  (x.map fun y => [(k, WireVal.bytes (enc y))]).getD []

/-! ### `ingress.proto`, `egress.proto` -/

/-- `SendRequest` (`/repo/api/v1/ingress.proto:14-17`): `envelopes = 1`, `local_only = 2`. -/
structure SendReq where
  envelopes : Option (List WireEnvelope) := none
  localOnly : Bool := false
deriving DecidableEq, Repr

/-- `ingress.proto:14-17`. -/
def sendReqProto : Proto SendReq where
  zero := {}
  fields r := subField 1 batchProto.encode r.envelopes ++ boolField 2 r.localOnly
  step z k v :=
    if k = 1 then onBytes z v fun bs => (batchProto.merge (z.envelopes.getD []) bs).map fun b => { z with envelopes := some b }
    else if k = 2 then onBool z v fun b => { z with localOnly := b }
    else some z

/-- The numbers of `EnvelopeType` (`/repo/api/v1/egress.proto:32-39`). -/
def etypeNumber : EType → Int
  | .any => 0
  | .log => 1
  | .counter => 2
  | .gauge => 3
  | .timer => 4
  | .event => 5
  | .other n => n

/-- `egress.proto:32-39`. -/
def etypeOfNumber (n : Int) : EType :=
  if n = 0 then .any else if n = 1 then .log else if n = 2 then .counter else if n = 3 then .gauge
  else if n = 4 then .timer else if n = 5 then .event else .other n

/-- A packed list of enumeration values. For `egress.proto:27`. -/
def putEnums : List EType → List UInt8
  | [] => []
  | t :: ts => putVarint (asUint64 (etypeNumber t)) ++ putEnums ts

/-- An enumeration value that was read as a varint. For `egress.proto:27`. -/
def enumOf (n : Nat) : EType := etypeOfNumber (wrap32 (wrap64 n))

/-- Reading a packed list; the number bounds its length. For `egress.proto:27`. -/
def getEnums : Nat → List UInt8 → Option (List EType)
  | _, [] => some []
  | 0, _ :: _ => none
  | k + 1, b :: s => match getVarint (b :: s) with
    | none => none
    | some (n, r) => (getEnums k r).map (enumOf n :: ·)

/-- `ReadRequest` (`egress.proto:22-30`): `source_id = 1`, `start_time = 2`, `end_time = 3`,
`limit = 4`, `envelope_types = 5` (packed), `descending = 6`, `name_filter = 7`. -/
def readReqProto : Proto ReadRequest where
  zero := { sourceId := [] }
  fields r := strField 1 r.sourceId ++ (intField 2 r.start ++ (intField 3 r.stop ++ (intField 4 r.limit ++
    (optField r.types.isEmpty 5 (.bytes (putEnums r.types)) ++ (boolField 6 r.descending ++ strField 7 r.nameFilter)))))
  step z k v :=
    if k = 1 then onText z v fun s => { z with sourceId := s }
    else if k = 2 then onInt z v fun n => { z with start := n }
    else if k = 3 then onInt z v fun n => { z with stop := n }
    else if k = 4 then onInt z v fun n => { z with limit := n }
    else if k = 5 then
      match v with
      | .bytes bs => (getEnums bs.length bs).map fun ts => { z with types := z.types ++ ts }
      | .varint n => some { z with types := z.types ++ [enumOf n] }
      | _ => some z
    else if k = 6 then onBool z v fun b => { z with descending := b }
    else if k = 7 then onText z v fun s => { z with nameFilter := s }
    else some z

/-- `ReadResponse` (`egress.proto:41-43`): `envelopes = 1`. -/
def readRespProto : Proto (Option (List WireEnvelope)) where
  zero := none
  fields r := subField 1 batchProto.encode r
  step z k v := if k = 1 then onBytes z v fun bs => (batchProto.merge (z.getD []) bs).map some else some z

/-- `MetaRequest` (`egress.proto:45-47`): `local_only = 1`. -/
def metaReqProto : Proto Bool where
  zero := false
  fields b := boolField 1 b
  step z k v := if k = 1 then onBool z v id else some z

/-- `MetaInfo` (`egress.proto:53-58`). -/
def wireMetaProto : Proto WireMeta where
  zero := {}
  fields m := intField 1 m.count ++ (intField 2 m.expired ++ (intField 3 m.oldest ++ intField 4 m.newest))
  step z k v :=
    if k = 1 then onInt z v fun n => { z with count := n }
    else if k = 2 then onInt z v fun n => { z with expired := n }
    else if k = 3 then onInt z v fun n => { z with oldest := n }
    else if k = 4 then onInt z v fun n => { z with newest := n }
    else some z

/-- `MetaResponse` (`egress.proto:49-51`): `meta = 1`. -/
def metaRespProto : Proto (List (Str × WireMeta)) where
  zero := []
  fields m := mapFields 1 wireMetaProto.encode m
  step z k v := if k = 1 then onBytes z v (readEntry wireMetaProto.zero wireMetaProto.merge z) else some z

/-! ### `orchestration.proto` -/

/-- `Range` (`/repo/api/v1/orchestration.proto:12-18`): `start = 1`, `end = 2`. -/
def rangeProto : Proto HRange where
  zero := ⟨0, 0⟩
  fields r := uintField 1 r.start ++ uintField 2 r.stop
  step z k v :=
    if k = 1 then onUint z v fun n => { z with start := n }
    else if k = 2 then onUint z v fun n => { z with stop := n }
    else some z

/-- `Ranges` (`orchestration.proto:20-22`), and `ListRangesResponse` (`:41-43`): `ranges = 1`. -/
def rangesProto : Proto (List HRange) where
  zero := []
  fields rs := listFields 1 rangeProto.encode rs
  step z k v := if k = 1 then onBytes z v fun bs => (rangeProto.decode bs).map fun r => z ++ [r] else some z

/-- `AddRangeRequest` and `RemoveRangeRequest` (`orchestration.proto:24-26, 31-33`): `range = 1`. -/
def oneRangeProto : Proto (Option HRange) where
  zero := none
  fields r := subField 1 rangeProto.encode r
  step z k v := if k = 1 then onBytes z v fun bs => (rangeProto.merge (z.getD rangeProto.zero) bs).map some else some z

/-- `SetRangesRequest` (`orchestration.proto:45-48`): `ranges = 1`, by address. -/
def setRangesProto : Proto (List (Str × List HRange)) where
  zero := []
  fields m := mapFields 1 rangesProto.encode m
  step z k v := if k = 1 then onBytes z v (readEntry rangesProto.zero rangesProto.merge z) else some z

/-! ### `promql.proto` -/

/-- `InstantQueryRequest` (`/repo/api/v1/promql.proto:22-25`). -/
def instantReqProto : Proto InstantReq where
  zero := ⟨[], []⟩
  fields r := strField 1 r.query ++ strField 2 r.time
  step z k v :=
    if k = 1 then onText z v fun s => { z with query := s }
    else if k = 2 then onText z v fun s => { z with time := s }
    else some z

/-- `RangeQueryRequest` (`promql.proto:27-32`). -/
def rangeReqProto : Proto RangeReq where
  zero := ⟨[], [], [], []⟩
  fields r := strField 1 r.query ++ (strField 2 r.start ++ (strField 3 r.stop ++ strField 4 r.step))
  step z k v :=
    if k = 1 then onText z v fun s => { z with query := s }
    else if k = 2 then onText z v fun s => { z with start := s }
    else if k = 3 then onText z v fun s => { z with stop := s }
    else if k = 4 then onText z v fun s => { z with step := s }
    else some z

/-- `Point` and `Scalar` (`promql.proto:48-51, 57-60`): `time = 1`, `value = 2`. -/
def pointProto : Proto (PPoint F64) where
  zero := ⟨[], .fin false 0 0⟩
  fields p := strField 1 p.time ++ floatField 2 p.value
  step z k v :=
    if k = 1 then onText z v fun s => { z with time := s }
    else if k = 2 then onFloat z v fun x => { z with value := x }
    else some z

/-- `Sample` (`promql.proto:62-65`): `metric = 1`, `point = 2`. -/
def sampleProto : Proto (PSample F64) where
  zero := ⟨[], pointProto.zero⟩
  fields s := mapFields 1 utf8Bytes s.metric ++ subField 2 pointProto.encode (some s.point)
  step z k v :=
    if k = 1 then onBytes z v fun bs => (readEntry [] (fun _ b => utf8Text b) z.metric bs).map fun m => { z with metric := m }
    else if k = 2 then onBytes z v fun bs => (pointProto.merge z.point bs).map fun p => { z with point := p }
    else some z

/-- `Series` (`promql.proto:71-74`): `metric = 1`, `points = 2`. -/
def seriesProto : Proto (PSeries F64) where
  zero := ⟨[], []⟩
  fields s := mapFields 1 utf8Bytes s.metric ++ listFields 2 pointProto.encode s.points
  step z k v :=
    if k = 1 then onBytes z v fun bs => (readEntry [] (fun _ b => utf8Text b) z.metric bs).map fun m => { z with metric := m }
    else if k = 2 then onBytes z v fun bs => (pointProto.decode bs).map fun p => { z with points := z.points ++ [p] }
    else some z

/-- `Vector` (`promql.proto:53-55`): `samples = 1`. -/
def vectorProto : Proto (List (PSample F64)) where
  zero := []
  fields xs := listFields 1 sampleProto.encode xs
  step z k v := if k = 1 then onBytes z v fun bs => (sampleProto.decode bs).map fun e => z ++ [e] else some z

/-- `Matrix` (`promql.proto:67-69`): `series = 1`. -/
def matrixProto : Proto (List (PSeries F64)) where
  zero := []
  fields xs := listFields 1 seriesProto.encode xs
  step z k v := if k = 1 then onBytes z v fun bs => (seriesProto.decode bs).map fun e => z ++ [e] else some z

/-- `InstantQueryResult` (`promql.proto:34-40`): `scalar = 1`, `vector = 2`, `matrix = 3`
(oneof). -/
def instantResultProto : Proto (Option (PResult F64)) where
  zero := none
  fields
    | none => []
    | some (.scalar p) => [(1, .bytes (pointProto.encode p))]
    | some (.vector xs) => [(2, .bytes (vectorProto.encode xs))]
    | some (.matrix xs) => [(3, .bytes (matrixProto.encode xs))]
  step z k v :=
    if k = 1 then onBytes z v fun bs => (pointProto.decode bs).map fun p => some (.scalar p)
    else if k = 2 then onBytes z v fun bs => (vectorProto.decode bs).map fun xs => some (.vector xs)
    else if k = 3 then onBytes z v fun bs => (matrixProto.decode bs).map fun xs => some (.matrix xs)
    else some z

/-- `RangeQueryResult` (`promql.proto:42-46`): `matrix = 1` (oneof). -/
def rangeResultProto : Proto (Option (List (PSeries F64))) where
  zero := none
  fields
    | none => []
    | some xs => [(1, .bytes (matrixProto.encode xs))]
  step z k v := if k = 1 then onBytes z v fun bs => (matrixProto.decode bs).map some else some z

end LogCache
