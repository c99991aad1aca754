import Verif.Model.Num
import Verif.Model.Routing

/-!
# PromQL results as JSON (`pkg/marshaler/marshaler.go`)
and as protocol messages (`internal/promql/promql.go:105-267`).

JSON documents are trees (`encoding/json`, a library, turns them into text and
back).  `float64` values are of a type `F` with the functions of `strconv` and `fmt`
the code uses.  Generated getters read nil messages as messages with empty fields,
so nil messages inside a result are not distinguished from empty ones.
-/

namespace LogCache

/-- The floating point functions used at `marshaler.go:201-211` and `409-430`.
`parse`: `strconv.ParseFloat(s, 64)`, `none` for an error.  `fmt3`: three decimals
(`%.3f`).  `fmtShort`: `strconv.FormatFloat(v, 'f', -1, 64)`.  `ofMillis`:
`float64(n)/1000` (`promql.go:744`). -/
structure FloatLib (F : Type) where
  parse : Str → Option F
  fmt3 : F → Str
  fmtShort : F → Str
  ofMillis : Int → F

/-- JSON values; numbers keep their text (`json.RawMessage`).
Library code, reached from `marshaler.go:31, 38, 246, 257`. -/
inductive Json where
  | null
  | bool (b : Bool)
  | num (text : Str)
  | str (s : Str)
  | arr (xs : List Json)
  | obj (fields : List (Str × Json))

/-- Library code, reached from `marshaler.go:31, 38, 246, 257`. -/
def isDigit (c : Char) : Bool := (digitVal c).isSome

/-- Digits, at least one: the digits and the rest.
Library code, reached from `marshaler.go:31, 38, 118, 246, 257, 434` and `client.go:340, 376, 561, 694`. -/
def readDigits (s : Str) : Option (Str × Str) :=
  if (s.takeWhile isDigit).isEmpty then none else some (s.takeWhile isDigit, s.dropWhile isDigit)

/-- The whole part of a number: `0`, or digits that do not begin with it.
Library code, reached from `marshaler.go:31, 38, 118, 246, 257, 434` and `client.go:340, 376, 561, 694`. -/
def readWhole : Str → Option (Str × Str)
  | [] => none
  | c :: r =>
    if c = '0' then some (['0'], r)
    else if isDigit c then some (c :: r.takeWhile isDigit, r.dropWhile isDigit)
    else none

/-- The fraction, if there is one.
Library code, reached from `marshaler.go:31, 38, 118, 246, 257, 434` and `client.go:340, 376, 561, 694`. -/
def readFrac : Str → Option (Str × Str)
  | [] => some ([], [])
  | c :: r => if c = '.' then (readDigits r).map fun p => ('.' :: p.1, p.2) else some ([], c :: r)

/-- The exponent, if there is one.
Library code, reached from `marshaler.go:31, 38, 118, 246, 257, 434` and `client.go:340, 376, 561, 694`. -/
def readExp : Str → Option (Str × Str)
  | [] => some ([], [])
  | c :: r =>
    if c = 'e' ∨ c = 'E' then
      match r with
      | [] => none
      | d :: r1 =>
        if d = '+' ∨ d = '-' then (readDigits r1).map fun p => (c :: d :: p.1, p.2)
        else (readDigits r).map fun p => (c :: p.1, p.2)
    else some ([], c :: r)

/-- A number without sign.
Library code, reached from `marshaler.go:31, 38, 118, 246, 257, 434` and `client.go:340, 376, 561, 694`. -/
def readUnsigned (s : Str) : Option (Str × Str) :=
  match readWhole s with
  | none => none
  | some (w, r1) => match readFrac r1 with
    | none => none
    | some (f, r2) => (readExp r2).map fun p => (w ++ f ++ p.1, p.2)

/-- A number: its text and the rest.
Library code, reached from `marshaler.go:31, 38, 118, 246, 257, 434` and `client.go:340, 376, 561, 694`. -/
def readJsonNum : Str → Option (Str × Str)
  | [] => none
  | c :: r => if c = '-' then (readUnsigned r).map fun p => ('-' :: p.1, p.2) else readUnsigned (c :: r)

/-- Is the text a JSON number?  Checked by `json.Marshal` for raw messages.
Library code, reached from `marshaler.go:31, 38, 246, 257`. -/
def validNumber (s : Str) : Bool := readJsonNum s = some (s, [])

/-- A point of a result (`logcache_v1.PromQL_Point`, `PromQL_Scalar`). `promql.proto:48-60`. -/
structure PPoint (F : Type) where
  time : Str
  value : F
deriving DecidableEq

/-- `logcache_v1.PromQL_Sample`; the metric is a map of strings. `promql.proto:62-65`. -/
structure PSample (F : Type) where
  metric : List (Str × Str)
  point : PPoint F
deriving DecidableEq

/-- `logcache_v1.PromQL_Series`. `promql.proto:71-74`. -/
structure PSeries (F : Type) where
  metric : List (Str × Str)
  points : List (PPoint F)
deriving DecidableEq

/-- The `Result` oneof of `logcache_v1.PromQL_InstantQueryResult` and (matrix only)
`PromQL_RangeQueryResult`. `promql.proto:34-46`. -/
inductive PResult (F : Type) where
  | scalar (p : PPoint F)
  | vector (samples : List (PSample F))
  | matrix (series : List (PSeries F))
deriving DecidableEq

/-- A loop that stops at the first error. Models `marshaler.go:134-188, 358-402`. -/
def traverse {α β : Type} (f : α → Option β) : List α → Option (List β)
  | [] => some []
  | x :: xs => match f x with
    | none => none
    | some y => match traverse f xs with
      | none => none
      | some ys => some (y :: ys)

variable {F : Type}

/-- `assemblePoint`, `marshaler.go:201-211`, and the check of the raw message in
`json.Marshal`. -/
def assemblePoint (fl : FloatLib F) (p : PPoint F) : Option Json :=
  match fl.parse p.time with
  | none => none
  | some t =>
    if validNumber (fl.fmt3 t) then some (.arr [.num (fl.fmt3 t), .str (fl.fmtShort p.value)]) else none

/-- A `map[string]string` as JSON.  The order of the fields is not observable.
Library code, reached from `marshaler.go:134-188`. -/
def assembleMetric (m : List (Str × Str)) : Json := .obj (m.map fun kv => (kv.1, .str kv.2))

/-- One element of `assembleVectorResultData`, `marshaler.go:134-150`. -/
def assembleSample (fl : FloatLib F) (s : PSample F) : Option Json :=
  match assemblePoint fl s.point with
  | none => none
  | some p => some (.obj [("metric".toList, assembleMetric s.metric), ("value".toList, p)])

/-- One element of `assembleMatrixResultData`, `marshaler.go:168-188`.  A series
without points has the value `null`. -/
def assembleSeries (fl : FloatLib F) (s : PSeries F) : Option Json :=
  match traverse (assemblePoint fl) s.points with
  | none => none
  | some [] => some (.obj [("metric".toList, assembleMetric s.metric), ("values".toList, .null)])
  | some ps => some (.obj [("metric".toList, assembleMetric s.metric), ("values".toList, .arr ps)])

/-- The `data` field, `assembleScalarResultData`, `assembleVectorResultData` and
`assembleMatrixResultData`, `marshaler.go:112-199`; a nil result leaves
`resultData{}` (`marshaler.go:70-93`). -/
def assembleData (fl : FloatLib F) : Option (PResult F) → Option Json
  | none => some (.obj [("resultType".toList, .str [])])
  | some (.scalar p) => (assemblePoint fl p).map fun j =>
      .obj [("resultType".toList, .str "scalar".toList), ("result".toList, j)]
  | some (.vector ss) => (traverse (assembleSample fl) ss).map fun js =>
      .obj [("resultType".toList, .str "vector".toList), ("result".toList, .arr js)]
  | some (.matrix ss) => (traverse (assembleSeries fl) ss).map fun js =>
      .obj [("resultType".toList, .str "matrix".toList), ("result".toList, .arr js)]

/-- `Marshal` and the encoder for query results, `marshaler.go:23-42`, `70-110` and
`213-237`. -/
def marshalResult (fl : FloatLib F) (r : Option (PResult F)) : Option Json :=
  (assembleData fl r).map fun d => .obj [("status".toList, .str "success".toList), ("data".toList, d)]

/-- The field of a JSON object: the last one of that name counts.  Simplification: names are
compared exactly, and a `null` after another value of the same name hides that value (Go
leaves it in place). Library code, reached from `marshaler.go:246, 257, 334, 352, 379`. -/
def field (fs : List (Str × Json)) (k : String) : Option Json := fs.reverse.lookup k.toList

/-- `disassemblePoint`, `marshaler.go:409-430`, on a decoded `[]interface{}`. -/
def disassemblePoint (fl : FloatLib F) : Json → Option (PPoint F)
  | .arr [.num t, .str v] => match fl.parse t, fl.parse v with
    | some t, some v => some ⟨fl.fmt3 t, v⟩
    | _, _ => none
  | _ => none

/-- Decoding a value of a `map[string]string`.
Library code, reached from `marshaler.go:352, 379`. -/
def decodeTag (kv : Str × Json) : Option (Str × Str) := match kv.2 with
  | .str s => some (kv.1, s)
  | .null => some (kv.1, [])
  | _ => none

/-- Decoding into a `map[string]string`. Library code, reached from `marshaler.go:352, 379`. -/
def decodeMetric : Option Json → Option (List (Str × Str))
  | none => some []
  | some .null => some []
  | some (.obj fs) => traverse decodeTag fs
  | some _ => none

/-- One sample, `marshaler.go:358-371`. -/
def decodeSample (fl : FloatLib F) : Json → Option (PSample F)
  | .obj fs => match decodeMetric (field fs "metric"), (field fs "value").bind (disassemblePoint fl) with
    | some m, some p => some ⟨m, p⟩
    | _, _ => none
  | _ => none

/-- Decoding the `values` of a series. Library code, reached from `marshaler.go:379`. -/
def decodeValues (fl : FloatLib F) : Option Json → Option (List (PPoint F))
  | none => some []
  | some .null => some []
  | some (.arr ps) => traverse (disassemblePoint fl) ps
  | some _ => none

/-- One series, `marshaler.go:385-402`; `null` is a series without anything. -/
def decodeSeries (fl : FloatLib F) : Json → Option (PSeries F)
  | .obj fs => match decodeMetric (field fs "metric"), decodeValues fl (field fs "values") with
    | some m, some ps => some ⟨m, ps⟩
    | _, _ => none
  | .null => some ⟨[], []⟩
  | _ => none

/-- A JSON array decoded into a slice; `null` gives the nil slice.
Library code, reached from `marshaler.go:352, 379`. -/
def decodeList {α : Type} (f : Json → Option α) : Option Json → Option (List α)
  | some (.arr xs) => traverse f xs
  | some .null => some []
  | _ => none

/-- The text of a field decoded into a Go string.
Library code, reached from `marshaler.go:246, 257`. -/
def textField (fs : List (Str × Json)) (k : String) : Option Str := match field fs k with
  | none => some []
  | some .null => some []
  | some (.str s) => some s
  | some _ => none

/-- `disassembleInstantQueryResult`, `marshaler.go:274-312`. -/
def disassembleInstant (fl : FloatLib F) (data : List (Str × Json)) : Option (PResult F) :=
  match textField data "resultType" with
  | none => none
  | some ty =>
    if ty = "scalar".toList then ((field data "result").bind (disassemblePoint fl)).map .scalar
    else if ty = "vector".toList then (decodeList (decodeSample fl) (field data "result")).map .vector
    else if ty = "matrix".toList then (decodeList (decodeSeries fl) (field data "result")).map .matrix
    else none

/-- `disassembleRangeQueryResult`, `marshaler.go:314-330`. -/
def disassembleRange (fl : FloatLib F) (data : List (Str × Json)) : Option (PResult F) :=
  match textField data "resultType" with
  | none => none
  | some ty =>
    if ty = "matrix".toList then (decodeList (decodeSeries fl) (field data "result")).map .matrix
    else none

/-- The `data` object of a decoded `queryResult`, `marshaler.go:48-58`. -/
def dataFields : Json → Option (List (Str × Json))
  | .obj fs => match field fs "data" with
    | none => some []
    | some .null => some []
    | some (.obj d) => some d
    | some _ => none
  | _ => none

/-- `Unmarshal` and the decoder for instant query results, `marshaler.go:241-272` and
`432-470`.  Simplification: the types of the `status`, `error` and `errorType` fields
are not checked. -/
def unmarshalInstant (fl : FloatLib F) (j : Json) : Option (PResult F) :=
  (dataFields j).bind (disassembleInstant fl)

/-- The same for range query results. Models `marshaler.go:241-272, 314-330`. -/
def unmarshalRange (fl : FloatLib F) (j : Json) : Option (PResult F) :=
  (dataFields j).bind (disassembleRange fl)

/-! ## From the query engine to protocol messages -/

/-- A sample of the query engine: labels, time in milliseconds and value.
Library code, reached from `promql.go:94, 218`. -/
structure EngineSample (F : Type) where
  labels : List (Str × Str)
  t : Int
  v : F

/-- A series of the query engine. Library code, reached from `promql.go:94, 218`. -/
structure EngineSeries (F : Type) where
  labels : List (Str × Str)
  points : List (Int × F)

/-- The values of the query engine (`promql.Value` of the library).
Library code, reached from `promql.go:94, 218`. -/
inductive EngineValue (F : Type) where
  | scalar (t : Int) (v : F)
  | vector (xs : List (EngineSample F))
  | matrix (xs : List (EngineSeries F))
  | string (t : Int) (s : Str)

/-- `formatPromqlTime`, `promql.go:743-745`. -/
def formatTime (fl : FloatLib F) (t : Int) : Str := fl.fmt3 (fl.ofMillis t)

/-- The map built at `promql.go:125-128`, `148-151` and `238-241`. -/
def labelMap (ls : List (Str × Str)) : List (Str × Str) := ls.foldl (fun m l => mapSet m l.1 l.2) []

/-- One series, `promql.go:146-163` and `236-253`. -/
def toSeries (fl : FloatLib F) (s : EngineSeries F) : PSeries F :=
  ⟨labelMap s.labels, s.points.map fun p => ⟨formatTime fl p.1, p.2⟩⟩

/-- `toInstantQueryResult` after the error check, `promql.go:105-179`.  `none`: the
logger panics. -/
def toInstant (fl : FloatLib F) : EngineValue F → Option (PResult F)
  | .scalar t v => some (.scalar ⟨formatTime fl t, v⟩)
  | .vector xs => some (.vector (xs.map fun s => ⟨labelMap s.labels, ⟨formatTime fl s.t, s.v⟩⟩))
  | .matrix xs => some (.matrix (xs.map (toSeries fl)))
  | .string _ _ => none

/-- `toRangeQueryResult` after the error check, `promql.go:229-267`. -/
def toRange (fl : FloatLib F) : EngineValue F → Option (PResult F)
  | .matrix xs => some (.matrix (xs.map (toSeries fl)))
  | _ => none

end LogCache
