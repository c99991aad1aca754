import Verif.Model.Client
import Verif.Model.Protobuf

/-!
# Request targets as bytes

How the client library writes the path and the parameters of a request
(`/repo/pkg/client/client.go:120-131` and the other HTTP calls) and how the proxy and the
gateway read them (`req.URL.Path`, `req.URL.Query()` in
`/repo/pkg/rpc/logcache_v1/egress.pb.gw.go:54-59`, `/repo/internal/auth/cf_auth_middleware.go:170-179`).
The work is done by `net/url` (standard library, from recollection).
-/

namespace LogCache

/-- Letters, digits and `-_.~` are never escaped (`shouldEscape` of `net/url`).
Library code, reached from `client.go:110-133` (writing) and `egress.pb.gw.go:54-59`, `cf_auth_middleware.go:77-182` (reading). -/
def urlPlain (b : UInt8) : Bool :=
  let n := b.toNat
  (decide (97 ≤ n) && decide (n ≤ 122)) || (decide (65 ≤ n) && decide (n ≤ 90)) ||
    (decide (48 ≤ n) && decide (n ≤ 57)) || n == 45 || n == 95 || n == 46 || n == 126

/-- In a path `$&+,/:;=@` are not escaped either (`shouldEscape` with `encodePath`).
Library code, reached from `client.go:110-133` (writing) and `egress.pb.gw.go:54-59`, `cf_auth_middleware.go:77-182` (reading). -/
def pathPlain (b : UInt8) : Bool :=
  let n := b.toNat
  urlPlain b || n == 36 || n == 38 || n == 43 || n == 44 || n == 47 || n == 58 || n == 59 || n == 61 || n == 64

/-- A digit of `upperhex`.
Library code, reached from `client.go:110-133` (writing) and `egress.pb.gw.go:54-59`, `cf_auth_middleware.go:77-182` (reading). -/
def upperHex (n : Nat) : UInt8 := if n < 10 then UInt8.ofNat (48 + n) else UInt8.ofNat (55 + n)

/-- `ishex` and `unhex`.
Library code, reached from `client.go:110-133` (writing) and `egress.pb.gw.go:54-59`, `cf_auth_middleware.go:77-182` (reading). -/
def unHex (b : UInt8) : Option Nat :=
  let n := b.toNat
  if 48 ≤ n ∧ n ≤ 57 then some (n - 48)
  else if 97 ≤ n ∧ n ≤ 102 then some (n - 87)
  else if 65 ≤ n ∧ n ≤ 70 then some (n - 55)
  else none

/-- `%XX`.
Library code, reached from `client.go:110-133` (writing) and `egress.pb.gw.go:54-59`, `cf_auth_middleware.go:77-182` (reading). -/
def percent (b : UInt8) : List UInt8 := [37, upperHex (b.toNat / 16), upperHex (b.toNat % 16)]

/-- `escape(s, encodeQueryComponent)`: a space becomes `+`.
Library code, reached from `client.go:110-133` (writing) and `egress.pb.gw.go:54-59`, `cf_auth_middleware.go:77-182` (reading). -/
def queryEscape (s : List UInt8) : List UInt8 :=
  s.flatMap fun b => if b = 32 then [43] else if urlPlain b then [b] else percent b

/-- `escape(s, encodePath)`.
Library code, reached from `client.go:110-133` (writing) and `egress.pb.gw.go:54-59`, `cf_auth_middleware.go:77-182` (reading). -/
def pathEscape (s : List UInt8) : List UInt8 :=
  s.flatMap fun b => if pathPlain b then [b] else percent b

/-- `unescape`; `plus`: a `+` means a space (`encodeQueryComponent`). `none`: `EscapeError`.
Library code, reached from `client.go:110-133` (writing) and `egress.pb.gw.go:54-59`, `cf_auth_middleware.go:77-182` (reading). -/
def urlUnescape (plus : Bool) : List UInt8 → Option (List UInt8)
  | [] => some []
  | b :: rest =>
    if b = 37 then
      match rest with
      | h :: l :: rest' =>
        match unHex h, unHex l, urlUnescape plus rest' with
        | some x, some y, some s => some (UInt8.ofNat (16 * x + y) :: s)
        | _, _, _ => none
      | _ => none
    else (urlUnescape plus rest).map fun s => (if plus ∧ b = 43 then 32 else b) :: s

/-- `url.Values`, as bytes.
Library code, reached from `client.go:110-133` (writing) and `egress.pb.gw.go:54-59`, `cf_auth_middleware.go:77-182` (reading). -/
abbrev RawValues := List (List UInt8 × List (List UInt8))

/-- Order of byte strings in Go.
Library code, reached from `client.go:110-133` (writing) and `egress.pb.gw.go:54-59`, `cf_auth_middleware.go:77-182` (reading). -/
def bytesLe : List UInt8 → List UInt8 → Bool
  | [], _ => true
  | _ :: _, [] => false
  | a :: s, b :: t => decide (a.toNat < b.toNat) || (a == b && bytesLe s t)

/-- `sort.Strings(keys)` in `Values.Encode`, with the values of each key.
Library code, reached from `client.go:110-133` (writing) and `egress.pb.gw.go:54-59`, `cf_auth_middleware.go:77-182` (reading). -/
def insertKey (e : List UInt8 × List (List UInt8)) : RawValues → RawValues
  | [] => [e]
  | f :: rest => if bytesLe e.1 f.1 then e :: f :: rest else f :: insertKey e rest

/-- Library code, reached from `client.go:110-133` (writing) and `egress.pb.gw.go:54-59`, `cf_auth_middleware.go:77-182` (reading). -/
def sortedKeys : RawValues → RawValues
  | [] => []
  | e :: rest => insertKey e (sortedKeys rest)

/-- The pairs of a query, joined by `&`.
Library code, reached from `client.go:110-133` (writing) and `egress.pb.gw.go:54-59`, `cf_auth_middleware.go:77-182` (reading). -/
def joinAmp : List (List UInt8) → List UInt8
  | [] => []
  | [x] => x
  | x :: y :: xs => x ++ 38 :: joinAmp (y :: xs)

/-- `Values.Encode`.
Library code, reached from `client.go:110-133` (writing) and `egress.pb.gw.go:54-59`, `cf_auth_middleware.go:77-182` (reading). -/
def encodeQuery (q : RawValues) : List UInt8 :=
  joinAmp ((sortedKeys q).flatMap fun e => e.2.map fun v => queryEscape e.1 ++ 61 :: queryEscape v)

/-- Cutting at every byte that is `&` or `;` (`parseQuery` of the Go releases of that time).
Library code, reached from `client.go:110-133` (writing) and `egress.pb.gw.go:54-59`, `cf_auth_middleware.go:77-182` (reading). -/
def cutAmp : List UInt8 → List (List UInt8)
  | [] => [[]]
  | b :: rest =>
    if b = 38 ∨ b = 59 then [] :: cutAmp rest
    else match cutAmp rest with
      | x :: xs => (b :: x) :: xs
      | [] => [[b]]

/-- The part before the first byte `c`, and the part after it.
Library code, reached from `client.go:110-133` (writing) and `egress.pb.gw.go:54-59`, `cf_auth_middleware.go:77-182` (reading). -/
def cutAt (c : UInt8) : List UInt8 → List UInt8 × Option (List UInt8)
  | [] => ([], none)
  | b :: rest =>
    if b = c then ([], some rest)
    else let x := cutAt c rest; (b :: x.1, x.2)

/-- One pair of `parseQuery`; `none`: the pair is empty or malformed, and left out.
(`URL.Query()` ignores the error that `parseQuery` returns for malformed pairs.)
Library code, reached from `client.go:110-133` (writing) and `egress.pb.gw.go:54-59`, `cf_auth_middleware.go:77-182` (reading). -/
def parsePair (s : List UInt8) : Option (List UInt8 × List UInt8) :=
  if s = [] then none
  else
    let kv := cutAt 61 s
    match urlUnescape true kv.1, urlUnescape true (kv.2.getD []) with
    | some k, some v => some (k, v)
    | _, _ => none

/-- `m[key] = append(m[key], value)`.
Library code, reached from `client.go:110-133` (writing) and `egress.pb.gw.go:54-59`, `cf_auth_middleware.go:77-182` (reading). -/
def addRaw : RawValues → List UInt8 × List UInt8 → RawValues
  | [], (k, v) => [(k, [v])]
  | (k', vs) :: rest, (k, v) => if k' = k then (k', vs ++ [v]) :: rest else (k', vs) :: addRaw rest (k, v)

/-- `URL.Query()`.
Library code, reached from `client.go:110-133` (writing) and `egress.pb.gw.go:54-59`, `cf_auth_middleware.go:77-182` (reading). -/
def parseQuery (s : List UInt8) : RawValues := ((cutAmp s).filterMap parsePair).foldl addRaw []

/-- The request target the client writes: `u.Path` and `u.RawQuery` as `URL.RequestURI` prints
them.
Library code, reached from `client.go:110-133` (writing) and `egress.pb.gw.go:54-59`, `cf_auth_middleware.go:77-182` (reading). -/
def requestTarget (path : List UInt8) (q : RawValues) : List UInt8 :=
  pathEscape path ++ (if encodeQuery q = [] then [] else 63 :: encodeQuery q)

/-- `url.ParseRequestURI` of a target with a path, and `URL.Query()`; `none`: answered with 400
before any handler.
Library code, reached from `client.go:110-133` (writing) and `egress.pb.gw.go:54-59`, `cf_auth_middleware.go:77-182` (reading). -/
def readTarget (t : List UInt8) : Option (List UInt8 × RawValues) :=
  if t.head? = some 47 then
    let x := cutAt 63 t
    (urlUnescape false x.1).map fun p => (p, parseQuery (x.2.getD []))
  else none

/-- The parameters of the client library as bytes.
Library code, reached from `client.go:110-133` (writing) and `egress.pb.gw.go:54-59`, `cf_auth_middleware.go:77-182` (reading). -/
def rawValues (q : Values) : RawValues := q.map fun e => (utf8Bytes e.1, e.2.map utf8Bytes)

/-- A list of byte strings read as text.  Simplified: `none` if one of them is not UTF-8 (Go
keeps the bytes).
Library code, reached from `client.go:110-133` (writing) and `egress.pb.gw.go:54-59`, `cf_auth_middleware.go:77-182` (reading). -/
def textsOf : List (List UInt8) → Option (List Str)
  | [] => some []
  | b :: bs => match utf8Text b, textsOf bs with
    | some s, some ss => some (s :: ss)
    | _, _ => none

/-- The same for parameters.
Library code, reached from `client.go:110-133` (writing) and `egress.pb.gw.go:54-59`, `cf_auth_middleware.go:77-182` (reading). -/
def textValues : RawValues → Option Values
  | [] => some []
  | (k, vs) :: rest => match utf8Text k, textsOf vs, textValues rest with
    | some k', some vs', some r => some ((k', vs') :: r)
    | _, _, _ => none

/-- A client's request as the proxy and the gateway see it: the path and the parameters.
Library code, reached from `client.go:110-133` (writing) and `egress.pb.gw.go:54-59`, `cf_auth_middleware.go:77-182` (reading). -/
def seenRequest (path : Str) (q : Values) : Option (Str × Values) :=
  match readTarget (requestTarget (utf8Bytes path) (rawValues q)) with
  | none => none
  | some (p, r) => match utf8Text p, textValues r with
    | some p', some r' => some (p', r')
    | _, _ => none

end LogCache
