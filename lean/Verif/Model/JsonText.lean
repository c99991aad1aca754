import Verif.Model.Marshal
import Verif.Model.Client

/-!
# JSON as text: the parts of `encoding/json` (standard library) the code uses

`json.Marshal` and `json.Encoder` (`/repo/pkg/marshaler/marshaler.go:31, 38, 224, 231`,
`/repo/internal/gateway/gateway.go:199-219`), `json.Unmarshal` and `json.Decoder`
(`marshaler.go:246-268, 441-462`, `/repo/pkg/client/client.go:340, 376, 561, 694`).
Text is a list of characters, so that it is valid UTF-8.
-/

namespace LogCache

/-! ## Writing -/

/-- A hexadecimal digit, in lower case.
Library code, reached from `marshaler.go:31, 38, 118, 246, 257, 434` and `client.go:340, 376, 561, 694`. -/
def hexDigit (n : Nat) : Char := if n < 10 then Char.ofNat (48 + n) else Char.ofNat (87 + n)

/-- A character in a JSON string, as `encodeState.string` writes it with HTML escaping:
quotes, backslashes, control characters, `<`, `>`, `&`, U+2028 and U+2029 are escaped.
Library code, reached from `marshaler.go:31, 38, 118, 246, 257, 434` and `client.go:340, 376, 561, 694`. -/
def jsonChar (c : Char) : Str :=
  if c = '"' ∨ c = '\\' then ['\\', c]
  else if c = '\n' then ['\\', 'n']
  else if c = '\r' then ['\\', 'r']
  else if c = '\t' then ['\\', 't']
  else if c.toNat < 32 ∨ c = '<' ∨ c = '>' ∨ c = '&' then
    ['\\', 'u', '0', '0', hexDigit (c.toNat / 16), hexDigit (c.toNat % 16)]
  else if c.toNat = 0x2028 ∨ c.toNat = 0x2029 then ['\\', 'u', '2', '0', '2', hexDigit (c.toNat % 16)]
  else [c]

/-- A JSON string without the opening quote.
Library code, reached from `marshaler.go:31, 38, 118, 246, 257, 434` and `client.go:340, 376, 561, 694`. -/
def jsonTail : Str → Str
  | [] => ['"']
  | c :: s => jsonChar c ++ jsonTail s

mutual
/-- The text of a JSON tree.
Library code, reached from `marshaler.go:31, 38, 118, 246, 257, 434` and `client.go:340, 376, 561, 694`. -/
def Json.text : Json → Str
  | .null => "null".toList
  | .bool b => if b then "true".toList else "false".toList
  | .num t => t
  | .str s => '"' :: jsonTail s
  | .arr [] => "[]".toList
  | .arr (x :: xs) => '[' :: (x.text ++ textElems xs)
  | .obj [] => "{}".toList
  | .obj ((k, v) :: fs) => '{' :: '"' :: (jsonTail k ++ ':' :: (v.text ++ textMembers fs))
/-- The elements of an array after the first.
Library code, reached from `marshaler.go:31, 38, 118, 246, 257, 434` and `client.go:340, 376, 561, 694`. -/
def textElems : List Json → Str
  | [] => [']']
  | x :: xs => ',' :: (x.text ++ textElems xs)
/-- The fields of an object after the first.
Library code, reached from `marshaler.go:31, 38, 118, 246, 257, 434` and `client.go:340, 376, 561, 694`. -/
def textMembers : List (Str × Json) → Str
  | [] => ['}']
  | (k, v) :: fs => ',' :: '"' :: (jsonTail k ++ ':' :: (v.text ++ textMembers fs))
end

/-! ## Reading -/

/-- `isSpace`.
Library code, reached from `marshaler.go:31, 38, 118, 246, 257, 434` and `client.go:340, 376, 561, 694`. -/
def jsonSpace (c : Char) : Bool := c = ' ' || c = '\t' || c = '\r' || c = '\n'

/-- Skipping white space.
Library code, reached from `marshaler.go:31, 38, 118, 246, 257, 434` and `client.go:340, 376, 561, 694`. -/
def skipSpace (s : Str) : Str := s.dropWhile jsonSpace

/-- A hexadecimal digit of either case.
Library code, reached from `marshaler.go:31, 38, 118, 246, 257, 434` and `client.go:340, 376, 561, 694`. -/
def hexVal (c : Char) : Option Nat :=
  if '0' ≤ c ∧ c ≤ '9' then some (c.toNat - 48)
  else if 'a' ≤ c ∧ c ≤ 'f' then some (c.toNat - 87)
  else if 'A' ≤ c ∧ c ≤ 'F' then some (c.toNat - 55)
  else none

/-- `getu4`: four hexadecimal digits.
Library code, reached from `marshaler.go:31, 38, 118, 246, 257, 434` and `client.go:340, 376, 561, 694`. -/
def hex4 (a b c d : Char) : Option Nat :=
  match hexVal a, hexVal b, hexVal c, hexVal d with
  | some a, some b, some c, some d => some (((a * 16 + b) * 16 + c) * 16 + d)
  | _, _, _, _ => none

/-- What a string literal consists of: characters, and 16 bit units written `\uXXXX`.
Library code, reached from `marshaler.go:31, 38, 118, 246, 257, 434` and `client.go:340, 376, 561, 694`. -/
inductive StrUnit where
  | lit (c : Char)
  | code (n : Nat)

/-- The escapes of one character.
Library code, reached from `marshaler.go:31, 38, 118, 246, 257, 434` and `client.go:340, 376, 561, 694`. -/
def simpleEscape (c : Char) : Option Char :=
  if c = '"' ∨ c = '\\' ∨ c = '/' then some c
  else if c = 'b' then some (Char.ofNat 8)
  else if c = 'f' then some (Char.ofNat 12)
  else if c = 'n' then some '\n'
  else if c = 'r' then some '\r'
  else if c = 't' then some '\t'
  else none

/-- Reading a string literal after its opening quote, up to and with the closing one.
Library code, reached from `marshaler.go:31, 38, 118, 246, 257, 434` and `client.go:340, 376, 561, 694`. -/
def readUnits : Str → Option (List StrUnit × Str)
  | [] => none
  | c :: r =>
    if c = '"' then some ([], r)
    else if c = '\\' then
      match r with
      | [] => none
      | e :: r1 =>
        if e = 'u' then
          match r1 with
          | h1 :: h2 :: h3 :: h4 :: r2 =>
            match hex4 h1 h2 h3 h4 with
            | none => none
            | some n => (readUnits r2).map fun p => (.code n :: p.1, p.2)
          | _ => none
        else match simpleEscape e with
          | none => none
          | some x => (readUnits r1).map fun p => (.lit x :: p.1, p.2)
    else if c.toNat < 32 then none
    else (readUnits r).map fun p => (.lit c :: p.1, p.2)

/-- The second of two surrogates.
Library code, reached from `marshaler.go:31, 38, 118, 246, 257, 434` and `client.go:340, 376, 561, 694`. -/
def lowUnit : List StrUnit → Option Nat
  | .code m :: _ => if 0xDC00 ≤ m ∧ m < 0xE000 then some m else none
  | _ => none

/-- The characters that are meant: two surrogates in order are one character, a lone one is
the replacement character (`unquoteBytes`, `utf16.DecodeRune`).  The second of two
surrogates alone would be one character, which `tail` removes.
Library code, reached from `marshaler.go:31, 38, 118, 246, 257, 434` and `client.go:340, 376, 561, 694`. -/
def joinUnits : List StrUnit → Str
  | [] => []
  | .lit c :: us => c :: joinUnits us
  | .code n :: us =>
    if 0xD800 ≤ n ∧ n < 0xDC00 then
      match lowUnit us with
      | some m => Char.ofNat (0x10000 + (n - 0xD800) * 1024 + (m - 0xDC00)) :: (joinUnits us).tail
      | none => Char.ofNat 0xFFFD :: joinUnits us
    else if 0xDC00 ≤ n ∧ n < 0xE000 then Char.ofNat 0xFFFD :: joinUnits us
    else Char.ofNat n :: joinUnits us

/-- A string literal after its opening quote.
Library code, reached from `marshaler.go:31, 38, 118, 246, 257, 434` and `client.go:340, 376, 561, 694`. -/
def readJsonStr (s : Str) : Option (Str × Str) := (readUnits s).map fun p => (joinUnits p.1, p.2)

/-- A fixed word.
Library code, reached from `marshaler.go:31, 38, 118, 246, 257, 434` and `client.go:340, 376, 561, 694`. -/
def readWord : Str → Str → Option Str
  | [], s => some s
  | _ :: _, [] => none
  | w :: ws, c :: s => if c = w then readWord ws s else none

mutual
/-- Reading a value; the number bounds the depth and the width.
Library code, reached from `marshaler.go:31, 38, 118, 246, 257, 434` and `client.go:340, 376, 561, 694`. -/
def readValue : Nat → Str → Option (Json × Str)
  | 0, _ => none
  | n + 1, s =>
    match skipSpace s with
    | [] => none
    | c :: r =>
      if c = '"' then (readJsonStr r).map fun p => (.str p.1, p.2)
      else if c = '[' then
        match skipSpace r with
        | [] => none
        | d :: r1 =>
          if d = ']' then some (.arr [], r1)
          else match readValue n (d :: r1) with
            | none => none
            | some (x, r2) => (readElems n r2).map fun p => (.arr (x :: p.1), p.2)
      else if c = '{' then
        match skipSpace r with
        | [] => none
        | d :: r1 =>
          if d = '}' then some (.obj [], r1)
          else match readMember n (d :: r1) with
            | none => none
            | some (f, r2) => (readMembers n r2).map fun p => (.obj (f :: p.1), p.2)
      else if c = 'n' then (readWord "ull".toList r).map fun r => (.null, r)
      else if c = 't' then (readWord "rue".toList r).map fun r => (.bool true, r)
      else if c = 'f' then (readWord "alse".toList r).map fun r => (.bool false, r)
      else (readJsonNum (c :: r)).map fun p => (.num p.1, p.2)
/-- The elements of an array after one.
Library code, reached from `marshaler.go:31, 38, 118, 246, 257, 434` and `client.go:340, 376, 561, 694`. -/
def readElems : Nat → Str → Option (List Json × Str)
  | 0, _ => none
  | n + 1, s =>
    match skipSpace s with
    | [] => none
    | c :: r =>
      if c = ']' then some ([], r)
      else if c = ',' then
        match readValue n r with
        | none => none
        | some (x, r1) => (readElems n r1).map fun p => (x :: p.1, p.2)
      else none
/-- One field of an object.
Library code, reached from `marshaler.go:31, 38, 118, 246, 257, 434` and `client.go:340, 376, 561, 694`. -/
def readMember : Nat → Str → Option ((Str × Json) × Str)
  | 0, _ => none
  | n + 1, s =>
    match skipSpace s with
    | [] => none
    | c :: r =>
      if c = '"' then
        match readJsonStr r with
        | none => none
        | some (k, r1) =>
          match skipSpace r1 with
          | [] => none
          | d :: r2 => if d = ':' then (readValue n r2).map fun p => ((k, p.1), p.2) else none
      else none
/-- The fields of an object after one.
Library code, reached from `marshaler.go:31, 38, 118, 246, 257, 434` and `client.go:340, 376, 561, 694`. -/
def readMembers : Nat → Str → Option (List (Str × Json) × Str)
  | 0, _ => none
  | n + 1, s =>
    match skipSpace s with
    | [] => none
    | c :: r =>
      if c = '}' then some ([], r)
      else if c = ',' then
        match readMember n r with
        | none => none
        | some (f, r1) => (readMembers n r1).map fun p => (f :: p.1, p.2)
      else none
end

/-- `json.Decoder.Decode`: the first value of a text; what follows is left.
Library code, reached from `marshaler.go:31, 38, 118, 246, 257, 434` and `client.go:340, 376, 561, 694`. -/
def decodeJson (s : Str) : Option Json := (readValue (s.length + 1) s).map Prod.fst

/-- `json.Unmarshal`: one value and nothing else but white space.
Library code, reached from `marshaler.go:31, 38, 118, 246, 257, 434` and `client.go:340, 376, 561, 694`. -/
def unmarshalJson (s : Str) : Option Json :=
  match readValue (s.length + 1) s with
  | none => none
  | some (j, r) => if (skipSpace r).isEmpty then some j else none

/-! ## Query results -/

/-- `PromqlMarshaler.Marshal` and its encoder (`marshaler.go:23-46, 213-237`): the text ends
with a newline. -/
def Json.line (j : Json) : Str := j.text ++ ['\n']

variable {F : Type}

/-- A query result as text. Models `marshaler.go:23-46`. -/
def marshalText (fl : FloatLib F) (r : Option (PResult F)) : Option Str := (marshalResult fl r).map Json.line

/-- `PromqlMarshaler.NewDecoder` (`marshaler.go:432-470`); `un` is the kind of query. -/
def decodeText (un : Json → Option (PResult F)) (t : Str) : Option (PResult F) := (decodeJson t).bind un

/-- `PromqlMarshaler.Unmarshal` (`marshaler.go:241-272`). -/
def unmarshalText (un : Json → Option (PResult F)) (t : Str) : Option (PResult F) := (unmarshalJson t).bind un

/-! ## The information endpoint -/

/-- `handleInfoEndpoint` (`/repo/internal/gateway/gateway.go:166-168`): the version is put
between quotes as it is. -/
def infoText (version : Str) (uptime : Int) : Str :=
  "{\"version\":\"".toList ++ version ++ "\",\"vm_uptime\":\"".toList ++ formatInt uptime ++ "\"}\n".toList

/-- Decoding into a struct with one string (`/repo/pkg/client/client.go:335-341,
371-377`). -/
def decodeField (k : String) (t : Str) : Option Str :=
  (decodeJson t).bind fun j => match j with
    | .obj fs => textField fs k
    | .null => some []
    | _ => none

/-- The answer of the gateway to `GET /api/v1/info` as the client library reads it, for
the field `k` (client.go:321-341, 358-377). -/
def infoAns (version : Str) (uptime : Int) (k : String) : HttpAns Str := .resp 200 (decodeField k (infoText version uptime))

end LogCache
