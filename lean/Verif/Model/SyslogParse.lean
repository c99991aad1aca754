import Verif.Model.Times

/-!
# Reading one syslog message (RFC 5424)

`/repo/internal/syslog/server.go:102-109` gives the octets of a connection to
`octetcounting.NewParser()` of `github.com/influxdata/go-syslog`, which reads each frame
with its RFC 5424 parser.  That library is not part of `/repo`; this is its parser, from
memory, for the strict mode the server uses: any error rejects the message.
-/

namespace LogCache

/-- `printusascii`: visible ASCII characters. Library code, reached from `server.go:106-108`. -/
def visibleAscii (c : Char) : Bool := 33 ≤ c.toNat && c.toNat ≤ 126

/-- The characters of names in structured data. Library code, reached from `server.go:106-108`. -/
def sdNameChar (c : Char) : Bool := visibleAscii c && c != '=' && c != ']' && c != '"'

/-- A number without leading zeros between `lo` and `hi`.
Library code, reached from `server.go:106-108`. -/
def readPlainNum (lo hi : Nat) (s : Str) : Option (Nat × Str) :=
  let ds := s.takeWhile isDecimal
  match parseDigits ds with
  | none => none
  | some n =>
    if (ds.length = 1 ∨ ds.head? ≠ some '0') ∧ lo ≤ n ∧ n ≤ hi then some (n, s.dropWhile isDecimal) else none

/-- A header field and the space after it; `-` is no value.
Library code, reached from `server.go:106-108`. -/
def readField (max : Nat) (s : Str) : Option (Option Str × Str) :=
  let f := s.takeWhile visibleAscii
  if f = [] ∨ max < f.length then none
  else (readChar ' ' (s.dropWhile visibleAscii)).map fun r => (if f = ['-'] then none else some f, r)

/-- The timestamp, at most six decimals, and the space after it.
Library code, reached from `server.go:106-108`. -/
def readTimestamp (s : Str) : Option (Option Int × Str) :=
  match readField s.length s with
  | none => none
  | some (none, r) => some (none, r)
  | some (some f, r) => (parseRfc3339 6 f).map fun t => (some t, r)

/-- A name in structured data. Library code, reached from `server.go:106-108`. -/
def readSdName (s : Str) : Option (Str × Str) :=
  let f := s.takeWhile sdNameChar
  if f = [] ∨ 32 < f.length then none else some (f, s.dropWhile sdNameChar)

/-- The value of a parameter up to the closing quote, without the backslashes.
Library code, reached from `server.go:106-108`. -/
def readSdValue : Str → Option (Str × Str)
  | [] => none
  | '"' :: r => some ([], r)
  | ']' :: _ => none
  | ['\\'] => none
  | '\\' :: c :: r =>
    if c = '"' ∨ c = '\\' ∨ c = ']' then (readSdValue r).map fun x => (c :: x.1, x.2) else none
  | c :: r => (readSdValue r).map fun x => (c :: x.1, x.2)

/-- `name="value"`. Library code, reached from `server.go:106-108`. -/
def readSdParam (s : Str) : Option ((Str × Str) × Str) := do
  let (k, s) ← readSdName s
  let s ← readChar '=' s
  let s ← readChar '"' s
  let (v, s) ← readSdValue s
  some ((k, v), s)

/-- Assignment to a Go map. Library code, reached from `server.go:106-108`. -/
def setParam (ps : List (Str × Str)) (p : Str × Str) : List (Str × Str) := ps.filter (·.1 ≠ p.1) ++ [p]

/-- The parameters of an element and the closing bracket.  `fuel`: length of the text.
Library code, reached from `server.go:106-108`. -/
def readSdParams : Nat → List (Str × Str) → Str → Option (List (Str × Str) × Str)
  | _, ps, ']' :: s => some (ps, s)
  | fuel + 1, ps, ' ' :: s => match readSdParam s with
    | none => none
    | some (p, s) => readSdParams fuel (setParam ps p) s
  | _, _, _ => none

/-- An element. Library code, reached from `server.go:106-108`. -/
def readSdElement (s : Str) : Option ((Str × List (Str × Str)) × Str) := do
  let s ← readChar '[' s
  let (id, s) ← readSdName s
  let (ps, s) ← readSdParams s.length [] s
  some ((id, ps), s)

/-- Elements up to something else; names must be different.  `fuel`: length of the text.
Library code, reached from `server.go:106-108`. -/
def readSdElements : Nat → List (Str × List (Str × Str)) → Str → Option (List (Str × List (Str × Str)) × Str)
  | 0, _, _ => none
  | fuel + 1, es, s => match readSdElement s with
    | none => none
    | some (e, s) =>
      if e.1 ∈ es.map (·.1) then none
      else if s.head? = some '[' then readSdElements fuel (es ++ [e]) s
      else some (es ++ [e], s)

/-- `-` or elements. Library code, reached from `server.go:106-108`. -/
def readSd (s : Str) : Option (Option (List (Str × List (Str × Str))) × Str) :=
  match s with
  | '-' :: r => some (none, r)
  | _ => (readSdElements s.length [] s).map fun x => (some x.1, x.2)

/-- The text after the header; empty text is no text.
Library code, reached from `server.go:106-108`. -/
def readText : Str → Option (Option Str)
  | [] => some none
  | ' ' :: r => some (if r = [] then none else some r)
  | _ => none

/-- The RFC 5424 parser of the library (from memory).
Library code, reached from `server.go:106-108`. -/
def parseRfc5424 (s : Str) : Option SyslogMsg := do
  let s ← readChar '<' s
  let (pri, s) ← readPlainNum 0 191 s
  let s ← readChar '>' s
  let (_, s) ← readPlainNum 1 999 s
  let s ← readChar ' ' s
  let (ts, s) ← readTimestamp s
  let (_, s) ← readField 255 s
  let (app, s) ← readField 48 s
  let (pid, s) ← readField 128 s
  let (_, s) ← readField 32 s
  let (sd, s) ← readSd s
  let text ← readText s
  some { procId := pid, appname := app, timestamp := ts, structuredData := sd, message := text, priority := some pri }

end LogCache
