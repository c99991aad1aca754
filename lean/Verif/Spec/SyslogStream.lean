import Verif.Spec.SyslogParse
import Verif.Spec.Syslog

/-! # Syslog messages in a stream (RFC 6587, octet counting) -/

namespace LogCache.Spec

/-- Text as octets, in UTF-8. -/
def octets (s : Str) : List UInt8 := s.flatMap String.utf8EncodeChar

/-- A message in a stream: its length, a space, and the message. -/
def syslogFrame (m : List UInt8) : List UInt8 := octets (dec m.length) ++ octets " ".toList ++ m

/-- A log line of an application instance; `path` are the parts of the process id, such as
`APP`, `PROC`, `WEB`, `3`. -/
structure AppLog where
  time : Str
  host : Str
  app : Str
  path : List Str
  text : Str
  stderr : Bool

/-- The process id, such as `[APP/PROC/WEB/3]`. -/
def AppLog.pid (l : AppLog) : Str := '[' :: ("/".toList.intercalate l.path) ++ [']']

/-- The line as the platform sends it. -/
def AppLog.line (l : AppLog) : Str :=
  (if l.stderr then "<11>1 ".toList else "<14>1 ".toList) ++ l.time ++ ' ' :: l.host ++ ' ' :: l.app ++ ' ' :: l.pid ++
    " - - ".toList ++ l.text

/-- The line keeps the rules of RFC 5424 and is not too long; its time fits in 64 bits. -/
def AppLog.Valid (max : Nat) (l : AppLog) (t : Int) (kind inst : Str) : Prop :=
  DateText 6 l.time t ∧ -2 ^ 63 ≤ t ∧ t < 2 ^ 63 ∧
  HeaderField 255 l.host (some l.host) ∧ HeaderField 48 l.app (some l.app) ∧ HeaderField 128 l.pid (some l.pid) ∧
  l.path.head? = some kind ∧ l.path.getLast? = some inst ∧ (∀ w ∈ l.path, '/' ∉ w ∧ '[' ∉ w ∧ ']' ∉ w) ∧
  l.text ≠ [] ∧ (octets l.line).length ≤ max

/-- The envelope carries the log line: source, instance, time, kind of process, and the text
without white space around it. -/
def AppLog.CarriedBy (l : AppLog) (t : Int) (kind inst : Str) (e : Envelope) : Prop :=
  e.sourceId = l.app ∧ e.timestamp = t ∧ e.instanceId = inst ∧ e.tags = [("source_type".toList, kind)] ∧
    ∃ text, Trimmed l.text text ∧ e.message = some (.log text l.stderr)

end LogCache.Spec
