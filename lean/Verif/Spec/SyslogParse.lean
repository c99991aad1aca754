import Verif.Model.Syslog
import Verif.Spec.Times

/-!
# RFC 5424

The form of a syslog message and what its parts mean.
-/

namespace LogCache.Spec

/-- A visible ASCII character, from `!` to `~`. -/
def Visible (c : Char) : Prop := '!' ≤ c ∧ c ≤ '~'

/-- A field of at most `max` visible characters; `-` stands for no value. -/
def HeaderField (max : Nat) (s : Str) (v : Option Str) : Prop :=
  s ≠ [] ∧ s.length ≤ max ∧ (∀ c ∈ s, Visible c) ∧
    ((s = "-".toList ∧ v = none) ∨ (s ≠ "-".toList ∧ v = some s))

/-- A timestamp with at most six decimals, or `-`. -/
def TimeField (s : Str) (v : Option Int) : Prop :=
  (s = "-".toList ∧ v = none) ∨ ∃ t, DateText 6 s t ∧ v = some t

/-- A name in structured data. -/
def SdName (s : Str) : Prop :=
  s ≠ [] ∧ s.length ≤ 32 ∧ ∀ c ∈ s, Visible c ∧ c ≠ '=' ∧ c ≠ ']' ∧ c ≠ '"'

/-- A value in structured data: quotes, backslashes and brackets get a backslash. -/
def sdEscape (v : Str) : Str := v.flatMap fun c => if c = '"' ∨ c = '\\' ∨ c = ']' then ['\\', c] else [c]

/-- ` name="value"`. -/
def sdParamText (p : Str × Str) : Str := ' ' :: p.1 ++ '=' :: '"' :: sdEscape p.2 ++ ['"']

/-- `[name name="value" ...]`. -/
def sdElementText (e : Str × List (Str × Str)) : Str := '[' :: e.1 ++ e.2.flatMap sdParamText ++ [']']

/-- If a name occurs again, the last value counts. -/
def lastValues : List (Str × Str) → List (Str × Str)
  | [] => []
  | p :: ps => if p.1 ∈ ps.map (·.1) then lastValues ps else p :: lastValues ps

/-- Structured data: `-`, or elements with different names. -/
def SdField (s : Str) (v : Option (List (Str × List (Str × Str)))) : Prop :=
  (s = "-".toList ∧ v = none) ∨
  ∃ es : List (Str × List (Str × Str)), es ≠ [] ∧ s = es.flatMap sdElementText ∧
    (∀ e ∈ es, SdName e.1 ∧ ∀ p ∈ e.2, SdName p.1) ∧ (es.map (·.1)).Nodup ∧
    v = some (es.map fun e => (e.1, lastValues e.2))

/-- The text: nothing, or a space and any text; empty text is none. -/
def TextField (s : Str) (v : Option Str) : Prop :=
  ((s = [] ∨ s = " ".toList) ∧ v = none) ∨ ∃ t, t ≠ [] ∧ s = ' ' :: t ∧ v = some t

/-- `s` is a message `<priority>version time host app process id [data] text`. -/
def Rfc5424 (s : Str) (m : SyslogMsg) : Prop :=
  ∃ (pri version : Nat) (time host app pid id sd text : Str) (hv iv : Option Str),
    s = '<' :: dec pri ++ '>' :: dec version ++ ' ' :: time ++ ' ' :: host ++ ' ' :: app ++ ' ' :: pid ++ ' ' :: id ++
      ' ' :: sd ++ text ∧
    pri ≤ 191 ∧ 1 ≤ version ∧ version ≤ 999 ∧
    TimeField time m.timestamp ∧ HeaderField 255 host hv ∧ HeaderField 48 app m.appname ∧
    HeaderField 128 pid m.procId ∧ HeaderField 32 id iv ∧ SdField sd m.structuredData ∧
    TextField text m.message ∧ m.priority = some pri

end LogCache.Spec
