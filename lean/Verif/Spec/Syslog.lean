import Verif.Model.Syslog
import Verif.Spec.Num
import Verif.Spec.WhiteSpace

/-!
# What a syslog message means

A structured-data element whose name begins with the name of an envelope kind
carries an envelope of that kind; a message without structured data is a log line.
-/

namespace LogCache.Spec

/-- The value of an attribute; missing ones read as empty. -/
def attr (ps : List (Str × Str)) (k : String) : Str := (ps.lookup k.toList).getD []

/-- The envelope message a structured-data element stands for.  `pf` reads
floating point numbers. -/
inductive ElementMeans (pf : Str → Option Int) : Str → List (Str × Str) → Message → Prop where
  | counter {id ps d t} (hid : "counter".toList <+: id) (hd : IsUint64 (attr ps "delta") d)
      (ht : IsUint64 (attr ps "total") t) : ElementMeans pf id ps (.counter (attr ps "name") d t)
  | gauge {id ps u v} (hid : "gauge".toList <+: id) (hu : ps.lookup "unit".toList = some u)
      (hv : pf (attr ps "value") = some v) : ElementMeans pf id ps (.gauge [(attr ps "name", ⟨u, v⟩)])
  | event {id ps} (hid : "event".toList <+: id) :
      ElementMeans pf id ps (.event (attr ps "title") (attr ps "body"))
  | timer {id ps a b} (hid : "timer".toList <+: id) (ha : IsInt64 (attr ps "start") a)
      (hb : IsInt64 (attr ps "stop") b) : ElementMeans pf id ps (.timer (attr ps "name") a b)

/-- `t` is `s` without leading and trailing white space. -/
def Trimmed (s t : Str) : Prop := ∃ a b, s = a ++ t ++ b ∧ (∀ c ∈ a ++ b, whiteSpace c = true) ∧
  (∀ c, t.head? = some c → whiteSpace c = false) ∧ (∀ c, t.getLast? = some c → whiteSpace c = false)

/-- A message that carries every header field. -/
def Complete (m : SyslogMsg) (pid app : Str) (ts : Int) : Prop :=
  m.procId = some pid ∧ m.appname = some app ∧ m.timestamp = some ts

end LogCache.Spec
