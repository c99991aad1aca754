import Verif.Model.Protobuf
import Verif.Spec.SyslogStream
import Verif.Spec.HttpWire

/-! # Metrics sent over syslog -/

namespace LogCache.Spec

/-- What a metric says.  The value of a gauge is the text of a number. -/
inductive Metric where
  | counter (name : Str) (delta total : Nat)
  | gauge (name unit value : Str)
  | event (title body : Str)
  | timer (name : Str) (start stop : Int)

/-- The text of a number in the range of float64, or of infinity or not-a-number. -/
def FloatText (w : Str) : Prop :=
  (∃ neg q, SignedText w neg q ∧ q < f64Limit) ∨ w = "NaN".toList ∨ w = "+Inf".toList ∨ w = "-Inf".toList

/-- The element `[id params]` says so: the name of the kind, followed by anything, and a
parameter for each part, in any order and among others. -/
def Metric.InElement (id : Str) (params : List (Str × Str)) : Metric → Prop
  | .counter name delta total => "counter".toList <+: id ∧ delta < 2 ^ 64 ∧ total < 2 ^ 64 ∧
      ("name".toList, name) ∈ params ∧ ("delta".toList, dec delta) ∈ params ∧ ("total".toList, dec total) ∈ params
  | .gauge name unit value => "gauge".toList <+: id ∧ FloatText value ∧
      ("name".toList, name) ∈ params ∧ ("unit".toList, unit) ∈ params ∧ ("value".toList, value) ∈ params
  | .event title body => "event".toList <+: id ∧ ("title".toList, title) ∈ params ∧ ("body".toList, body) ∈ params
  | .timer name start stop => "timer".toList <+: id ∧ -2 ^ 63 ≤ start ∧ start < 2 ^ 63 ∧ -2 ^ 63 ≤ stop ∧ stop < 2 ^ 63 ∧
      ("name".toList, name) ∈ params ∧ ("start".toList, decInt start) ∈ params ∧ ("stop".toList, decInt stop) ∈ params

/-- The content of an envelope is the metric; the value of a gauge is the float64 nearest to
the text. -/
def Metric.Stored (m : Message) : Metric → Prop
  | .counter name delta total => m = .counter name delta total
  | .gauge name unit value => ∃ x, Binary64 x ∧ ValueText x value ∧ m = .gauge [(name, ⟨unit, f64Bits x⟩)]
  | .event title body => m = .event title body
  | .timer name start stop => m = .timer name start stop

/-- A metric of an application instance, and the parts of the line that carries it. -/
structure AppMetric where
  metric : Metric
  time : Str
  host : Str
  app : Str
  path : List Str
  id : Str
  params : List (Str × Str)
  text : Str

/-- The process id, such as `[APP/PROC/WEB/3]`. -/
def AppMetric.pid (l : AppMetric) : Str := '[' :: ("/".toList.intercalate l.path) ++ [']']

/-- The line as the platform sends it. -/
def AppMetric.line (l : AppMetric) : Str :=
  "<14>1 ".toList ++ l.time ++ ' ' :: l.host ++ ' ' :: l.app ++ ' ' :: l.pid ++ " - ".toList ++
    sdElementText (l.id, l.params) ++ l.text

/-- The line keeps the rules of RFC 5424, says what the metric says, and is not too long; its
time fits in 64 bits. -/
def AppMetric.Valid (max : Nat) (l : AppMetric) (t : Int) (inst : Str) : Prop :=
  DateText 6 l.time t ∧ -2 ^ 63 ≤ t ∧ t < 2 ^ 63 ∧
  HeaderField 255 l.host (some l.host) ∧ HeaderField 48 l.app (some l.app) ∧ HeaderField 128 l.pid (some l.pid) ∧
  l.path.getLast? = some inst ∧ (∀ w ∈ l.path, '/' ∉ w ∧ '[' ∉ w ∧ ']' ∉ w) ∧
  SdName l.id ∧ (∀ p ∈ l.params, SdName p.1) ∧ (l.params.map (·.1)).Nodup ∧ l.metric.InElement l.id l.params ∧
  (∃ v, TextField l.text v) ∧ (octets l.line).length ≤ max

/-- The envelope carries the metric: source, instance, time and content. -/
def AppMetric.CarriedBy (l : AppMetric) (t : Int) (inst : Str) (e : Envelope) : Prop :=
  e.sourceId = l.app ∧ e.timestamp = t ∧ e.instanceId = inst ∧ e.tags = [] ∧ e.deprecatedTags = [] ∧
    ∃ m, l.metric.Stored m ∧ e.message = some m

/-- What an application instance sends. -/
inductive AppMessage where
  | log (l : AppLog) (kind : Str)
  | metric (l : AppMetric)

/-- The line of a message. -/
def AppMessage.line : AppMessage → Str
  | .log l _ => l.line
  | .metric l => l.line

/-- The line is as it should be, with this time and instance. -/
def AppMessage.Valid (max : Nat) (t : Int) (inst : Str) : AppMessage → Prop
  | .log l kind => l.Valid max t kind inst
  | .metric l => l.Valid max t inst

/-- The envelope carries the message. -/
def AppMessage.CarriedBy (t : Int) (inst : Str) (e : Envelope) : AppMessage → Prop
  | .log l kind => l.CarriedBy t kind inst e
  | .metric l => l.CarriedBy t inst e

end LogCache.Spec
