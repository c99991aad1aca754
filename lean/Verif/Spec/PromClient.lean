import Verif.Model.PromClient
import Verif.Spec.Marshal

/-! # What a user of the client library asks for with a query -/

namespace LogCache.Spec
variable {F : Type}

/-- The last value a list of options gives, if any. -/
def lastGiven {α β : Type} (f : α → Option β) (l : List α) : Option β := l.reverse.findSome? f

/-- The time, start, end and step an option gives. -/
def timeOf : PromOpt → Option Int | .time t => some t | _ => none
def startOf : PromOpt → Option Int | .start t => some t | _ => none
def stopOf : PromOpt → Option Int | .stop t => some t | _ => none
def stepOf : PromOpt → Option Str | .step s => some s | _ => none

/-- A time as the library writes it; no text if there is none. -/
def timeText : Option Int → Str
  | none => []
  | some t => formatClientTime t

/-- The instant query that is meant: the last time given counts. -/
def askedInstant (query : Str) (opts : List PromOpt) : InstantReq :=
  { query := query, time := timeText (lastGiven timeOf opts) }

/-- The range query that is meant. -/
def askedRange (query : Str) (opts : List PromOpt) : RangeReq :=
  { query := query
    start := timeText (lastGiven startOf opts)
    stop := timeText (lastGiven stopOf opts)
    step := (lastGiven stepOf opts).getD [] }

/-- The time that an instant query is evaluated at: the last one the options give, which
must be a whole second, or the second in which the node handles the query. -/
def EvaluatedAt (opts : List PromOpt) (now t : Int) : Prop :=
  t % 1000000000 = 0 ∧
  ((lastGiven timeOf opts = some t ∧ 1000000000 ≤ t ∧ t < (2 ^ 32 - 1) * 1000000000) ∨
    (lastGiven timeOf opts = none ∧ t ≤ now ∧ now < t + 1000000000 ∧ 1000000000 ≤ t ∧ t < 2 ^ 63))

/-- The times of a range query: whole seconds, the last ones the options give. -/
def RangeGiven (opts : List PromOpt) (a b : Nat) : Prop :=
  lastGiven startOf opts = some (a * 1000000000 : Nat) ∧ lastGiven stopOf opts = some (b * 1000000000 : Nat) ∧
    1 ≤ b ∧ a < 2 ^ 32 - 1 ∧ b < 2 ^ 32 - 1

/-- Codes other than OK are not answered with the HTTP status 200. -/
def ErrorStatus (st : Nat → Nat) : Prop := ∀ c, c ≠ 0 → st c ≠ 200

/-- The server's answer is a result or a proper error. -/
def ProperAns {α : Type} : GrpcAns α → Prop
  | .ok _ => True
  | .error c _ => c ≠ 0

/-- The name of a kind of result. -/
def kindName : PResult F → Str
  | .scalar _ => "scalar".toList
  | .vector _ => "vector".toList
  | .matrix _ => "matrix".toList

/-- A raw result says that the query succeeded and holds the result `r`. -/
structure RawHolds (fl : FloatLib F) (x : RawResult) (r : PResult F) : Prop where
  status : x.status = "success".toList
  kind : x.resultType = kindName r
  data : ∃ v, x.result = some v ∧
    disassembleInstant fl [("resultType".toList, .str x.resultType), ("result".toList, v)] = some r
  noError : x.errorType = [] ∧ x.error = []

/-- A raw result says that the query failed for the reason `msg`. -/
structure RawFailed (x : RawResult) (msg : Str) : Prop where
  status : x.status = "error".toList
  noData : x.resultType = [] ∧ x.result = none
  error : x.errorType = "internal".toList ∧ x.error = msg

end LogCache.Spec
