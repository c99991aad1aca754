import Verif.Model.Base
/-!
# Specification of a read, on the plain list of stored envelopes
-/
namespace LogCache.Spec

/-- Start is inclusive, end is exclusive. -/
def inWindow (start stop : Int) (e : Envelope) : Bool :=
  decide (start ≤ e.timestamp) && decide (e.timestamp < stop)

/-- The type of an envelope's message. -/
def kind (e : Envelope) : Option EType :=
  e.message.map fun
    | .log .. => .log
    | .counter .. => .counter
    | .gauge .. => .gauge
    | .timer .. => .timer
    | .event .. => .event

/-- Does the envelope have one of the requested types?  `none`: no restriction;
`ANY` matches everything. -/
def typeOk (types : Option (List EType)) (e : Envelope) : Bool :=
  match types with
  | none => true
  | some ts => decide (EType.any ∈ ts) || decide (∃ t ∈ ts, kind e = some t)

/-- The names a name filter looks at. -/
def names (e : Envelope) : List Str :=
  match e.message with
  | some (.counter n _ _) => [n]
  | some (.timer n _ _) => [n]
  | some (.gauge ms) => ms.map Prod.fst
  | _ => []

/-- Keep only the metrics of a gauge whose name matches. -/
def restrict (m : Str → Bool) (e : Envelope) : Envelope :=
  match e.message with
  | some (.gauge ms) => { e with message := some (.gauge (ms.filter fun p => m p.1)) }
  | _ => e

/-- Without a name filter the envelope itself; with one, nothing if no name
matches, otherwise the envelope with non-matching gauge metrics removed. -/
def project (nf : Option (Str → Bool)) (e : Envelope) : Option Envelope :=
  match nf with
  | none => some e
  | some m => if (names e).any m then some (restrict m e) else none

/-- Everything a read may return, in the given order. -/
def answer (start stop : Int) (types : Option (List EType)) (nf : Option (Str → Bool))
    (stored : List Envelope) : List Envelope :=
  ((stored.filter (inWindow start stop)).filterMap (project nf)).filter (typeOk types)

end LogCache.Spec
