import Verif.Model.Lifecycle

/-! # What starting and stopping a server means, on histories of events -/
namespace LogCache.Spec
open LogCache

/-- Nothing in the history is a new connection. -/
def NoneAccepted (evs : List (Int × LifeEvent)) : Prop := ∀ t c, (t, LifeEvent.accept c) ∉ evs

/-- Every call of `Addr` in the history returned no address. -/
def NoAddress (evs : List (Int × LifeEvent)) : Prop := ∀ t, (t, LifeEvent.addr true) ∉ evs

/-- The events of one connection. -/
def ofConn (c : Nat) : LifeEvent → Bool
  | .accept x => x == c
  | .message x => x == c
  | .timeout x => x == c
  | .hangup x => x == c
  | _ => false

/-- The connection is open, and its last message came at `u`, or it was made at `u` and has
sent none since. -/
def OpenSince (evs : List (Int × LifeEvent)) (c : Nat) (u : Int) : Prop :=
  (evs.filter fun x => ofConn c x.2).getLast? = some (u, .accept c) ∨
    (evs.filter fun x => ofConn c x.2).getLast? = some (u, .message c)

/-- The time of the last event, and `t0` before the first. -/
def lastTime (t0 : Int) (evs : List (Int × LifeEvent)) : Int := (evs.getLast?.map Prod.fst).getD t0

end LogCache.Spec
