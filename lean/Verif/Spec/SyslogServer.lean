import Verif.Model.SyslogServer

/-! # Connections of the syslog server, each on its own -/

namespace LogCache.Spec

/-- The part of a history that a server with only this connection has. -/
def onlyConn (id : Nat) (evs : List SrvEvent) : List SrvEvent :=
  evs.filter fun
    | .accept i _ => i == id
    | .acceptFails => true
    | .net i _ => i == id
    | .handle i _ => i == id

/-- `all` is made up of one list per number, each in its order. -/
def MadeUpOf {α : Type} (all : List α) (part : Nat → List α) : Prop :=
  ∃ tagged : List (Nat × α), all = tagged.map Prod.snd ∧
    ∀ id, (tagged.filter (·.1 == id)).map Prod.snd = part id

/-- What happens on the network in a history. -/
def netEvents (evs : List SrvEvent) : List ConnEvent := evs.filterMap fun | .net _ e => some e | _ => none

/-- How the sends of a history end. -/
def sendResults (evs : List SrvEvent) : List Bool := evs.filterMap fun | .handle _ ok => some ok | _ => none

end LogCache.Spec
