import Verif.Model.SyslogCluster
import Verif.Spec.Cluster
import Verif.Spec.Read

/-! # A cluster with clients and syslog servers -/

namespace LogCache.Spec

/-- Every request is one of a client that leaves the routing to the node, or one of a syslog
server. -/
def ClientsAndSyslog (evs : List CEvent) : Prop :=
  ∀ j req, CEvent.client j req ∈ evs → req.localOnly = false ∨ ∃ batch, req = syslogWrite batch

/-- The envelopes of a source that clients sent to any node. -/
def sentByClients (evs : List CEvent) (src : Str) : List Envelope :=
  evs.flatMap fun
    | .client _ req => if req.localOnly then [] else (req.envelopes.getD []).filter (fun e => e.sourceId = src)
    | _ => []

/-- The envelopes of a source that a syslog server sent to node `i`. -/
def sentBySyslog (evs : List CEvent) (i : Nat) (src : Str) : List Envelope :=
  evs.flatMap fun
    | .client j req =>
      if req.localOnly = true ∧ j = i then (req.envelopes.getD []).filter (fun e => e.sourceId = src) else []
    | _ => []

end LogCache.Spec
