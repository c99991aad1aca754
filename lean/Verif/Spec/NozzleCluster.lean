import Verif.Model.NozzleCluster
import Verif.Spec.Nozzle
import Verif.Spec.Cluster
import Verif.Spec.Read

/-! # A cluster that is fed by a nozzle -/

namespace LogCache.Spec

/-- A nozzle that sends to node `j` of a cluster.  Arguments: what the nozzle did, what
happened in the cluster, the part of it that did not come from this nozzle, and both states.
A `Send` that the nozzle counts as an error may have been carried out (it gives up after
three seconds), or not. -/
inductive FedRun (j : Nat) (c0 : Cluster) : List (NozEvent Envelope) → List CEvent → List CEvent →
    Nozzle Envelope → Cluster → Prop
  | nil : FedRun j c0 [] [] [] {} c0
  | own {nevs evs others s c nev s'} : FedRun j c0 nevs evs others s c → NozStep s nev s' →
      (∀ b, NozEvent.delivered b ∉ nev) → FedRun j c0 (nevs ++ nev) evs others s' c
  | sent {nevs evs others s c b s' c'} : FedRun j c0 nevs evs others s c → NozStep s [.delivered b] s' →
      CStep c (.client j (nozzleWrite b)) c' →
      FedRun j c0 (nevs ++ [.delivered b]) (evs ++ [.client j (nozzleWrite b)]) others s' c'
  | late {nevs evs others s c b s' c'} : FedRun j c0 nevs evs others s c → NozStep s [.failed b] s' →
      CStep c (.client j (nozzleWrite b)) c' →
      FedRun j c0 (nevs ++ [.failed b]) (evs ++ [.client j (nozzleWrite b)]) others s' c'
  | other {nevs evs others s c ev c'} : FedRun j c0 nevs evs others s c → CStep c ev c' →
      FedRun j c0 nevs (evs ++ [ev]) (others ++ [ev]) s c'

/-- Nothing is waiting in the nozzle, not even to be counted. -/
def NozzleIdle (s : Nozzle Envelope) : Prop :=
  s.buffer = [] ∧ s.pending = [] ∧ s.chan = [] ∧ s.inflight = [] ∧ s.reading = 0 ∧ s.sent = [] ∧
  s.refused = 0

/-- The envelopes of a source among some. -/
def ofSource (src : Str) (es : List Envelope) : List Envelope := es.filter (fun e => e.sourceId = src)

end LogCache.Spec
