import Verif.Model.Standalone
import Verif.Spec.Cluster
import Verif.Spec.Routing
/-!
# A node on its own

What can happen to a node that runs by itself: calls of `Send`, the scheduler's `SetRanges`,
and prunes of its store. Reads change nothing (C17).
-/
namespace LogCache.Spec

/-- The value the last option of a kind gives, or else the default. -/
def optGiven {α : Type} (f : NodeOpt → Option α) (opts : List NodeOpt) (dflt : α) : α :=
  ((opts.filterMap f).getLast?).getD dflt

/-- The options do not name any node beside this one: there are no addresses, or a single one. -/
def OnItsOwn (opts : List NodeOpt) : Prop :=
  ∀ i as d, NodeOpt.clustered i as d ∈ opts → i = 0 ∧ as.length ≤ 1

/-- What happens to a node. -/
inductive NodeEvent where
  | send (req : SendRequest)
  | setRanges (req : List (Str × List HRange))
  | prune (now : Int) (mc : Int → Int) (order : List (Str × Storage))

/-- A node handles one event; `fwd` are the requests it passes on to others. -/
inductive NodeStep (p : NodeParams) : NodeState → NodeEvent → List SendRequest → NodeState → Prop
  | send {s : NodeState} {req : SendRequest} {ok : Nat → Bool} {res : SendResult} {st' : Store} :
      IngressSend s.table.lookup p.clients.1.length p.clients.2 ok req (some res) →
      PutAll s.store ((res.sends.filter (fun x => p.ownClient x.1)).flatMap (fun x => localPuts x.2)) st' →
      NodeStep p s (.send req) ((res.sends.filter (fun x => !p.ownClient x.1)).map Prod.snd)
        { s with store := st' }
  | setRanges {s : NodeState} {req : List (Str × List HRange)} {t' : RTable} :
      SetRanges s.table req t' → NodeStep p s (.setRanges req) [] { s with table := t' }
  | prune {s : NodeState} {now : Int} {mc : Int → Int} {order : List (Str × Storage)} {st' : Store} :
      order.Perm s.store.index → truncate mc order now s.store = some st' →
      NodeStep p s (.prune now mc order) [] { s with store := st' }

/-- A run of a node since its start, with all requests it passed on. -/
inductive NodeRun (p : NodeParams) : List NodeEvent → List SendRequest → NodeState → Prop
  | nil : NodeRun p [] [] p.boot
  | snoc {evs : List NodeEvent} {ev : NodeEvent} {fwd more : List SendRequest} {s s' : NodeState} :
      NodeRun p evs fwd s → NodeStep p s ev more s' → NodeRun p (evs ++ [ev]) (fwd ++ more) s'

/-- The ranges the scheduler assigned last, to whatever address. -/
def assignedLast (evs : List NodeEvent) : List HRange :=
  evs.foldl (fun r ev => match ev with | .setRanges req => req.flatMap Prod.snd | _ => r) []

/-- How many of the ranges contain the hash of a source id. -/
def timesCovered (ranges : List HRange) (src : Str) : Nat :=
  (ranges.filter (covers (sourceHash src))).length

/-- Every envelope sent to the node, in order. -/
def sentToNode (evs : List NodeEvent) : List Envelope :=
  evs.flatMap fun
    | .send req => req.envelopes.getD []
    | _ => []

/-- What the node keeps of the envelopes sent to it: all of a local-only Send, and of any other
every envelope as often as its source is covered at that time. -/
def keptBy (ranges : List HRange) : List NodeEvent → List Envelope
  | [] => []
  | .send req :: evs =>
    (if req.localOnly then req.envelopes.getD []
     else (req.envelopes.getD []).flatMap (fun e => List.replicate (timesCovered ranges e.sourceId) e)) ++
      keptBy ranges evs
  | .setRanges req :: evs => keptBy (req.flatMap Prod.snd) evs
  | .prune .. :: evs => keptBy ranges evs

/-- The ranges contain every hash exactly once. -/
def CoverOnce (ranges : List HRange) : Prop := ∀ h, h ≤ maxHash → (ranges.filter (covers h)).length = 1

/-- The scheduler came first, and every table it sent contains every hash exactly once. -/
def Scheduled (evs : List NodeEvent) : Prop :=
  (∃ req rest, evs = .setRanges req :: rest) ∧
  ∀ req, NodeEvent.setRanges req ∈ evs → CoverOnce (req.flatMap Prod.snd)

/-- No prune happened. -/
def Unpruned (evs : List NodeEvent) : Prop := ∀ now mc order, NodeEvent.prune now mc order ∉ evs

end LogCache.Spec
