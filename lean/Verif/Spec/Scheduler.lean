import Verif.Spec.Routing
import Verif.Model.Scheduler
/-!
# Vocabulary for rounds of the scheduler
-/
namespace LogCache.Spec

/-- The agent answers `ListRanges` with these ranges. -/
def ListsRanges (o : Orch) (l : List HRange) : Prop := o.list.view o.mem = l.map some

/-- Nodes in any state they can be in: each has handled some requests since it started last, none
of which added a nil range, and holds the tables it was sent since then, or none. -/
def AnyState (nodes : List Str) (hash : Str → Nat) (ns : Str → NodeSide) : Prop :=
  ∀ a ∈ nodes, (∃ ops, OrchRun {} ops (ns a).agent ∧ ∀ g, OrchOp.add g none ∉ ops) ∧
    ∃ reqs, TableRun (newRTable nodes hash) reqs (ns a).table

/-- The ranges of each worker after a list of calls that all have effect: an addition puts the
range at the end, a removal takes out the first that is equal. -/
def afterCalls (lists : Str → List HRange) (calls : List TermCall) : Str → List HRange :=
  calls.foldl (fun ls c => match c with
    | .add _ _ _ w r => fun x => if x = w then ls x ++ [r] else ls x
    | .remove _ _ w r => fun x => if x = w then (ls x).erase r else ls x) lists

/-- The call is made by the leader and reaches the node. -/
def TermCall.works : TermCall → Prop
  | .add leads reached _ _ _ => leads = true ∧ reached = true
  | .remove leads reached _ _ => leads = true ∧ reached = true

/-- The call is made while the scheduler is not the leader. -/
def TermCall.idle : TermCall → Prop
  | .add leads _ _ _ _ => leads = false
  | .remove leads _ _ _ => leads = false

/-- Each of the ranges `rs` is with exactly `k` of the nodes, once, and there are no others. -/
def Placed (rs : List HRange) (k : Nat) (nodes : List Str) (lists : Str → List HRange) : Prop :=
  (∀ r, (nodes.flatMap lists).count r = if r ∈ rs then k else 0) ∧ ∀ a ∈ nodes, (lists a).Nodup

end LogCache.Spec
