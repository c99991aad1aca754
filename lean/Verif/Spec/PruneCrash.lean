import Verif.Spec.Crash
/-!
# A cluster whose nodes crash, start again and make room

The cluster of `Verif/Spec/Crash.lean`, whose nodes in addition prune their stores when memory runs
short (`/repo/internal/cache/store/store.go:166-282`), at any time and by any amount.
-/
namespace LogCache.Spec

/-- What can happen: as before, or node `i` prunes its store. -/
inductive PruneEvent where
  | step (ev : XEvent)
  | prune (i : Nat)

/-- One step. The number to remove (`mc`), the order in which the sources are visited and the time
are any. -/
inductive PruneStep (cfg : Config) : Cluster → PruneEvent → Cluster → Prop
  | step {c c' : Cluster} {ev : XEvent} : XStep cfg c ev c' → PruneStep cfg c (.step ev) c'
  | prune {c : Cluster} {i : Nat} {now : Int} {mc : Int → Int} {order : List (Str × Storage)} {st' : Store} :
      i < c.n → order.Perm (c.store i).index → truncate mc order now (c.store i) = some st' →
      PruneStep cfg c (.prune i) { c with store := fun k => if k = i then st' else c.store k }

/-- A run. -/
inductive PruneRun (cfg : Config) : Cluster → List PruneEvent → Cluster → Prop
  | nil (c : Cluster) : PruneRun cfg c [] c
  | snoc {c c1 c2 : Cluster} {evs : List PruneEvent} {ev : PruneEvent} :
      PruneRun cfg c evs c1 → PruneStep cfg c1 ev c2 → PruneRun cfg c (evs ++ [ev]) c2

/-- All that happened but the pruning. -/
def stepsOf (evs : List PruneEvent) : List XEvent :=
  evs.filterMap fun
    | .step ev => some ev
    | .prune _ => none

end LogCache.Spec
