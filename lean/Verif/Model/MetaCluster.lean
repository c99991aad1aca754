import Verif.Model.Proxy
import Mathlib.Logic.Function.Basic

/-!
# Meta in a cluster, with the caches of all nodes and time

`e.clients` of node `i` holds its own store reader at place `i` and connections to the other
nodes at the other places (`internal/cache/log_cache.go:184-236`, with the indexes as they
should be, see C121). What the store of a node holds changes with time: `metaAt j τ x` is the
meta information of the source `x` in the store of node `j` at the time `τ`.
-/

namespace LogCache

/-- A cluster wide fetch that is under way (`internal/routing/egress_reverse_proxy.go:101-123`):
the node, the time it began and the answers of the clients asked so far, in order (`none`:
error). -/
structure GatherCall (μ : Type) where
  node : Nat
  since : Int
  parts : List (Option (List (Str × μ)))

/-- The nodes' caches, the fetches from the own store that are under way (node and time they
began) and the cluster wide fetches that are under way. Models `egress_reverse_proxy.go:67-160`. -/
structure MetaNet (μ : Type) where
  nodes : Nat → MetaState (List (Str × μ)) := fun _ => {}
  fetching : List (Nat × Int) := []
  gathering : List (GatherCall μ) := []

/-- `localHit`, `localBegan`, `localDone`: steps of `localMeta` (`egress_reverse_proxy.go:75-93`)
on a node. `clusterHit`, `clusterBegan`, `part`, `clusterDone`: steps of `remoteMeta` (95-136);
`part` is the answer of the next client. -/
inductive MetaNetAct (μ : Type) where
  | localHit (j : Nat) (resp : List (Str × μ))
  | localBegan (j : Nat)
  | localDone (j : Nat) (since : Int) (resp : Option (List (Str × μ)))
  | clusterHit (i : Nat) (resp : List (Str × μ))
  | clusterBegan (i : Nat)
  | part (c : GatherCall μ) (j : Nat) (resp : Option (List (Str × μ)))
  | clusterDone (c : GatherCall μ) (resp : Option (List (Str × μ)))

/-- What a reading of the store of node `j` that lasts from `t0` to `t1` may return: every
entry was right at some time, and a source that was there all the time is listed. The store
reads source by source and the counts last (`internal/cache/store/store.go:483-505`), so this
is not one moment; `μ` stands for one of the fields of the meta information. -/
def StoreReading {μ : Type} (metaAt : Nat → Int → Str → Option μ) (j : Nat) (t0 t1 : Int)
    (resp : List (Str × μ)) : Prop :=
  (resp.map Prod.fst).Nodup ∧
  (∀ x v, resp.lookup x = some v → ∃ τ, t0 ≤ τ ∧ τ ≤ t1 ∧ metaAt j τ x = some v) ∧
  ∀ x, (∀ τ, t0 ≤ τ → τ ≤ t1 → metaAt j τ x ≠ none) → resp.lookup x ≠ none

/-- The node `j` answers a local Meta request with `resp`.
Models `egress_reverse_proxy.go:67-160`. -/
def MetaNetAct.answersLocal {μ : Type} (act : MetaNetAct μ) (j : Nat) (resp : List (Str × μ)) : Prop :=
  act = .localHit j resp ∨ ∃ since, act = .localDone j since (some resp)

/-- Histories of a cluster of `n` nodes with the cache duration `dur`, with the times of the
events, oldest first, up to the time `clock`. Models `egress_reverse_proxy.go:67-160`. -/
inductive MetaNetRun {μ : Type} (n : Nat) (dur : Int) (metaAt : Nat → Int → Str → Option μ) :
    List (Int × MetaNetAct μ) → Int → MetaNet μ → Prop where
  | nil : MetaNetRun n dur metaAt [] 0 {}
  /-- `egress_reverse_proxy.go:76-79` -/
  | localHit {evs clock s now j resp} : MetaNetRun n dur metaAt evs clock s → clock ≤ now → j < n →
      metaLoad (s.nodes j) true now = some resp →
      MetaNetRun n dur metaAt (evs ++ [(now, .localHit j resp)]) now s
  /-- `egress_reverse_proxy.go:76-81` -/
  | localBegan {evs clock s now j} : MetaNetRun n dur metaAt evs clock s → clock ≤ now → j < n →
      metaLoad (s.nodes j) true now = none →
      MetaNetRun n dur metaAt (evs ++ [(now, .localBegan j)]) now { s with fetching := (j, now) :: s.fetching }
  /-- `egress_reverse_proxy.go:81-92` -/
  | localDone {evs clock s now j since resp} : MetaNetRun n dur metaAt evs clock s → clock ≤ now →
      (j, since) ∈ s.fetching → (∀ r, resp = some r → StoreReading metaAt j since now r) →
      MetaNetRun n dur metaAt (evs ++ [(now, .localDone j since resp)]) now
        { s with nodes := Function.update s.nodes j (metaFinish dur (s.nodes j) true now resp).1,
                 fetching := s.fetching.erase (j, since) }
  /-- `egress_reverse_proxy.go:96-99` -/
  | clusterHit {evs clock s now i resp} : MetaNetRun n dur metaAt evs clock s → clock ≤ now → i < n →
      metaLoad (s.nodes i) false now = some resp →
      MetaNetRun n dur metaAt (evs ++ [(now, .clusterHit i resp)]) now s
  /-- `egress_reverse_proxy.go:96-109` -/
  | clusterBegan {evs clock s now i} : MetaNetRun n dur metaAt evs clock s → clock ≤ now → i < n →
      metaLoad (s.nodes i) false now = none →
      MetaNetRun n dur metaAt (evs ++ [(now, .clusterBegan i)]) now
        { s with gathering := ⟨i, now, []⟩ :: s.gathering }
  /-- `egress_reverse_proxy.go:111-112`: the own store is read. -/
  | partOwn {evs clock s now pre post} {c : GatherCall μ} {resp} : MetaNetRun n dur metaAt evs clock s →
      clock ≤ now → s.gathering = pre ++ c :: post → c.parts.length = c.node → c.parts.length < n →
      StoreReading metaAt c.node c.since now resp →
      MetaNetRun n dur metaAt (evs ++ [(now, .part c c.node (some resp))]) now
        { s with gathering := pre ++ { c with parts := c.parts ++ [some resp] } :: post }
  /-- `egress_reverse_proxy.go:111-112`: another node has answered since the fetch began. -/
  | partRemote {evs clock s now pre post} {c : GatherCall μ} {resp t act} : MetaNetRun n dur metaAt evs clock s →
      clock ≤ now → s.gathering = pre ++ c :: post → c.parts.length ≠ c.node → c.parts.length < n →
      (t, act) ∈ evs → c.since ≤ t → act.answersLocal c.parts.length resp →
      MetaNetRun n dur metaAt (evs ++ [(now, .part c c.parts.length (some resp))]) now
        { s with gathering := pre ++ { c with parts := c.parts ++ [some resp] } :: post }
  /-- `egress_reverse_proxy.go:113-118` -/
  | partFailed {evs clock s now pre post} {c : GatherCall μ} : MetaNetRun n dur metaAt evs clock s →
      clock ≤ now → s.gathering = pre ++ c :: post → c.parts.length < n →
      MetaNetRun n dur metaAt (evs ++ [(now, .part c c.parts.length none)]) now
        { s with gathering := pre ++ { c with parts := c.parts ++ [none] } :: post }
  /-- `egress_reverse_proxy.go:120-135` -/
  | clusterDone {evs clock s now pre post} {c : GatherCall μ} : MetaNetRun n dur metaAt evs clock s →
      clock ≤ now → s.gathering = pre ++ c :: post → c.parts.length = n →
      MetaNetRun n dur metaAt (evs ++ [(now, .clusterDone c (mergeMeta c.parts))]) now
        { s with nodes := Function.update s.nodes c.node (metaFinish dur (s.nodes c.node) false now (mergeMeta c.parts)).1,
                 gathering := pre ++ post }

end LogCache
