import Verif.Model.Proxy
import Verif.Spec.History
/-!
# A cluster of nodes

Every node runs the ingress and egress proxies of `Verif/Model/Proxy.lean` over
its own store.  Client `i` of every node talks to node `i` (all dials succeeded,
see C83).  Between nodes `j` and `i` there is the buffer of node `j`'s batched
ingress client for `i` (`/repo/internal/routing/batched_ingress_client.go:18-72`):
a queue that may lose envelopes (`lose`), because its diode overwrites the oldest
ones when it is full and a failed request is not retried.  The diode and the
batcher themselves are dependencies and not modelled further: any non-empty prefix
of the queue may be sent as one batch.
-/
namespace LogCache
namespace Spec

/-- Envelopes handed to client `i` in a list of requests. -/
def sentTo (sends : List (Nat × SendRequest)) (i : Nat) : List Envelope :=
  (sends.filter (fun s => s.1 = i)).flatMap (fun s => s.2.envelopes.getD [])

/-- Puts executed one after the other. -/
inductive PutAll : Store → List (Str × Envelope) → Store → Prop
  | nil (st : Store) : PutAll st [] st
  | cons {st st1 st2 : Store} {p : Str × Envelope} {rest : List (Str × Envelope)} (now : Int) :
      put now st p.1 p.2 = some st1 → PutAll st1 rest st2 → PutAll st (p :: rest) st2

/-- Cluster state. `lk i` is the lookup of node `i`'s routing table. -/
structure Cluster where
  n : Nat
  lk : Nat → Str → List Nat
  store : Nat → Store
  queue : Nat → Nat → List Envelope

/-- Node `i` handles a `Send`. -/
def Handle (c : Cluster) (i : Nat) (req : SendRequest) (c' : Cluster) : Prop :=
  ∃ (ok : Nat → Bool) (res : SendResult) (st' : Store),
    IngressSend (c.lk i) c.n i ok req (some res) ∧
    PutAll (c.store i) ((res.sends.filter (fun s => s.1 = i)).flatMap (fun s => localPuts s.2)) st' ∧
    c' = { c with
      store := fun k => if k = i then st' else c.store k
      queue := fun a b => if a = i ∧ b ≠ i then c.queue a b ++ sentTo res.sends b else c.queue a b }

/-- What can happen. -/
inductive CEvent where
  | client (i : Nat) (req : SendRequest)
  | deliver (j i : Nat) (batch : List Envelope)
  | lose (j i : Nat)
  | retable (i : Nat) (l : Str → List Nat)

/-- One step of the cluster. -/
inductive CStep : Cluster → CEvent → Cluster → Prop
  | client {c c' : Cluster} {i : Nat} {req : SendRequest} :
      i < c.n → Handle c i req c' → CStep c (.client i req) c'
  | deliver {c c' : Cluster} {i j : Nat} {batch rest : List Envelope} :
      i < c.n → j < c.n → i ≠ j → c.queue j i = batch ++ rest →
      Handle { c with queue := fun a b => if a = j ∧ b = i then rest else c.queue a b } i
        (batchedWrite batch) c' →
      CStep c (.deliver j i batch) c'
  | lose {c : Cluster} {j i : Nat} {q : List Envelope} :
      q.Sublist (c.queue j i) →
      CStep c (.lose j i) { c with queue := fun a b => if a = j ∧ b = i then q else c.queue a b }
  | retable {c : Cluster} {i : Nat} {l : Str → List Nat} :
      CStep c (.retable i l) { c with lk := fun k => if k = i then l else c.lk k }

/-- A run of the cluster. -/
inductive CRun : Cluster → List CEvent → Cluster → Prop
  | nil (c : Cluster) : CRun c [] c
  | snoc {c c1 c2 : Cluster} {evs : List CEvent} {ev : CEvent} :
      CRun c evs c1 → CStep c1 ev c2 → CRun c (evs ++ [ev]) c2

/-- A fresh cluster of `n` nodes. -/
def newCluster (cfg : Config) (n : Nat) (lk : Nat → Str → List Nat) : Cluster :=
  { n := n, lk := lk, store := fun _ => newStore cfg, queue := fun _ _ => [] }

/-- How a Read entering at node `j` is passed on: `hops` forwards until it is
answered by node `some i`, or refused (`none`). Every forwarded read is routed
again by the node that receives it. -/
inductive ReadAt (lk : Nat → Str → List Nat) (id : Str) : Nat → Nat → Option Nat → Prop
  | refused {j rnd : Nat} : egressRoute (lk j) j id rnd = none → (lk j id = [] ∨ rnd < (lk j id).length) →
      ReadAt lk id j 0 none
  | here {j rnd : Nat} : egressRoute (lk j) j id rnd = some j → (lk j id = [] ∨ rnd < (lk j id).length) →
      ReadAt lk id j 0 (some j)
  | forward {j i rnd hops : Nat} {r : Option Nat} : egressRoute (lk j) j id rnd = some i → i ≠ j →
      (lk j id = [] ∨ rnd < (lk j id).length) → ReadAt lk id i hops r → ReadAt lk id j (hops + 1) r

/-- No envelope of the event list is lost, and tables stay as they are. -/
def Reliable (evs : List CEvent) : Prop :=
  ∀ ev ∈ evs, match ev with | .lose .. => False | .retable .. => False | _ => True

/-- The envelopes of a source that clients sent to any node. -/
def clientSent (evs : List CEvent) (src : Str) : List Envelope :=
  evs.flatMap fun
    | .client _ req => (req.envelopes.getD []).filter (fun e => e.sourceId = src)
    | _ => []

/-! ### Meta calls

Calls overlap: between a call's look at the cache and the end of its fetch, other
calls run.  An event is either a call answered from the cache or the end of a fetch;
times are those of the node's clock, which does not run backwards. -/

/-- What a node does for Meta calls. `hit`: a call is answered from the cache;
`fetched`: a fetch ends, with its outcome. -/
inductive MetaEvent (ρ : Type) where
  | hit (isLocal : Bool) (now : Int) (answer : ρ)
  | fetched (isLocal : Bool) (now : Int) (outcome : Option ρ)

/-- When it happened. -/
def MetaEvent.time {ρ : Type} : MetaEvent ρ → Int
  | .hit _ t _ => t
  | .fetched _ t _ => t

/-- Runs of the two halves in any interleaving. -/
inductive MetaRun {ρ : Type} (dur : Int) : List (MetaEvent ρ) → MetaState ρ → Prop
  | nil : MetaRun dur [] {}
  | hit {evs : List (MetaEvent ρ)} {s : MetaState ρ} {l : Bool} {now : Int} {r : ρ} :
      MetaRun dur evs s → (∀ e ∈ evs, e.time ≤ now) → metaLoad s l now = some r →
      MetaRun dur (evs ++ [.hit l now r]) s
  | fetched {evs : List (MetaEvent ρ)} {s : MetaState ρ} {l : Bool} {now : Int} {o : Option ρ} :
      MetaRun dur evs s → (∀ e ∈ evs, e.time ≤ now) →
      MetaRun dur (evs ++ [.fetched l now o]) (metaFinish dur s l now o).1

end Spec
end LogCache
