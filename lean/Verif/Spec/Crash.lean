import Verif.Spec.Cluster
import Verif.Spec.Read
import Verif.Model.Reader
/-!
# A cluster whose nodes crash and start again

The cluster of `Verif/Spec/Cluster.lean`, with crashes. A node that starts again has a new store
and an empty routing table (`/repo/internal/cache/log_cache.go:151-183`: nothing is read from
disk or from other nodes), and the buffers of its clients for other nodes are gone with the
process. The scheduler gives it ranges again (`retable`). Events carry what is destroyed.
-/
namespace LogCache.Spec

/-- What can happen. `drop`: envelopes on their way from `j` to `i` are lost (a request failed,
or the buffer was full); `crash`: the process of node `i` ends, with `lost k` still on its way
to node `k`, and starts again. -/
inductive XEvent where
  | client (i : Nat) (req : SendRequest)
  | deliver (j i : Nat) (batch : List Envelope)
  | drop (j i : Nat) (lost : List Envelope)
  | retable (i : Nat) (l : Str → List Nat)
  | crash (i : Nat) (lost : Nat → List Envelope)

/-- One step. -/
inductive XStep (cfg : Config) : Cluster → XEvent → Cluster → Prop
  | client {c c' : Cluster} {i : Nat} {req : SendRequest} :
      CStep c (.client i req) c' → XStep cfg c (.client i req) c'
  | deliver {c c' : Cluster} {j i : Nat} {batch : List Envelope} :
      CStep c (.deliver j i batch) c' → XStep cfg c (.deliver j i batch) c'
  | drop {c : Cluster} {j i : Nat} {lost q : List Envelope} :
      j < c.n → j ≠ i → (q ++ lost).Perm (c.queue j i) → q.Sublist (c.queue j i) →
      XStep cfg c (.drop j i lost)
        { c with queue := fun a b => if a = j ∧ b = i then q else c.queue a b }
  | retable {c c' : Cluster} {i : Nat} {l : Str → List Nat} :
      CStep c (.retable i l) c' → XStep cfg c (.retable i l) c'
  | crash {c : Cluster} {i : Nat} : i < c.n →
      XStep cfg c (.crash i (c.queue i))
        { c with
          lk := fun k => if k = i then (fun _ => []) else c.lk k
          store := fun k => if k = i then newStore cfg else c.store k
          queue := fun a b => if a = i then [] else c.queue a b }

/-- A run. -/
inductive XRun (cfg : Config) : Cluster → List XEvent → Cluster → Prop
  | nil (c : Cluster) : XRun cfg c [] c
  | snoc {c c1 c2 : Cluster} {evs : List XEvent} {ev : XEvent} :
      XRun cfg c evs c1 → XStep cfg c1 ev c2 → XRun cfg c (evs ++ [ev]) c2

/-- The books of node `k`: the tables of the nodes; what clients' Sends had for the node; what
was put into its store since it started last; what was in its stores before that or was lost on
its way to it. -/
structure Books where
  lk : Nat → Str → List Nat
  due : List Envelope := []
  kept : List Envelope := []
  gone : List Envelope := []

/-- Which envelopes of a request that enters at node `j` are for node `k`. -/
def sharesOf (lk : Nat → Str → List Nat) (k j : Nat) (req : SendRequest) : List Envelope :=
  if req.localOnly then (if j = k then req.envelopes.getD [] else [])
  else (req.envelopes.getD []).flatMap fun e => List.replicate ((lk j e.sourceId).count k) e

/-- An event in the books of node `k`. -/
def Books.note (k : Nat) (b : Books) : XEvent → Books
  | .client j req =>
    { b with
      due := b.due ++ sharesOf b.lk k j req
      kept := if j = k then b.kept ++ sharesOf b.lk k j req else b.kept }
  | .deliver _ i batch => if i = k then { b with kept := b.kept ++ batch } else b
  | .drop _ i lost => if i = k then { b with gone := b.gone ++ lost } else b
  | .retable i l => { b with lk := fun m => if m = i then l else b.lk m }
  | .crash i lost =>
    if i = k then
      { b with lk := fun m => if m = i then (fun _ => []) else b.lk m, kept := [], gone := b.gone ++ b.kept }
    else
      { b with lk := fun m => if m = i then (fun _ => []) else b.lk m, gone := b.gone ++ lost k }

/-- The books after a list of events, from a cluster in which all nodes hold the table `L`. -/
def booksOf (L : Str → List Nat) (k : Nat) (evs : List XEvent) : Books :=
  evs.foldl (Books.note k) { lk := fun _ => L }

/-- The envelopes of a source that clients sent to any node. -/
def sentBy (evs : List XEvent) (src : Str) : List Envelope :=
  evs.flatMap fun
    | .client _ req => (req.envelopes.getD []).filter (fun e => e.sourceId = src)
    | _ => []

/-- The tables of the nodes after a list of events: each has the last it was given since it
started last, or none. -/
def tablesAfter (L : Str → List Nat) (evs : List XEvent) : Nat → Str → List Nat :=
  evs.foldl (fun lk ev => match ev with
    | .retable i l => fun m => if m = i then l else lk m
    | .crash i _ => fun m => if m = i then (fun _ => []) else lk m
    | _ => lk) (fun _ => L)

/-- Clients use plain Sends and turn to nodes that have the table `L` at that time: not to one
that has started again and has no ranges yet. -/
def ToReadyNodes (L : Str → List Nat) (evs : List XEvent) : Prop :=
  ∀ pre post i req, evs = pre ++ XEvent.client i req :: post →
    req.localOnly = false ∧ tablesAfter L pre i = L

/-- Nothing of the source is lost on its way to node `k`: no request with it failed, and no node
crashed with such envelopes still to send. -/
def NoneLost (src : Str) (k : Nat) (evs : List XEvent) : Prop :=
  ∀ ev ∈ evs, match ev with
    | .drop _ i lost => i = k → ∀ e ∈ lost, e.sourceId ≠ src
    | .crash i lost => i ≠ k → ∀ e ∈ lost k, e.sourceId ≠ src
    | _ => True

/-- Node `k` does not crash. -/
def StaysUp (k : Nat) (evs : List XEvent) : Prop := ∀ lost, XEvent.crash k lost ∉ evs

/-- Reads of the source that this store answers return all of `all` that the request asks for:
every accepted request gets a first part of the matching envelopes in the requested order, all of
them if its limit leaves room for `all`, else at least as many as its limit. -/
def ReturnsAll (st : Store) (src : Str) (sent : List Envelope) : Prop :=
  ∃ log : List Envelope, log.Perm sent ∧ log.Pairwise (fun x y => x.timestamp ≤ y.timestamp) ∧
    ∀ compile now (req : ReadRequest), req.sourceId = src → (∀ k, EType.other k ∉ req.types) →
      (∃ err, localRead compile now st req = some (.error err)) ∨
      ∃ res, localRead compile now st req = some (.ok res) ∧
        ∃ all, all = (((if req.descending then log.reverse else log).filter
            (inWindow req.start (if req.stop = 0 then now else req.stop))).filterMap
            (project (if req.nameFilter = [] then none else compile req.nameFilter))).filter
            (fun e => decide (∀ t ∈ req.types, t = .any) || decide (∃ t ∈ req.types, kind e = some t)) ∧
          res <+: all ∧
          ((sent.length : Int) < (if req.limit = 0 then 100 else req.limit) → res = all) ∧
          (res = all ∨ (if req.limit = 0 then 100 else req.limit) ≤ (res.length : Int))

end LogCache.Spec
