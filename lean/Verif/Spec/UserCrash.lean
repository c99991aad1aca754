import Verif.Spec.SpreadEnd
import Verif.Spec.Heal
import Verif.Spec.PruneCrash

/-! # What a user gets who reads a source while nodes crash and recover -/

namespace LogCache.Spec

/-- The requests of clients in a history. -/
def clientsOf (evs : List XEvent) : List CEvent :=
  evs.filterMap fun
    | .client i req => some (.client i req)
    | _ => none

/-- Some of the envelopes, each at most as often as it is there. -/
def SomeWire (l all : List WireEnvelope) : Prop := ∃ rest, (l ++ rest).Perm all

/-- All of a log that a request asks for, in its order: as `wanted`, without the limit. -/
def matching (compile : Str → Option (Str → Bool)) (now : Int) (q : ReadRequest) (log : List WireEnvelope) :
    List WireEnvelope :=
  ((((if q.descending then log.reverse else log).filter fun e =>
      decide (q.start ≤ e.timestamp) && decide (e.timestamp < if q.stop = 0 then now else q.stop)).filterMap
      (wireProject (if q.nameFilter = [] then none else compile q.nameFilter))).filter fun e =>
      decide (∀ t ∈ q.types, t = .any) || decide (∃ t ∈ q.types, wireKind e = some t))

/-- A cluster of `n` nodes, which first held the table `L` and then had any history of Sends,
deliveries, losses, new tables and crashes, while nodes pruned their stores when they wanted;
clients sent `posts`. -/
structure AnyHistory (cfg : Config) (n : Nat) (L : Str → List Nat) (evs : List PruneEvent) (c : Cluster)
    (posts : List SendReq) : Prop where
  run : PruneRun cfg (newCluster cfg n (fun _ => L)) evs c
  posted : Posted (clientsOf (stepsOf evs)) posts
  arrived : ∀ r ∈ posts, ∀ e ∈ r.envelopes.getD [], Arrived e
  tables : FairTables L (stepsOf evs)
  some : 1 ≤ cfg.maxPerSource

/-- After any history `pre`, in which nodes also pruned, at whose end all nodes look up the source at `owners`, nothing happened
to the source but plain Sends and deliveries, and none of it is on its way; clients sent `before`
in `pre` and `after` since then. The envelopes of the source have equal times that are spread out,
and fit in a store. -/
structure Recovered (cfg : Config) (n : Nat) (L : Str → List Nat) (pre : List PruneEvent) (post : List XEvent)
    (c : Cluster) (before after : List SendReq) (owners : List Nat) (id : Str) : Prop where
  run : PruneRun cfg (newCluster cfg n (fun _ => L)) (pre ++ post.map .step) c
  postedBefore : Posted (clientsOf (stepsOf pre)) before
  postedAfter : Posted (clientsOf post) after
  arrived : ∀ r ∈ before ++ after, ∀ e ∈ r.envelopes.getD [], Arrived e
  tables : FairTables L (stepsOf pre)
  agree : ∀ j, j < n → tablesAfter L (stepsOf pre) j id = owners
  owned : owners ≠ []
  inside : ∀ k ∈ owners, k < n
  calm : Calm owners id post
  quiet : ∀ i k, ∀ e ∈ c.queue i k, e.sourceId ≠ id
  spread : SpreadWire (postedFor (before ++ after) id)
  few : ∀ ts, howManyWire (postedFor (before ++ after) id) ts ≤ cfg.maxFudge
  some : 1 ≤ cfg.maxPerSource
  fits : ((postedFor (before ++ after) id).length : Int) ≤ cfg.maxPerSource

/-- All that was sent since the cluster recovered, with some of what was sent before, in the order
of time. -/
def RecoveredLog (before after : List SendReq) (id : Str) (log : List WireEnvelope) : Prop :=
  (∃ old, SomeWire old (postedFor before id) ∧ log.Perm (old ++ postedFor after id)) ∧
    log.Pairwise fun x y => x.timestamp ≤ y.timestamp

end LogCache.Spec
