import Verif.Spec.EndToEnd
/-!
# A cluster at rest whose envelopes may have equal times
-/
namespace LogCache.Spec

/-- How many of the envelopes have this timestamp. -/
def howManyWire (l : List WireEnvelope) (ts : Int) : Nat := (l.filter fun x => decide (x.timestamp = ts)).length

/-- There may be envelopes of one time, but the next later time is at least as many nanoseconds
later as there are. -/
def SpreadWire (l : List WireEnvelope) : Prop :=
  ∀ x ∈ l, ∀ y ∈ l, x.timestamp < y.timestamp → x.timestamp + howManyWire l x.timestamp ≤ y.timestamp

/-- As `AtRest`, but envelopes may have the same time: only those of the source that is read
have to be spread out, with no more than `maxFudge` (4000) of one time. -/
structure AtRestSpread (cfg : Config) (n : Nat) (L : Str → List Nat) (evs : List CEvent) (c : Cluster)
    (posts : List SendReq) (id : Str) : Prop where
  run : CRun (newCluster cfg n (fun _ => L)) evs c
  reliable : Reliable evs
  posted : Posted evs posts
  plain : ∀ r ∈ posts, r.localOnly = false
  arrived : ∀ r ∈ posts, ∀ e ∈ r.envelopes.getD [], Arrived e
  quiet : ∀ j i, c.queue j i = []
  once : (L id).Nodup
  owned : L id ≠ []
  spread : SpreadWire (postedFor posts id)
  few : ∀ ts, howManyWire (postedFor posts id) ts ≤ cfg.maxFudge
  some : 1 ≤ cfg.maxPerSource
  fits : ((postedFor posts id).length : Int) ≤ cfg.maxPerSource

end LogCache.Spec
