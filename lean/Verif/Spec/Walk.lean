import Verif.Model.Walk
import Verif.Spec.StoreView
/-!
# Runs of a walk against an environment

`env req i` says which inputs the environment (reader, clock, visitor) may produce
when it is asked `req`.  A trace pairs the inputs with what the visitor received.
-/
namespace LogCache
namespace Spec

/-- A finite part of a walk from state `s`. The result is `none` when `Walk` has
returned and the current state otherwise. -/
inductive WalkRun {β : Type} (bo : Backoff β) (c : WalkCfg) (src : Str)
    (env : ReadRequest → WalkIn → Prop) :
    WalkState β → List (WalkIn × Option (List Envelope)) → Option (WalkState β) → Prop
  | nil (s : WalkState β) : WalkRun bo c src env s [] (some s)
  | done {s : WalkState β} {i : WalkIn} {v : Option (List Envelope)} :
      env (walkRequest c src s.start) i → walkStep bo c s i = (v, none) →
      WalkRun bo c src env s [(i, v)] none
  | step {s s' : WalkState β} {i : WalkIn} {v : Option (List Envelope)}
      {tr : List (WalkIn × Option (List Envelope))} {r : Option (WalkState β)} :
      env (walkRequest c src s.start) i → walkStep bo c s i = (v, some s') →
      WalkRun bo c src env s' tr r → WalkRun bo c src env s ((i, v) :: tr) r

/-- The batches the visitor received. -/
def delivered (tr : List (WalkIn × Option (List Envelope))) : List (List Envelope) :=
  tr.filterMap Prod.snd

/-- A reader that only promises sorted answers not older than the start time. -/
def SortedReader (req : ReadRequest) : WalkIn → Prop
  | .failed _ => True
  | .got es _ _ => es.Pairwise (fun x y => x.timestamp ≤ y.timestamp) ∧
      ∀ e ∈ es, req.start ≤ e.timestamp

/-- The part of a log between two times. -/
def between (start stop : Int) (log : List Envelope) : List Envelope :=
  log.filter (fun e => decide (start ≤ e.timestamp) && decide (e.timestamp < stop))

/-- A reader of a fixed log: it fails or returns the first `limit` envelopes of the
requested window; everything in the log is older than the walk's delay; the visitor
never stops the walk. -/
def LogReader (log : List Envelope) (limit : Nat) (delay : Int) (req : ReadRequest) : WalkIn → Prop
  | .failed _ => True
  | .got es now more => es = (between req.start req.stop log).take limit ∧ more = true ∧
      ∀ e ∈ log, e.timestamp ≤ now - delay

/-- A reader of a fixed log that returns whole timestamp groups: it fails or returns
some of the requested window from its start on, nothing only if the window is empty,
and nothing left out has the time of anything returned; everything in the log is older
than the walk's delay; the visitor never stops the walk. -/
def GroupReader (log : List Envelope) (delay : Int) (req : ReadRequest) : WalkIn → Prop
  | .failed _ => True
  | .got es now more => (∃ rest, between req.start req.stop log = es ++ rest ∧ (es = [] → rest = []) ∧
      ∀ x ∈ es, ∀ y ∈ rest, x.timestamp ≠ y.timestamp) ∧ more = true ∧
      ∀ e ∈ log, e.timestamp ≤ now - delay

/-- A reader of a growing log. `log t` is what a read at time `t` sees; the read
took place at most `latency` before the walk looks at its clock. -/
def LiveReader (log : Int → List Envelope) (limit : Nat) (latency : Int) (req : ReadRequest) : WalkIn → Prop
  | .failed _ => True
  | .got es now _ => ∃ t, t ≤ now ∧ now ≤ t + latency ∧
      es = ((log t).filter (fun e => decide (req.start ≤ e.timestamp))).take limit

/-- The same when envelopes may share a time and reads return whole groups of one time:
some of what there is from the start on, and nothing left out has the time of anything
returned. -/
def LiveGroupReader (log : Int → List Envelope) (latency : Int) (req : ReadRequest) : WalkIn → Prop
  | .failed _ => True
  | .got es now _ => ∃ t, t ≤ now ∧ now ≤ t + latency ∧ ∃ rest,
      (log t).filter (fun e => decide (req.start ≤ e.timestamp)) = es ++ rest ∧
      ∀ x ∈ es, ∀ y ∈ rest, x.timestamp ≠ y.timestamp

/-- A reader of a node's store that does not change: it fails or returns what the
Read API returns; everything stored for the source is older than the walk's delay;
the visitor never stops the walk. -/
def StoreReader (compile : Str → Option (Str → Bool)) (st : Store) (delay : Int) (req : ReadRequest) :
    WalkIn → Prop
  | .failed _ => True
  | .got es now more => (∃ t, localRead compile t st req = some (.ok es)) ∧ more = true ∧
      ∀ e ∈ st.envelopes req.sourceId, e.timestamp ≤ now - delay

/-- Number of reads since the last delivery. -/
def idle (tr : List (WalkIn × Option (List Envelope))) : Nat :=
  tr.foldl (fun n x => if x.2.isNone then n + 1 else 0) 0

end Spec
end LogCache
