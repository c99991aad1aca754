import Verif.Spec.QueryDoor
import Verif.Spec.UserCrash

/-! # Queries while nodes crash -/

namespace LogCache.Spec

/-- A reader of a cluster to which anything may happen, also between two reads, by way of grpc at
node `j`: a read fails for whatever reason, or it is answered by the cluster after some history in
which clients had sent the first of the requests `posts`. -/
def CrashReader (compile : Str → Option (Str → Bool)) (cfg : Config) (n : Nat) (L : Str → List Nat)
    (posts : List SendReq) (j : Nat) (req : ReadRequest) : WalkIn → Prop
  | .failed _ => True
  | .got es _ _ => ∃ evs c early, AnyHistory cfg n L evs c early ∧ early <+: posts ∧
      ∃ now ws, GrpcRead compile now c j req (some ws) ∧ es = ws.map envelopeCode

/-- The reader behind the queries of node `j`: what it returns, if it is not an error, is what the
visitor of a walk has got when the walk has ended. -/
def ReadsAnyhow (compile : Str → Option (Str → Bool)) (cfg : Config) (n : Nat) (L : Str → List Nat)
    (posts : List SendReq) (j : Nat) (read : ReadRequest → Option (List Envelope)) : Prop :=
  ∀ id start stop es, FitsInt64 start → FitsInt64 stop → stop ≠ 0 → read (metricsBetween id start stop) = some es →
    ∃ tr ended, WalkRun dataReaderBackoff (dataReaderCfg (metricsBetween id start stop)) id
        (CrashReader compile cfg n L posts j) (walkInit (dataReaderCfg (metricsBetween id start stop)) 0) tr none ∧
      dataReaderResult ended (delivered tr) = some es

/-- A point with the labels `labels` and the value `v` is of an envelope that was sent for a source
of `S`, with the metric and the labels that the selector asks for, at a time that is in `When`. -/
def WasSent (posts : List SendReq) (S : Str → Prop) (ms : List Matcher) (num : PVal → Go64) (When : Envelope → Prop)
    (labels : List (Str × Str)) (v : Go64) : Prop :=
  ∃ id w x, S id ∧ w ∈ postedFor posts id ∧ ShowsOf S ms (envelopeCode w) x ∧ CarriesLabels labels (envelopeCode w) ∧
    v = num x ∧ When (envelopeCode w)

/-- What a range query that ends at `stop` can show at its step `T`. -/
def AtStep (T stop : Int) (x : Envelope) : Prop := InSecond T stop x ∨ SecondsBefore T stop x

end LogCache.Spec
