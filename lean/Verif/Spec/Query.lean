import Verif.Model.Query
import Verif.Spec.Promql

/-! # What a query rests on -/

namespace LogCache.Spec
variable {F : Type}

/-- The engine asked exactly these selectors in this order, was told these answers, and
ended with this result. -/
inductive Dialogue : EngineRun F → List SelectCall → Option (EngineValue F) → Prop where
  | done {r} : Dialogue (.done r) [] r
  | ask {mint maxt start stop ms k ans calls r} : As64 (mint * 1000000) start → As64 (maxt * 1000000) stop →
      Dialogue (k ans) calls r → Dialogue (.ask mint maxt ms k) (⟨start, stop, ms, ans⟩ :: calls) r

/-- All the data a selector asks for could be read: it names a source, and the reads of
all the sources it names succeeded. -/
def AllRead (read : ReadRequest → Option (List Envelope)) (c : SelectCall) : Prop :=
  (∃ id, NamesSource c.ms id) ∧
  ∀ id, NamesSource c.ms id → ∃ es, read (metricsAsked c.start c.stop id) = some es

/-- A query is answered only if all the data every one of its selectors asked for could
be read; otherwise it fails and is counted as failed. -/
structure HonestQuery (read : Nat → ReadRequest → Option (List Envelope)) (h : HandledQuery F) : Prop where
  answered : ∀ r, h.result = .answer r → ∀ i c, h.calls[i]? = some c → AllRead (read i) c
  failed : ∀ i c, h.calls[i]? = some c → ¬ AllRead (read i) c → h.result = .error ∧ h.failures = 1
  uncounted : (∀ i c, h.calls[i]? = some c → AllRead (read i) c) → h.failures = 0

end LogCache.Spec
