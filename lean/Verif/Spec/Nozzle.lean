import Verif.Model.Nozzle

/-! # What became of the envelopes of a run -/

namespace LogCache.Spec.Noz

/-- The received envelopes, in order. -/
def received {ε : Type} (evs : List (NozEvent ε)) : List ε :=
  evs.filterMap fun | .received e => some e | _ => none

/-- The envelopes that left the nozzle's buffers: lost, dropped or put into the
queue. -/
def consumed {ε : Type} (evs : List (NozEvent ε)) : List ε :=
  evs.flatMap fun | .lost es => es | .queued b => b | .dropped b => b | _ => []

/-- The envelopes the batcher disposed of, in order: dropped or put into the queue. -/
def batched {ε : Type} (evs : List (NozEvent ε)) : List ε :=
  evs.flatMap fun | .queued b => b | .dropped b => b | _ => []

/-- The batches put into the queue, in order. -/
def queued {ε : Type} (evs : List (NozEvent ε)) : List (List ε) :=
  evs.filterMap fun | .queued b => some b | _ => none

/-- The batches log-cache accepted. -/
def delivered {ε : Type} (evs : List (NozEvent ε)) : List (List ε) :=
  evs.filterMap fun | .delivered b => some b | _ => none

/-- The batches whose `Send` failed. -/
def failed {ε : Type} (evs : List (NozEvent ε)) : List (List ε) :=
  evs.filterMap fun | .failed b => some b | _ => none

end LogCache.Spec.Noz
