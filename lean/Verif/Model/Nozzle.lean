import Verif.Model.Routing

/-!
# The nozzle (`internal/nozzle/nozzle.go`)

Envelopes are of any type `ε`.  The stream buffer (a diode of the go-diodes
library) is a first-in first-out buffer that may lose its oldest elements; timers
fire at any time; the workers interleave freely.
-/

namespace LogCache

/-- `BATCH_CHANNEL_SIZE`, `nozzle.go:42`: both the size of a batch and the number of
batches the channel holds. -/
def batchChannelSize : Nat := 512

/-- The nozzle: stream buffer, `envelopes` of the batcher (`nozzle.go:121`), the
channel (`nozzle.go:108`), the batches workers are sending, and the counters
(`nozzle.go:102-104`).  Counting is a step of its own: `reading` is 1 while the reader has put an
envelope into the stream buffer and not counted it yet (`nozzle.go:184-185`), `sent` has the sizes
of the batches that workers have sent and not counted yet (`nozzle.go:165-176`), and `refused` is
the number of those that failed. -/
structure Nozzle (ε : Type) where
  buffer : List ε := []
  pending : List ε := []
  chan : List (List ε) := []
  inflight : List (List ε) := []
  ingress : Nat := 0
  egress : Nat := 0
  err : Nat := 0
  reading : Nat := 0
  sent : List Nat := []
  refused : Nat := 0

/-- What can be observed of the envelopes. `lost`: overwritten in the stream buffer.
`queued`, `dropped`: the batcher could or could not write the batch into the
channel.  `delivered`, `failed`: log-cache accepted the batch or not.
Models `nozzle.go:100-188`. -/
inductive NozEvent (ε : Type) where
  | received (e : ε)
  | lost (es : List ε)
  | queued (b : List ε)
  | dropped (b : List ε)
  | delivered (b : List ε)
  | failed (b : List ε)
deriving DecidableEq, Repr

/-- The non-blocking send of the batch, `nozzle.go:133-140` and `145-150`. -/
def nozzleFlush {ε : Type} (s : Nozzle ε) : Nozzle ε × List (NozEvent ε) :=
  if s.chan.length < batchChannelSize then
    ({ s with chan := s.chan ++ [s.pending], pending := [] }, [.queued s.pending])
  else ({ s with pending := [] }, [.dropped s.pending])

/-- One iteration of `envelopeBatcher`, `nozzle.go:123-157`; `fired`: the timer has
fired. -/
def batcherIter {ε : Type} (fired : Bool) (s : Nozzle ε) : Nozzle ε × List (NozEvent ε) :=
  let s := match s.buffer with
    | [] => s
    | e :: rest => { s with buffer := rest, pending := s.pending ++ [e] }
  if fired then
    if s.pending.length > 0 then nozzleFlush s else (s, [])
  else
    if s.pending.length ≥ batchChannelSize then nozzleFlush s else (s, [])

/-- One step of some goroutine. Models `nozzle.go:100-188`. -/
inductive NozStep {ε : Type} : Nozzle ε → List (NozEvent ε) → Nozzle ε → Prop where
  /-- `envelopeReader`, `nozzle.go:180-188`, for one envelope: it is put into the buffer … -/
  | receive (s : Nozzle ε) (e : ε) : s.reading = 0 →
      NozStep s [.received e] { s with buffer := s.buffer ++ [e], reading := 1 }
  /-- … and then counted, `nozzle.go:185`. -/
  | count (s : Nozzle ε) : s.reading = 1 →
      NozStep s [] { s with reading := 0, ingress := s.ingress + 1 }
  /-- The stream buffer overwrites its `n` oldest elements (`nozzle.go:67-69`). -/
  | lose (s : Nozzle ε) (n : Nat) :
      NozStep s [.lost (s.buffer.take n)] { s with buffer := s.buffer.drop n }
  /-- The batcher. -/
  | batch (s : Nozzle ε) (fired : Bool) :
      NozStep s (batcherIter fired s).2 (batcherIter fired s).1
  /-- A worker takes a batch, `nozzle.go:162`. -/
  | take (s : Nozzle ε) (b : List ε) (rest : List (List ε)) : s.chan = b :: rest →
      NozStep s [] { s with chan := rest, inflight := b :: s.inflight }
  /-- Its `Send` returns, `nozzle.go:164-170`. -/
  | deliver (s : Nozzle ε) (l r : List (List ε)) (b : List ε) : s.inflight = l ++ b :: r →
      NozStep s [.delivered b] { s with inflight := l ++ r, sent := b.length :: s.sent }
  | fail (s : Nozzle ε) (l r : List (List ε)) (b : List ε) : s.inflight = l ++ b :: r →
      NozStep s [.failed b] { s with inflight := l ++ r, refused := s.refused + 1 }
  /-- The worker counts what it sent, `nozzle.go:176` … -/
  | countSent (s : Nozzle ε) (l r : List Nat) (n : Nat) : s.sent = l ++ n :: r →
      NozStep s [] { s with sent := l ++ r, egress := s.egress + n }
  /-- … or that it failed, `nozzle.go:172`. -/
  | countFailed (s : Nozzle ε) (n : Nat) : s.refused = n + 1 →
      NozStep s [] { s with refused := n, err := s.err + 1 }

/-- A run from the start, with its events, oldest first. Models `nozzle.go:100-188`. -/
inductive NozRun {ε : Type} : List (NozEvent ε) → Nozzle ε → Prop where
  | nil : NozRun [] {}
  | step {evs s evs' s'} : NozRun evs s → NozStep s evs' s' → NozRun (evs ++ evs') s'

/-- The kinds of selector, `nozzle.go:190-216`. -/
inductive SelectorKind where
  | log | gauge | counter | timer | event
deriving DecidableEq, Repr

/-- `selectorTypes`, `nozzle.go:190-216`; `none` is a nil pointer. -/
def selectorTypes (s : Str) : Option SelectorKind :=
  if s = "log".toList then some .log
  else if s = "gauge".toList then some .gauge
  else if s = "counter".toList then some .counter
  else if s = "timer".toList then some .timer
  else if s = "event".toList then some .event
  else none

/-- The selectors of `buildBatchReq`, `nozzle.go:218-230`. -/
def buildSelectors (names : List Str) : List (Option SelectorKind) := names.map selectorTypes

end LogCache
