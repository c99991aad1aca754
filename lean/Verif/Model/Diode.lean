import Verif.Model.Proxy

/-!
# The buffer between nodes (`internal/routing/batched_ingress_client.go`)

`diodes.OneToOne` and `batching.Batcher` are dependencies whose source is not in the
sandbox; they are transcribed from memory.
-/

namespace LogCache

/-! ## The diode -/

/-- `diodes.OneToOne`: a ring of `size` buckets (sequence number and data), and the
indices of its reader and its writer. Simplification: the indices are uint64 in the
library and do not wrap here.
Library code, reached from `batched_ingress_client.go:41, 53-57, 62-71`. -/
structure Diode (ε : Type) where
  size : Nat
  slots : Nat → Option (Nat × ε) := fun _ => none
  writeIndex : Nat := 0
  readIndex : Nat := 0

/-- `d.buffer[i] = b`. Library code, reached from `batched_ingress_client.go:41, 53-57, 62-71`. -/
def Diode.store {ε : Type} (d : Diode ε) (i : Nat) (b : Option (Nat × ε)) : Diode ε :=
  { d with slots := fun j => if j = i then b else d.slots j }

/-- `OneToOne.Set`, undisturbed.
Library code, reached from `batched_ingress_client.go:41, 53-57, 62-71`. -/
def Diode.set {ε : Type} (d : Diode ε) (e : ε) : Diode ε :=
  { d.store (d.writeIndex % d.size) (some (d.writeIndex, e)) with writeIndex := d.writeIndex + 1 }

/-- `OneToOne.TryNext`: the new state, the data found, and the number of dropped elements
the alerter is told of (0: no call).  The reader swaps its bucket for nil; an old bucket
is ignored, a newer one than expected moves the reader forward.
Library code, reached from `batched_ingress_client.go:41, 53-57, 62-71`. -/
def Diode.tryNext {ε : Type} (d : Diode ε) : Diode ε × Option ε × Nat :=
  match d.slots (d.readIndex % d.size) with
  | none => (d, none, 0)
  | some (seq, e) =>
    let d' := d.store (d.readIndex % d.size) none
    if seq < d.readIndex then (d', none, 0)
    else ({ d' with readIndex := seq + 1 }, some e, seq - d.readIndex)

/-! ### Several writers

`Set` without locks: it reads the write index three times (for the bucket's place, for
its sequence number, and to increment it), writes it once and then stores the bucket. -/

/-- A call of `Set` on its way.
Library code, reached from `batched_ingress_client.go:41, 53-57, 62-71`. -/
inductive SetPc where
  | start
  | placed (idx : Nat)
  | numbered (idx seq : Nat)
  | loaded (idx seq w : Nat)
  | counted (idx seq : Nat)
  | finished
deriving DecidableEq, Repr

/-- The next instruction of a `Set` of `e`.
Library code, reached from `batched_ingress_client.go:41, 53-57, 62-71`. -/
def setStep {ε : Type} (e : ε) (d : Diode ε) : SetPc → Diode ε × SetPc
  | .start => (d, .placed (d.writeIndex % d.size))
  | .placed idx => (d, .numbered idx d.writeIndex)
  | .numbered idx seq => (d, .loaded idx seq d.writeIndex)
  | .loaded idx seq w => ({ d with writeIndex := w + 1 }, .counted idx seq)
  | .counted idx seq => (d.store idx (some (seq, e)), .finished)
  | .finished => (d, .finished)

/-- Two concurrent calls of `Set`; the schedule says whose instruction is next (`false`:
the first call). Library code, reached from `batched_ingress_client.go:41, 53-57, 62-71`. -/
def setBoth {ε : Type} (e₁ e₂ : ε) : List Bool → Diode ε × SetPc × SetPc → Diode ε × SetPc × SetPc
  | [], s => s
  | false :: sched, (d, p₁, p₂) =>
    setBoth e₁ e₂ sched ((setStep e₁ d p₁).1, (setStep e₁ d p₁).2, p₂)
  | true :: sched, (d, p₁, p₂) =>
    setBoth e₁ e₂ sched ((setStep e₂ d p₂).1, p₁, (setStep e₂ d p₂).2)

/-- One call of `Set` while the reader reads: the schedule says who is next (`false`: the
writer). The result has what the reader got and the number of elements reported as
dropped. Library code, reached from `batched_ingress_client.go:41, 53-57, 62-71`. -/
def setWhileReading {ε : Type} (e : ε) : List Bool → Diode ε → SetPc → Diode ε × SetPc × List ε × Nat
  | [], d, p => (d, p, [], 0)
  | false :: sched, d, p => setWhileReading e sched (setStep e d p).1 (setStep e d p).2
  | true :: sched, d, p =>
    let x := d.tryNext
    let y := setWhileReading e sched x.1 p
    (y.1, y.2.1, x.2.1.toList ++ y.2.2.1, x.2.2 + y.2.2.2)

/-- Several calls of `Set`, one after the other, while the reader reads: the first element
of the list is the one that is being set.  The result has the elements still to be set.
Library code, reached from `batched_ingress_client.go:41, 53-57, 62-71`. -/
def setsWhileReading {ε : Type} : List Bool → Diode ε → SetPc → List ε → Diode ε × SetPc × List ε × List ε × Nat
  | [], d, p, es => (d, p, es, [], 0)
  | false :: sched, d, p, [] => setsWhileReading sched d p []
  | false :: sched, d, p, e :: es =>
    match setStep e d p with
    | (d', .finished) => setsWhileReading sched d' .start es
    | (d', p') => setsWhileReading sched d' p' (e :: es)
  | true :: sched, d, p, es =>
    let x := d.tryNext
    let y := setsWhileReading sched x.1 p es
    (y.1, y.2.1, y.2.2.1, x.2.1.toList ++ y.2.2.2.1, x.2.2 + y.2.2.2.2)

/-! ## The client -/

/-- The size of a batch, log_cache.go:204. -/
def forwardBatchSize : Nat := 100

/-- The size of the buffer, batched_ingress_client.go:41. -/
def forwardBufferSize : Nat := 10000

/-- `BatchedIngressClient` (batched_ingress_client.go:18-25): the buffer, the batch of the
batcher, the requests written so far with their success, and the `ingress_dropped`
counter. -/
structure Forwarder where
  buffer : Diode Envelope := { size := forwardBufferSize }
  batch : List Envelope := []
  written : List (SendRequest × Bool) := []
  dropped : Nat := 0

/-- `Send` (batched_ingress_client.go:52-58); it returns no error. -/
def Forwarder.send (f : Forwarder) (req : SendRequest) : Forwarder :=
  { f with buffer := (req.envelopes.getD []).foldl Diode.set f.buffer }

/-- The batcher's writer, `write` (batched_ingress_client.go:74-89): one call for the
batch, `ok` is its success. An error is only logged. -/
def Forwarder.write (f : Forwarder) (ok : Bool) : Forwarder :=
  { f with written := f.written ++ [(batchedWrite f.batch, ok)], batch := [] }

/-- One iteration of `start` (batched_ingress_client.go:62-71) with `Batcher.Write` and
`Batcher.Flush`: a batch is written when it is full or when the interval has
`elapsed`. The alert is at batched_ingress_client.go:41-44. -/
def Forwarder.iter (f : Forwarder) (elapsed ok : Bool) : Forwarder :=
  let x := f.buffer.tryNext
  let f := { f with buffer := x.1, dropped := f.dropped + x.2.2 }
  match x.2.1 with
  | none => if f.batch ≠ [] ∧ elapsed then f.write ok else f
  | some e =>
    let f := { f with batch := f.batch ++ [e] }
    if forwardBatchSize ≤ f.batch.length ∨ elapsed then f.write ok else f

/-- What happens to the client: a call of `Send`, or an iteration of its goroutine.
With one caller at a time these are atomic (C103_one_writer_partial).
Models `batched_ingress_client.go:52-72`. -/
inductive FwdOp where
  | send (req : SendRequest)
  | iter (elapsed ok : Bool)

/-- One operation. Models `batched_ingress_client.go:52-72`. -/
def Forwarder.step (f : Forwarder) : FwdOp → Forwarder
  | .send req => f.send req
  | .iter elapsed ok => f.iter elapsed ok

/-- A run. Models `batched_ingress_client.go:52-72`. -/
def Forwarder.run (ops : List FwdOp) : Forwarder := ops.foldl Forwarder.step {}

end LogCache
