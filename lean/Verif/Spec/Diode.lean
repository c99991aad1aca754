import Verif.Model.Diode

/-! # What became of forwarded envelopes -/

namespace LogCache.Spec.Fwd

/-- The envelopes handed to the client, in order. -/
def accepted (ops : List FwdOp) : List Envelope :=
  ops.flatMap fun | .send req => req.envelopes.getD [] | .iter _ _ => []

/-- The batches the client sent to the other node, in order. -/
def sentBatches (f : Forwarder) : List (List Envelope) := f.written.map fun w => w.1.envelopes.getD []

/-- The envelopes the other node was sent, in order. -/
def sent (f : Forwarder) : List Envelope := (sentBatches f).flatten

/-- Operations on a buffer. -/
inductive BufOp (ε : Type) where
  | set (e : ε)
  | next

/-- What was set, in order. -/
def sets {ε : Type} (ops : List (BufOp ε)) : List ε := ops.filterMap fun | .set e => some e | .next => none

/-- A run of operations on a buffer, with what was delivered and the number of elements
reported as dropped. -/
def play {ε : Type} : List (BufOp ε) → Diode ε → Diode ε × List ε × Nat
  | [], d => (d, [], 0)
  | .set e :: ops, d => play ops (d.set e)
  | .next :: ops, d =>
    let x := d.tryNext
    let y := play ops x.1
    (y.1, x.2.1.toList ++ y.2.1, x.2.2 + y.2.2)

/-- A queue that may lose its oldest elements when it holds more than `n`: operations,
contents, what was taken out, and how many were lost. -/
inductive QueueRun {ε : Type} (n : Nat) : List (BufOp ε) → List ε → List ε → Nat → Prop where
  | nil : QueueRun n [] [] [] 0
  | set {ops q out k} (e : ε) : QueueRun n ops q out k → QueueRun n (ops ++ [.set e]) (q ++ [e]) out k
  | empty {ops out k} : QueueRun n ops [] out k → QueueRun n (ops ++ [.next]) [] out k
  | next {ops lost x q out k} : QueueRun n ops (lost ++ x :: q) out k →
      (lost = [] ∨ n < (lost ++ x :: q).length) → q.length < n →
      QueueRun n (ops ++ [.next]) q (out ++ [x]) (k + lost.length)

end LogCache.Spec.Fwd
