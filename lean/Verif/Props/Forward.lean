import Verif.Proof.Diode

/-!
# Property theorems about forwarding to other nodes (C102, C103)
-/

namespace LogCache

open Spec.Fwd

/-! ## C102 -/

/-- A forwarder that was handed `acc`. -/
private structure FInv (f : Forwarder) (acc : List Envelope) : Prop where
  buf : RingInv f.buffer acc
  size : f.buffer.size = 10000
  sub : (sent f ++ f.batch).Sublist (acc.take f.buffer.readIndex)
  count : (sent f).length + f.batch.length + f.dropped = f.buffer.readIndex
  small : f.batch.length < 100
  reqs : ∀ w ∈ f.written, w.1.localOnly = true ∧ ∃ es, w.1.envelopes = some es ∧ 1 ≤ es.length ∧ es.length ≤ 100

private theorem sent_write (f : Forwarder) (ok : Bool) : sent (f.write ok) = sent f ++ f.batch := by
  simp [sent, sentBatches, Forwarder.write, batchedWrite]

private theorem reqs_write {f : Forwarder} (ok : Bool) (h : 1 ≤ f.batch.length) (h' : f.batch.length ≤ 100)
    (hr : ∀ w ∈ f.written, w.1.localOnly = true ∧ ∃ es, w.1.envelopes = some es ∧ 1 ≤ es.length ∧ es.length ≤ 100) :
    ∀ w ∈ (f.write ok).written,
      w.1.localOnly = true ∧ ∃ es, w.1.envelopes = some es ∧ 1 ≤ es.length ∧ es.length ≤ 100 := by
  intro w hw
  simp only [Forwarder.write, List.mem_append, List.mem_singleton] at hw
  rcases hw with hw | hw
  · exact hr w hw
  · rw [hw]; exact ⟨rfl, f.batch, rfl, h, h'⟩

private theorem FInv.init : FInv {} [] :=
  ⟨RingInv.fresh 10000 (by omega), rfl, by simp [sent, sentBatches], by simp [sent, sentBatches], by simp, by simp⟩

private theorem foldl_set {es acc : List Envelope} {d : Diode Envelope} (h : RingInv d acc) :
    RingInv (es.foldl Diode.set d) (acc ++ es) ∧ (es.foldl Diode.set d).readIndex = d.readIndex ∧
      (es.foldl Diode.set d).size = d.size := by
  induction es generalizing d acc with
  | nil => simpa using h
  | cons e es ih =>
    have := ih (h.set e)
    simp only [List.foldl_cons, List.append_assoc, List.singleton_append] at this ⊢
    exact this

private theorem FInv.send {f : Forwarder} {acc : List Envelope} (h : FInv f acc) (req : SendRequest) :
    FInv (f.send req) (acc ++ req.envelopes.getD []) := by
  obtain ⟨h1, h2, h3⟩ := foldl_set (es := req.envelopes.getD []) h.buf
  refine ⟨h1, h3.trans h.size, ?_, ?_, h.small, h.reqs⟩
  · simp only [Forwarder.send]
    rw [h2]
    refine h.sub.trans ?_
    rw [List.take_append]
    exact List.sublist_append_left _ _
  · simp only [Forwarder.send]
    rw [h2]; exact h.count

/-- One iteration: it finds nothing, or an envelope after losing those before it. -/
private theorem iter_cases {f : Forwarder} {acc : List Envelope} (h : FInv f acc) (elapsed ok : Bool) :
    FInv (f.iter elapsed ok) acc ∧
    (sent (f.iter elapsed ok) ++ (f.iter elapsed ok).batch).length + (f.iter elapsed ok).dropped =
      (f.iter elapsed ok).buffer.readIndex ∧
    ((f.buffer.readIndex = acc.length ∧ (f.iter elapsed ok).buffer.readIndex = acc.length ∧
        (f.iter elapsed ok).dropped = f.dropped ∧
        sent (f.iter elapsed ok) ++ (f.iter elapsed ok).batch = sent f ++ f.batch) ∨
      (∃ s e, f.buffer.readIndex ≤ s ∧ s < acc.length ∧ acc.length ≤ s + 10000 ∧ acc[s]? = some e ∧
        (s = f.buffer.readIndex ∨ f.buffer.readIndex + 10000 ≤ s) ∧
        (f.iter elapsed ok).buffer.readIndex = s + 1 ∧
        (f.iter elapsed ok).dropped = f.dropped + (s - f.buffer.readIndex) ∧
        sent (f.iter elapsed ok) ++ (f.iter elapsed ok).batch = sent f ++ f.batch ++ [e])) ∧
    (elapsed = true → (f.iter elapsed ok).batch = []) := by
  rcases h.buf.next with ⟨hr, d', ht, hd, hr', hs'⟩ | ⟨s, e, d', h1, h2, h3, h4, h5, ht, hd, hr', hs'⟩
  · rw [Forwarder.iter, ht]
    simp only [Nat.add_zero]
    by_cases hc : f.batch ≠ [] ∧ elapsed = true
    · rw [if_pos hc]
      have hlen : 1 ≤ f.batch.length := by
        have := List.length_pos_iff.2 hc.1
        omega
      have hsm := h.small
      have hcnt := h.count
      have hsub := h.sub
      have hw := sent_write { f with buffer := d' } ok
      have hsf : sent ({ f with buffer := d' } : Forwarder) = sent f := rfl
      refine ⟨⟨hd, hs'.trans h.size, ?_, ?_, ?_, ?_⟩, ?_, ?_, fun _ => rfl⟩
      · rw [hw, hsf]; simp only [Forwarder.write, List.append_nil]; rw [hr']; exact hsub
      · rw [hw, hsf]; simp only [Forwarder.write, List.length_append, List.length_nil]; omega
      · simp [Forwarder.write]
      · exact reqs_write ok hlen (by simp only; omega) h.reqs
      · rw [hw, hsf]; simp only [Forwarder.write, List.length_append, List.append_nil]; omega
      · left; refine ⟨hr, hr'.trans hr, rfl, ?_⟩
        rw [hw, hsf]; simp [Forwarder.write]
    · rw [if_neg hc]
      have hcnt := h.count
      refine ⟨⟨hd, hs'.trans h.size, ?_, ?_, h.small, h.reqs⟩, ?_, ?_, ?_⟩
      · simp only; rw [hr']; exact h.sub
      · simp only; rw [hr']; exact h.count
      · simp only [List.length_append]; rw [hr']; exact hcnt
      · left; exact ⟨hr, hr'.trans hr, rfl, rfl⟩
      · intro he
        by_cases hb : f.batch = []
        · exact hb
        · exact absurd ⟨hb, he⟩ hc
  · rw [Forwarder.iter, ht]
    simp only
    have hsz := h.size
    have hcnt := h.count
    have hsm := h.small
    have hsub : (sent f ++ (f.batch ++ [e])).Sublist (acc.take (s + 1)) := by
      rw [← List.append_assoc, List.take_add_one, h4]
      refine List.Sublist.append (h.sub.trans ?_) (List.Sublist.refl _)
      exact (List.take_prefix_take_left (by omega)).sublist
    have hright : ∀ g : Forwarder, g.buffer = d' → g.dropped = f.dropped + (s - f.buffer.readIndex) →
        sent g ++ g.batch = sent f ++ (f.batch ++ [e]) →
        (∃ s e, f.buffer.readIndex ≤ s ∧ s < acc.length ∧ acc.length ≤ s + 10000 ∧ acc[s]? = some e ∧
          (s = f.buffer.readIndex ∨ f.buffer.readIndex + 10000 ≤ s) ∧ g.buffer.readIndex = s + 1 ∧
          g.dropped = f.dropped + (s - f.buffer.readIndex) ∧ sent g ++ g.batch = sent f ++ f.batch ++ [e]) := by
      intro g g1 g2 g3
      rw [hsz] at h3 h5
      exact ⟨s, e, h1, h2, h3, h4, h5, by rw [g1, hr'], g2, by rw [g3, List.append_assoc]⟩
    by_cases hc : forwardBatchSize ≤ (f.batch ++ [e]).length ∨ elapsed = true
    · rw [if_pos hc]
      have hw := sent_write { f with buffer := d', dropped := f.dropped + (s - f.buffer.readIndex), batch := f.batch ++ [e] } ok
      have hsf : sent ({ f with buffer := d', dropped := f.dropped + (s - f.buffer.readIndex), batch := f.batch ++ [e] } : Forwarder) = sent f := rfl
      refine ⟨⟨hd, hs'.trans h.size, ?_, ?_, ?_, ?_⟩, ?_, .inr (hright _ rfl rfl ?_), fun _ => rfl⟩
      · rw [hw, hsf]; simp only [Forwarder.write, List.append_nil]; rw [hr']; exact hsub
      · rw [hw, hsf]; simp only [Forwarder.write, List.length_append, List.length_nil, List.length_singleton]; omega
      · simp [Forwarder.write]
      · exact reqs_write ok (by simp) (by simp; omega) h.reqs
      · rw [hw, hsf]; simp only [Forwarder.write, List.length_append, List.append_nil, List.length_singleton]; omega
      · rw [hw, hsf]; simp [Forwarder.write]
    · rw [if_neg hc]
      simp only [forwardBatchSize] at hc
      refine ⟨⟨hd, hs'.trans h.size, ?_, ?_, ?_, h.reqs⟩, ?_, .inr (hright _ rfl rfl rfl), ?_⟩
      · simp only; rw [hr']; exact hsub
      · simp only [List.length_append, List.length_singleton]; rw [hr']
        have : sent ({ f with buffer := d', dropped := f.dropped + (s - f.buffer.readIndex), batch := f.batch ++ [e] } : Forwarder) = sent f := rfl
        rw [this]; omega
      · simp only; omega
      · simp only [List.length_append, List.length_singleton]; rw [hr']
        have : sent ({ f with buffer := d', dropped := f.dropped + (s - f.buffer.readIndex), batch := f.batch ++ [e] } : Forwarder) = sent f := rfl
        rw [this]; omega
      · intro he; exact absurd (.inr he) hc

private theorem run_snoc (ops : List FwdOp) (op : FwdOp) :
    Forwarder.run (ops ++ [op]) = (Forwarder.run ops).step op := by simp [Forwarder.run]

private theorem accepted_snoc (ops : List FwdOp) (op : FwdOp) :
    accepted (ops ++ [op]) = accepted ops ++ accepted [op] := by simp [accepted]

private theorem snocRec {α : Type} {P : List α → Prop} (h0 : P []) (h1 : ∀ l a, P l → P (l ++ [a])) (l : List α) :
    P l := by
  have : ∀ l : List α, P l.reverse := by
    intro l
    induction l with
    | nil => exact h0
    | cons a l ih => rw [List.reverse_cons]; exact h1 _ _ ih
  exact List.reverse_reverse l ▸ this l.reverse

private theorem run_inv (ops : List FwdOp) : FInv (Forwarder.run ops) (accepted ops) := by
  induction ops using snocRec with
  | h0 => exact FInv.init
  | h1 ops op ih =>
    rw [run_snoc, accepted_snoc]
    cases op with
    | send req =>
      have := ih.send req
      simpa [Forwarder.step, accepted] using this
    | iter elapsed ok =>
      have := (iter_cases ih elapsed ok).1
      simpa [Forwarder.step, accepted] using this

/-- **C102.** Whatever is sent through a node's buffer for another node, and whatever the
other node answers: the other node is sent the envelopes in order, none twice, in
requests it stores without forwarding, of 1 to 100 envelopes; and the envelopes sent,
those in the batch and those counted as dropped are never more than were accepted. -/
theorem C102_forward (ops : List FwdOp) :
    (sent (Forwarder.run ops) ++ (Forwarder.run ops).batch).Sublist (accepted ops) ∧
    (sent (Forwarder.run ops)).length + (Forwarder.run ops).batch.length + (Forwarder.run ops).dropped
      ≤ (accepted ops).length ∧
    ∀ w ∈ (Forwarder.run ops).written,
      w.1.localOnly = true ∧ ∃ es, w.1.envelopes = some es ∧ 1 ≤ es.length ∧ es.length ≤ 100 := by
  have h := run_inv ops
  refine ⟨h.sub.trans (List.take_sublist _ _), ?_, h.reqs⟩
  rw [h.count]; exact h.buf.read

/-- **C102.** Once the goroutine finds the buffer empty, every accepted envelope was sent,
is in the batch or was counted as dropped: exactly. -/
theorem C102_accounted (ops : List FwdOp) (h : (Forwarder.run ops).buffer.tryNext.2.1 = none) :
    (sent (Forwarder.run ops)).length + (Forwarder.run ops).batch.length + (Forwarder.run ops).dropped
      = (accepted ops).length := by
  have hi := run_inv ops
  rw [hi.count]
  rcases hi.buf.next with ⟨hr, _⟩ | ⟨s, e, d', _, _, _, _, _, ht, _⟩
  · exact hr
  · rw [ht] at h; nomatch h

private theorem iters_drain {f : Forwarder} {acc : List Envelope} (h : FInv f acc) (k : Nat)
    (hk : acc.length ≤ f.buffer.readIndex + k) :
    FInv ((List.replicate (k + 1) (FwdOp.iter true true)).foldl Forwarder.step f) acc ∧
    ((List.replicate (k + 1) (FwdOp.iter true true)).foldl Forwarder.step f).buffer.readIndex = acc.length ∧
    ((List.replicate (k + 1) (FwdOp.iter true true)).foldl Forwarder.step f).batch = [] := by
  induction k generalizing f with
  | zero =>
    obtain ⟨h1, _, h3, h4⟩ := iter_cases h true true
    refine ⟨h1, ?_, h4 rfl⟩
    rcases h3 with ⟨_, h5, _⟩ | ⟨s, _, h5, h6, _⟩
    · exact h5
    · omega
  | succ k ih =>
    obtain ⟨h1, _, h3, _⟩ := iter_cases h true true
    rw [List.replicate_succ, List.foldl_cons]
    refine ih h1 ?_
    simp only [Forwarder.step] at *
    rcases h3 with ⟨_, h5, _⟩ | ⟨s, _, h5, h6, _, _, _, h7, _⟩
    · omega
    · omega

/-- **C102.** Nothing stays behind: when the goroutine goes on, everything accepted is
sent or counted as dropped. -/
theorem C102_drains (ops : List FwdOp) :
    ∃ k, (Forwarder.run (ops ++ List.replicate k (.iter true true))).batch = [] ∧
      (sent (Forwarder.run (ops ++ List.replicate k (.iter true true)))).length +
        (Forwarder.run (ops ++ List.replicate k (.iter true true))).dropped = (accepted ops).length := by
  obtain ⟨h1, h2, h3⟩ := iters_drain (run_inv ops) (accepted ops).length (by omega)
  refine ⟨(accepted ops).length + 1, ?_, ?_⟩
  · rw [Forwarder.run, List.foldl_append]; exact h3
  · have := h1.count
    rw [Forwarder.run, List.foldl_append]
    simp only [Forwarder.run] at *
    rw [h3, h2] at this
    simpa using this

/-- **C102.** Envelopes are dropped only from a full buffer: if at no time more than 10000
accepted envelopes were neither sent nor in the batch, then none was dropped, and what was
sent and is in the batch is exactly what was accepted first. -/
theorem C102_lossless (ops : List FwdOp)
    (h : ∀ pre, pre <+: ops → (accepted pre).length ≤
      (sent (Forwarder.run pre) ++ (Forwarder.run pre).batch).length + 10000) :
    (Forwarder.run ops).dropped = 0 ∧
    sent (Forwarder.run ops) ++ (Forwarder.run ops).batch <+: accepted ops := by
  suffices hs : (Forwarder.run ops).dropped = 0 ∧ sent (Forwarder.run ops) ++ (Forwarder.run ops).batch =
      (accepted ops).take (Forwarder.run ops).buffer.readIndex by
    exact ⟨hs.1, hs.2 ▸ List.take_prefix _ _⟩
  induction ops using snocRec with
  | h0 => exact ⟨rfl, by simp [sent, sentBatches, Forwarder.run, accepted]⟩
  | h1 ops op ih =>
    obtain ⟨i1, i2⟩ := ih fun pre hp => h pre (hp.trans (List.prefix_append _ _))
    have hv := run_inv ops
    cases op with
    | send req =>
      obtain ⟨_, h2, _⟩ := foldl_set (es := req.envelopes.getD []) hv.buf
      rw [run_snoc, accepted_snoc]
      refine ⟨i1, ?_⟩
      simp only [Forwarder.step, Forwarder.send]
      rw [h2, List.take_append_of_le_length hv.buf.read, ← i2]
      rfl
    | iter elapsed ok =>
      rw [run_snoc, accepted_snoc]
      have ha : accepted [FwdOp.iter elapsed ok] = [] := rfl
      rw [ha, List.append_nil]
      obtain ⟨_, _, h3, _⟩ := iter_cases hv elapsed ok
      simp only [Forwarder.step]
      rcases h3 with ⟨c1, c2, c3, c4⟩ | ⟨s, e, c1, c2, c3, c4, c5, c6, c7, c8⟩
      · refine ⟨by rw [c3, i1], ?_⟩
        rw [c4, c2, i2, c1]
      · have hpre := h ops (List.prefix_append _ _)
        have hcnt := hv.count
        rw [i2, List.length_take] at hpre
        have hs : s = (Forwarder.run ops).buffer.readIndex := by
          rcases c5 with c5 | c5
          · exact c5
          · have := hv.buf.read
            omega
        refine ⟨by rw [c7, i1]; omega, ?_⟩
        rw [c8, c6, i2, List.take_add_one, c4, hs]
        rfl

private def anEnv (t : Int) : Envelope := { sourceId := "app".toList, timestamp := t }

/-- One envelope through the buffer. -/
private def oneSent (ok : Bool) : List FwdOp := [.send { envelopes := some [anEnv 1] }, .iter true ok]

example : sent (Forwarder.run (oneSent true)) = [anEnv 1] := by decide
example : (Forwarder.run (oneSent true)).buffer.tryNext.2.1 = none := by decide
example (pre : List FwdOp) (h : pre <+: oneSent true) : (accepted pre).length ≤
    (sent (Forwarder.run pre) ++ (Forwarder.run pre).batch).length + 10000 := by
  have : (accepted pre).Sublist (accepted (oneSent true)) := by
    obtain ⟨t, ht⟩ := h
    rw [← ht]
    simp [accepted]
  have h1 := this.length_le
  have h2 : (accepted (oneSent true)).length = 1 := rfl
  omega

/-- **C102 is false for failing peers:** an envelope was accepted, the other node did not
take it, it is sent no second time, and it is not counted as dropped. -/
theorem C102_failed_false : ∃ ops e, accepted ops = [e] ∧
    (Forwarder.run ops).written = [({ envelopes := some [e], localOnly := true }, false)] ∧
    (Forwarder.run ops).batch = [] ∧ (Forwarder.run ops).dropped = 0 ∧
    (Forwarder.run ops).buffer.tryNext.2.1 = none :=
  ⟨oneSent false, anEnv 1, rfl, rfl, rfl, rfl, rfl⟩

/-! ## C71: the nozzle's stream buffer -/

private theorem play_append {ε : Type} (a b : List (BufOp ε)) (d : Diode ε) :
    (play (a ++ b) d).2 = ((play a d).2.1 ++ (play b (play a d).1).2.1, (play a d).2.2 + (play b (play a d).1).2.2) := by
  induction a generalizing d with
  | nil => simp [play]
  | cons op a ih =>
    cases op with
    | set e => rw [List.cons_append, play, play, ih]
    | next => rw [List.cons_append, play, play]; simp only; rw [ih]; simp [Nat.add_assoc]

private theorem play_append_state {ε : Type} (a b : List (BufOp ε)) (d : Diode ε) :
    (play (a ++ b) d).1 = (play b (play a d).1).1 := by
  induction a generalizing d with
  | nil => rfl
  | cons op a ih =>
    cases op with
    | set e => rw [List.cons_append, play, play, ih]
    | next => rw [List.cons_append, play, play]; simp only; rw [ih]

/-- **C71, C102.** The ring buffer of size `n` (10000 in front of other nodes, the
configured size in the nozzle) is a queue that loses its oldest elements only when it
holds more than `n`, and reports exactly how many it lost. -/
theorem C71_buffer {ε : Type} (n : Nat) (hn : 0 < n) (ops : List (BufOp ε)) :
    ∃ q, QueueRun n ops q (play ops { size := n }).2.1 (play ops { size := n }).2.2 ∧
      (q = [] ↔ (play ops { size := n }).1.tryNext.2.1 = none) := by
  suffices h : ∃ hist, RingInv (play ops { size := n }).1 hist ∧ (play ops { size := n }).1.size = n ∧
      QueueRun n ops (hist.drop (play ops { size := n }).1.readIndex) (play ops { size := n }).2.1
        (play ops { size := n }).2.2 by
    obtain ⟨hist, h1, _, h2⟩ := h
    refine ⟨_, h2, ?_⟩
    rcases h1.next with ⟨hr, d', ht, _⟩ | ⟨s, e, d', g1, g2, _, _, _, ht, _⟩
    · rw [ht, hr]; simp
    · rw [ht]
      constructor
      · intro h; rw [List.drop_eq_nil_iff] at h; omega
      · intro h; nomatch h
  induction ops using snocRec with
  | h0 => exact ⟨[], RingInv.fresh n hn, rfl, QueueRun.nil⟩
  | h1 ops op ih =>
    obtain ⟨hist, h1, hsz, h2⟩ := ih
    rw [play_append, play_append_state]
    generalize play ops { size := n } = r at *
    obtain ⟨d, out, k⟩ := r
    simp only at h1 h2 hsz ⊢
    cases op with
    | set e =>
      refine ⟨hist ++ [e], h1.set e, hsz, ?_⟩
      simp only [play, List.append_nil, Nat.add_zero]
      have : (hist ++ [e]).drop (d.set e).readIndex = hist.drop d.readIndex ++ [e] := by
        simp only [Diode.set, Diode.store]
        rw [List.drop_append_of_le_length h1.read]
      rw [this]
      exact h2.set e
    | next =>
      refine ⟨hist, ?_⟩
      simp only [play]
      rcases h1.next with ⟨hr, d', ht, hd, hr', hs'⟩ | ⟨s, e, d', g1, g2, g3, g4, g5, ht, hd, hr', hs'⟩
      · rw [ht]
        refine ⟨hd, hs'.trans hsz, ?_⟩
        simp only [Option.toList, List.append_nil, Nat.add_zero]
        have h0 : hist.drop d.readIndex = [] := by rw [hr]; simp
        rw [hr', h0]
        rw [h0] at h2
        exact h2.empty
      · rw [ht]
        refine ⟨hd, hs'.trans hsz, ?_⟩
        simp only [Option.toList, List.append_nil, Nat.add_zero]
        have hsplit : hist.drop d.readIndex = (hist.drop d.readIndex).take (s - d.readIndex) ++ e :: hist.drop (s + 1) := by
          have h3 : hist.drop s = e :: hist.drop (s + 1) := by
            rw [List.getElem?_eq_some_iff] at g4
            obtain ⟨hlt, he⟩ := g4
            rw [← he, List.drop_eq_getElem_cons hlt]
          rw [← h3]
          have := List.take_append_drop (s - d.readIndex) (hist.drop d.readIndex)
          rw [List.drop_drop, show d.readIndex + (s - d.readIndex) = s by omega] at this
          exact this.symm
        have hlen : ((hist.drop d.readIndex).take (s - d.readIndex)).length = s - d.readIndex := by
          rw [List.length_take, List.length_drop]; omega
        rw [hr']
        have := QueueRun.next (n := n) (hsplit ▸ h2) (by
          rcases g5 with g5 | g5
          · left; apply List.length_eq_zero_iff.1; omega
          · right; rw [← hsplit, List.length_drop]; omega) (by rw [List.length_drop]; omega)
        rw [hlen] at this
        exact this

example : (play [.set 'a', .set 'b', .set 'c', .next, .next] ({ size := 2 } : Diode Char)).2 = (['c'], 2) := rfl

/-! ## C103 -/

/-- **C103 (partial).** A `Set` that is not interrupted by another one does what `Set`
should do, whatever the buffer: two of them put both elements. -/
theorem C103_serial_partial {ε : Type} (d : Diode ε) (e₁ e₂ : ε) :
    setBoth e₁ e₂ (List.replicate 5 false ++ List.replicate 5 true) (d, .start, .start) =
      ((d.set e₁).set e₂, .finished, .finished) := rfl

/-- Where a `Set` is that began on `d`, while nobody else sets. -/
private def SetAt {ε : Type} (d d₀ : Diode ε) : SetPc → Prop
  | .start => d₀ = d
  | .placed idx => d₀ = d ∧ idx = d.writeIndex % d.size
  | .numbered idx seq => d₀ = d ∧ idx = d.writeIndex % d.size ∧ seq = d.writeIndex
  | .loaded idx seq w => d₀ = d ∧ idx = d.writeIndex % d.size ∧ seq = d.writeIndex ∧ w = d.writeIndex
  | .counted idx seq => d₀ = { d with writeIndex := d.writeIndex + 1 } ∧ idx = d.writeIndex % d.size ∧
      seq = d.writeIndex
  | .finished => False

private theorem tryNext_frame {ε : Type} (d : Diode ε) (w : Nat) :
    ({ d with writeIndex := w } : Diode ε).tryNext = ({ d.tryNext.1 with writeIndex := w }, d.tryNext.2) ∧
    d.tryNext.1.writeIndex = d.writeIndex ∧ d.tryNext.1.size = d.size := by
  simp only [Diode.tryNext]
  cases d.slots (d.readIndex % d.size) with
  | none => exact ⟨rfl, rfl, rfl⟩
  | some p =>
    obtain ⟨s, e⟩ := p
    simp only
    by_cases h : s < d.readIndex
    · rw [if_pos h, if_pos h]; exact ⟨rfl, rfl, rfl⟩
    · rw [if_neg h, if_neg h]; exact ⟨rfl, rfl, rfl⟩

private theorem SetAt.poll {ε : Type} {d d₀ : Diode ε} {p : SetPc} (h : SetAt d d₀ p) :
    SetAt d.tryNext.1 d₀.tryNext.1 p ∧ d₀.tryNext.2 = d.tryNext.2 := by
  obtain ⟨_, f2, f3⟩ := tryNext_frame d 0
  obtain ⟨f1, _, _⟩ := tryNext_frame d (d.writeIndex + 1)
  cases p with
  | start => cases h; exact ⟨rfl, rfl⟩
  | placed idx => obtain ⟨rfl, h⟩ := h; simp only [SetAt]; rw [f2, f3]; exact ⟨⟨trivial, h⟩, trivial⟩
  | numbered idx seq => obtain ⟨rfl, h⟩ := h; simp only [SetAt]; rw [f2, f3]; exact ⟨⟨trivial, h⟩, trivial⟩
  | loaded idx seq w => obtain ⟨rfl, h⟩ := h; simp only [SetAt]; rw [f2, f3]; exact ⟨⟨trivial, h⟩, trivial⟩
  | counted idx seq =>
    obtain ⟨h0, h⟩ := h
    rw [h0, f1]
    simp only [SetAt]
    rw [f2, f3]
    exact ⟨⟨rfl, h⟩, trivial⟩
  | finished => exact h.elim

private theorem SetAt.step {ε : Type} {d d₀ : Diode ε} {p : SetPc} (e : ε) (h : SetAt d d₀ p) :
    SetAt d (setStep e d₀ p).1 (setStep e d₀ p).2 ∨
      ((setStep e d₀ p).1 = d.set e ∧ (setStep e d₀ p).2 = .finished) := by
  cases p with
  | start => cases h; exact .inl ⟨rfl, rfl⟩
  | placed idx => obtain ⟨rfl, h⟩ := h; exact .inl ⟨rfl, h, rfl⟩
  | numbered idx seq => obtain ⟨rfl, h, h'⟩ := h; exact .inl ⟨rfl, h, h', rfl⟩
  | loaded idx seq w => obtain ⟨rfl, h, h', h''⟩ := h; subst h''; exact .inl ⟨rfl, h, h'⟩
  | counted idx seq => obtain ⟨rfl, rfl, rfl⟩ := h; exact .inr ⟨rfl, rfl⟩
  | finished => exact h.elim

private theorem reading_after {ε : Type} (e : ε) (sched : List Bool) (d : Diode ε) :
    setWhileReading e sched d .finished =
      ((play (List.replicate (sched.count true) .next) d).1, .finished,
        (play (List.replicate (sched.count true) .next) d).2) := by
  induction sched generalizing d with
  | nil => rfl
  | cons b sched ih =>
    cases b with
    | false => rw [setWhileReading]; simp only [setStep]; rw [ih]; simp
    | true =>
      rw [setWhileReading, List.count_cons_self, List.replicate_succ, play]
      simp only
      rw [ih]

private theorem one_writer {ε : Type} (e : ε) (sched : List Bool) (d d₀ : Diode ε) (p : SetPc) (h : SetAt d d₀ p)
    (hf : (setWhileReading e sched d₀ p).2.1 = .finished) :
    ∃ a b, a + b = sched.count true ∧
      (setWhileReading e sched d₀ p).1 = (play (List.replicate a .next ++ .set e :: List.replicate b .next) d).1 ∧
      (setWhileReading e sched d₀ p).2.2 = (play (List.replicate a .next ++ .set e :: List.replicate b .next) d).2 := by
  induction sched generalizing d d₀ p with
  | nil =>
    rw [setWhileReading] at hf
    simp only at hf
    subst hf
    exact h.elim
  | cons x sched ih =>
    cases x with
    | false =>
      rw [setWhileReading] at hf ⊢
      rcases h.step e with h' | ⟨h1, h2⟩
      · obtain ⟨a, b, hab, h3⟩ := ih _ _ _ h' hf
        exact ⟨a, b, by simpa using hab, h3⟩
      · rw [h1, h2, reading_after]
        exact ⟨0, sched.count true, by simp, rfl, rfl⟩
    | true =>
      rw [setWhileReading] at hf ⊢
      simp only at hf ⊢
      obtain ⟨h1, h2⟩ := h.poll
      obtain ⟨a, b, hab, h3, h4⟩ := ih _ _ _ h1 hf
      refine ⟨a + 1, b, by simp; omega, ?_, ?_⟩
      · rw [List.replicate_succ, List.cons_append, play]
        exact h3
      · rw [List.replicate_succ, List.cons_append, play, h2]
        simp only
        rw [h4]

/-- **C103 (partial).** While only one call sets, `Set` and the reader's calls are atomic
although neither takes a lock: however their instructions interleave, the outcome is that
of some of the reads, then the whole `Set`, then the other reads. -/
theorem C103_one_writer_partial {ε : Type} (d : Diode ε) (e : ε) (sched : List Bool)
    (h : (setWhileReading e sched d .start).2.1 = .finished) :
    ∃ a b, a + b = sched.count true ∧
      (setWhileReading e sched d .start).1 = (play (List.replicate a .next ++ .set e :: List.replicate b .next) d).1 ∧
      (setWhileReading e sched d .start).2.2 = (play (List.replicate a .next ++ .set e :: List.replicate b .next) d).2 :=
  one_writer e sched d d .start rfl h

example : (setWhileReading 'x' [false, true, false, false, true, false, false, true] { size := 3 } .start).2 =
    (.finished, ['x'], 0) := rfl

private theorem many_sets {ε : Type} (sched : List Bool) (d d₀ : Diode ε) (p : SetPc) (es : List ε)
    (h : SetAt d d₀ p) (hp : es = [] → p = .start) :
    ∃ ops, sets ops ++ (setsWhileReading sched d₀ p es).2.2.1 = es ∧
      ops.length = (sets ops).length + sched.count true ∧
      (setsWhileReading sched d₀ p es).2.2.2 = (play ops d).2 ∧
      ((setsWhileReading sched d₀ p es).2.1 = .start → (setsWhileReading sched d₀ p es).1 = (play ops d).1) := by
  induction sched generalizing d d₀ p es with
  | nil =>
    refine ⟨[], rfl, rfl, rfl, ?_⟩
    rw [setsWhileReading]
    intro hs
    simp only at hs
    subst hs
    exact h
  | cons x sched ih =>
    cases x with
    | false =>
      cases es with
      | nil =>
        rw [setsWhileReading]
        obtain ⟨ops, h1, h2, h3, h4⟩ := ih d d₀ p [] h hp
        exact ⟨ops, h1, by simpa using h2, h3, h4⟩
      | cons e es =>
        rw [setsWhileReading]
        rcases h.step e with h' | ⟨h1, h2⟩
        · obtain ⟨ops, h3, h4, h5, h6⟩ := ih d (setStep e d₀ p).1 (setStep e d₀ p).2 (e :: es) h'
            (fun hh => by cases hh)
          generalize setStep e d₀ p = q at h' h3 h4 h5 h6 ⊢
          obtain ⟨d1, p1⟩ := q
          cases p1 with
          | finished => exact h'.elim
          | _ => exact ⟨ops, h3, by simpa using h4, h5, h6⟩
        · obtain ⟨ops, h3, h4, h5, h6⟩ := ih (d.set e) (d.set e) .start es rfl (fun _ => rfl)
          generalize setStep e d₀ p = q at h1 h2 ⊢
          obtain ⟨d1, p1⟩ := q
          simp only at h1 h2
          subst h1 h2
          refine ⟨.set e :: ops, ?_, ?_, h5, h6⟩
          · have : sets (.set e :: ops) = e :: sets ops := rfl
            rw [this, List.cons_append]
            exact congrArg (e :: ·) h3
          · have : sets (.set e :: ops) = e :: sets ops := rfl
            rw [this]
            simp only [List.length_cons]
            rw [h4]
            simp
            omega
    | true =>
      rw [setsWhileReading]
      obtain ⟨h1, h2⟩ := h.poll
      obtain ⟨ops, h3, h4, h5, h6⟩ := ih _ _ p es h1 hp
      refine ⟨.next :: ops, h3, ?_, ?_, h6⟩
      · have : sets (.next :: ops) = sets ops := rfl
        rw [this]
        simp only [List.length_cons]
        rw [h4]
        simp
        omega
      · rw [play, h2]
        simp only
        rw [h5]

/-- **C103 (partial).** Any number of calls, one after the other, and however the instructions
of the writer and of the reader interleave: what the reader has got, and the number of
elements counted as dropped, are at any time those of whole calls in some order in time, in
which the elements are set in the order they were sent; between two calls the buffer is the
one of these. -/
theorem C103_in_turn_partial {ε : Type} (d : Diode ε) (es : List ε) (sched : List Bool) :
    ∃ ops, sets ops ++ (setsWhileReading sched d .start es).2.2.1 = es ∧
      ops.length = (sets ops).length + sched.count true ∧
      (setsWhileReading sched d .start es).2.2.2 = (play ops d).2 ∧
      ((setsWhileReading sched d .start es).2.1 = .start →
        (setsWhileReading sched d .start es).1 = (play ops d).1) :=
  many_sets sched d d .start es rfl (fun _ => rfl)

/-- Two elements; the reader reads in the middle of both calls and after them. -/
example : (setsWhileReading [false, true, false, false, false, false, false, true, false, false, false, true, false, true]
    { size := 3 } .start ['x', 'y']).2 = (.start, [], ['x', 'y'], 0) := rfl

private theorem play_next_none {ε : Type} {d : Diode ε} (h : d.slots (d.readIndex % d.size) = none) (k : Nat) :
    (play (List.replicate k .next) d).2 = ([], 0) := by
  have ht : d.tryNext = (d, none, 0) := by rw [Diode.tryNext, h]
  induction k with
  | zero => rfl
  | succ k ih =>
    rw [List.replicate_succ, play, ht]
    simp only
    rw [ih]
    rfl

/-- **C103 is false: lost.** Two concurrent calls of `Send` for the same node can take the
same place: both return, one envelope is delivered, the other one never, and however
often the buffer is read it is not counted as dropped. For every size of the buffer. -/
theorem C103_lost_false {ε : Type} (n : Nat) (hn : 0 < n) (e₁ e₂ : ε) :
    ∃ sched d, setBoth e₁ e₂ sched ({ size := n }, .start, .start) = (d, .finished, .finished) ∧
      ∀ k, (play (.next :: List.replicate k .next) d).2 = ([e₂], 0) := by
  refine ⟨[false, true, false, true, false, true, false, true, false, true], _, rfl, fun k => ?_⟩
  have h0 : 0 % n = 0 := Nat.zero_mod n
  rw [play]
  simp only [setStep, Diode.store, Diode.tryNext, h0, if_true, Nat.lt_irrefl, if_false, Nat.sub_self]
  rw [play_next_none]
  · rfl
  · simp only
    by_cases h1 : (0 + 1) % n = 0
    · rw [if_pos h1]
    · rw [if_neg h1, if_neg h1, if_neg h1]

/-- The reader waits for a bucket that nobody writes. -/
private structure Stalled {ε : Type} (n : Nat) (d : Diode ε) (k : Nat) : Prop where
  size : d.size = n
  read : d.readIndex = 1
  write : d.writeIndex = 2 + k
  hole : d.slots 1 = none

private theorem Stalled.set {ε : Type} {n k : Nat} {d : Diode ε} (h : Stalled n d k) (hn : 2 ≤ n)
    (hk : k + 1 < n) (e : ε) : Stalled n (d.set e) (k + 1) := by
  refine ⟨h.size, h.read, by simp [Diode.set, h.write]; omega, ?_⟩
  simp only [Diode.set, Diode.store]
  rw [if_neg, h.hole]
  rw [h.size, h.write]
  by_cases h2 : 2 + k = n
  · rw [h2, Nat.mod_self]; omega
  · rw [Nat.mod_eq_of_lt (by omega)]; omega

private theorem Stalled.next {ε : Type} {n k : Nat} {d : Diode ε} (h : Stalled n d k) (hn : 2 ≤ n) :
    d.tryNext = (d, none, 0) := by
  rw [Diode.tryNext, h.read, h.size, Nat.mod_eq_of_lt (by omega), h.hole]

private theorem Stalled.play {ε : Type} {n : Nat} (hn : 2 ≤ n) (ops : List (BufOp ε)) {k : Nat} {d : Diode ε}
    (h : Stalled n d k) (hk : (sets ops).length + k < n) :
    (Spec.Fwd.play ops d).2 = ([], 0) ∧ Stalled n (Spec.Fwd.play ops d).1 (k + (sets ops).length) := by
  induction ops generalizing k d with
  | nil => exact ⟨rfl, h⟩
  | cons op ops ih =>
    cases op with
    | set e =>
      have hs : sets (.set e :: ops) = e :: sets ops := rfl
      rw [hs, List.length_cons] at hk ⊢
      rw [Spec.Fwd.play]
      have := ih (h.set hn (by omega) e) (by omega)
      rw [show k + ((sets ops).length + 1) = k + 1 + (sets ops).length by omega]
      exact this
    | next =>
      have hs : sets (.next :: ops) = sets ops := rfl
      rw [hs] at hk ⊢
      rw [Spec.Fwd.play, h.next hn]
      obtain ⟨h1, h2⟩ := ih h hk
      simp only
      rw [h1]
      exact ⟨rfl, h2⟩

private theorem sets_map {ε : Type} (es : List ε) : sets (es.map BufOp.set) = es := by
  induction es with
  | nil => rfl
  | cons e es ih =>
    have : sets ((e :: es).map BufOp.set) = e :: sets (es.map BufOp.set) := rfl
    rw [this, ih]

/-- **C103 is false: stalled.** Two concurrent calls can leave a hole in the buffer. The
other node is sent one of their envelopes; then nothing: none of the next `n - 1` envelopes
is delivered, however often the buffer is read in between, and none is counted as
dropped. The envelope after them is delivered, and they are lost. -/
theorem C103_stall_false {ε : Type} (n : Nat) (hn : 2 ≤ n) (e₁ e₂ : ε) :
    ∃ sched d d', setBoth e₁ e₂ sched ({ size := n }, .start, .start) = (d, .finished, .finished) ∧
      d.tryNext = (d', some e₂, 0) ∧
      (∀ ops, (sets ops).length < n → (play ops d').2 = ([], 0)) ∧
      ∀ (es : List ε) x, es.length + 1 = n → (play (es.map .set ++ [.set x, .next]) d').2 = ([x], n) := by
  have h0 : 0 % n = 0 := Nat.zero_mod n
  refine ⟨[false, false, true, true, false, false, true, true, false, true], _,
    { size := n, writeIndex := 2, readIndex := 1 }, rfl, ?_, ?_, ?_⟩
  · simp only [setStep, Diode.store, Diode.tryNext, h0, if_true, Nat.lt_irrefl, if_false, Nat.sub_self]
    congr 1
    congr 1
    funext j
    by_cases hj : j = 0
    · rw [if_pos hj]
    · rw [if_neg hj, if_neg hj, if_neg hj]
  · intro ops ho
    exact (Stalled.play hn ops (k := 0) ⟨rfl, rfl, rfl, rfl⟩ (by omega)).1
  · intro es x hes
    have hp := Stalled.play (ε := ε) (d := { size := n, writeIndex := 2, readIndex := 1 }) hn (es.map .set) (k := 0)
      ⟨rfl, rfl, rfl, rfl⟩ (by rw [sets_map]; omega)
    rw [play_append, hp.1]
    obtain ⟨p1, p2, p3, p4⟩ := hp.2
    rw [sets_map] at p3
    generalize (play (es.map BufOp.set) _).1 = d at *
    have hm : (2 + (0 + es.length)) % n = 1 := by
      rw [show 2 + (0 + es.length) = 1 + n by omega, Nat.add_mod_right, Nat.mod_eq_of_lt (by omega)]
    simp only [play, Diode.set, Diode.store, Diode.tryNext, p1, p2, p3, hm]
    rw [Nat.mod_eq_of_lt (by omega : 1 < n), if_pos rfl]
    simp only
    rw [if_neg (by omega)]
    simp only [List.nil_append, Option.toList, List.append_nil]
    congr 1
    omega

/-- With the size of the buffer in log-cache: 9999 accepted envelopes are not delivered. -/
example (e₁ e₂ : Envelope) : ∃ sched d d', setBoth e₁ e₂ sched ({ size := 10000 }, .start, .start) =
    (d, .finished, .finished) ∧ d.tryNext = (d', some e₂, 0) ∧
    (play ((List.replicate 9999 e₁).map .set ++ List.replicate 9999 .next) d').2 = ([], 0) := by
  obtain ⟨sched, d, d', h1, h2, h3, _⟩ := C103_stall_false 10000 (by omega) e₁ e₂
  refine ⟨sched, d, d', h1, h2, h3 _ ?_⟩
  have hn : ∀ k, sets (List.replicate k (BufOp.next : BufOp Envelope)) = [] := by
    intro k
    induction k with
    | zero => rfl
    | succ k ih => rw [List.replicate_succ]; exact ih
  have ha : ∀ a b : List (BufOp Envelope), sets (a ++ b) = sets a ++ sets b := fun a b => List.filterMap_append
  rw [ha, sets_map, hn, List.append_nil, List.length_replicate]
  omega

end LogCache
