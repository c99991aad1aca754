import Verif.Spec.Nozzle

/-!
# Property theorems about the nozzle (C71-C73)
-/

namespace LogCache

open Spec.Noz

/-! ## C71 -/

private theorem flush_events {ε : Type} (s : Nozzle ε) :
    ((nozzleFlush s).2 = [.queued s.pending] ∧
      (nozzleFlush s).1 = { s with chan := s.chan ++ [s.pending], pending := [] } ∧ s.chan.length < 512) ∨
    ((nozzleFlush s).2 = [.dropped s.pending] ∧ (nozzleFlush s).1 = { s with pending := [] } ∧
      512 ≤ s.chan.length) := by
  unfold nozzleFlush batchChannelSize
  by_cases h : s.chan.length < 512
  · rw [if_pos h]; exact .inl ⟨rfl, rfl, h⟩
  · rw [if_neg h]; exact .inr ⟨rfl, rfl, by omega⟩

/-- What one iteration of the batcher does, in terms of the envelopes it sees. -/
private theorem iter_spec {ε : Type} (fired : Bool) (s : Nozzle ε) :
    ∃ buffer pending, (pending ++ buffer = s.pending ++ s.buffer) ∧ pending.length ≤ s.pending.length + 1 ∧
      ((batcherIter fired s = ({ s with buffer := buffer, pending := pending }, []) ∧
          pending.length < 512 ∧ (fired = true → pending = [])) ∨
       (pending ≠ [] ∧ s.chan.length < 512 ∧
          batcherIter fired s = ({ s with buffer := buffer, pending := [], chan := s.chan ++ [pending] },
            [.queued pending])) ∨
       (pending ≠ [] ∧ 512 ≤ s.chan.length ∧
          batcherIter fired s = ({ s with buffer := buffer, pending := [] }, [.dropped pending]))) := by
  obtain ⟨s1, hs1, hb⟩ : ∃ s1 : Nozzle ε, s1 = (match s.buffer with
      | [] => s
      | e :: rest => { s with buffer := rest, pending := s.pending ++ [e] }) ∧
      batcherIter fired s = if fired then
        if s1.pending.length > 0 then nozzleFlush s1 else (s1, [])
      else
        if s1.pending.length ≥ batchChannelSize then nozzleFlush s1 else (s1, []) := ⟨_, rfl, rfl⟩
  have h1 : s1 = { s with buffer := s1.buffer, pending := s1.pending } := by
    rw [hs1]; cases s.buffer <;> rfl
  have h2 : s1.pending ++ s1.buffer = s.pending ++ s.buffer := by
    rw [hs1]; cases hb : s.buffer <;> simp [hb]
  have h3 : s1.pending.length ≤ s.pending.length + 1 := by
    rw [hs1]; cases hb : s.buffer <;> simp
  refine ⟨s1.buffer, s1.pending, h2, h3, ?_⟩
  have hfl : s1.pending ≠ [] → batcherIter fired s = nozzleFlush s1 →
      (s1.pending ≠ [] ∧ s.chan.length < 512 ∧
          batcherIter fired s = ({ s with buffer := s1.buffer, pending := [], chan := s.chan ++ [s1.pending] },
            [.queued s1.pending])) ∨
       (s1.pending ≠ [] ∧ 512 ≤ s.chan.length ∧
          batcherIter fired s = ({ s with buffer := s1.buffer, pending := [] }, [.dropped s1.pending])) := by
    intro hne he
    have hc : s1.chan = s.chan := by rw [h1]
    rcases flush_events s1 with ⟨f1, f2, f3⟩ | ⟨f1, f2, f3⟩
    · left
      refine ⟨hne, hc ▸ f3, ?_⟩
      rw [he]
      apply Prod.ext
      · rw [f2]; simp only; rw [h1]
      · rw [f1]
    · right
      refine ⟨hne, hc ▸ f3, ?_⟩
      rw [he]
      apply Prod.ext
      · rw [f2]; simp only; rw [h1]
      · rw [f1]
  cases fired with
  | true =>
    rw [if_pos rfl] at hb
    by_cases hp : s1.pending.length > 0
    · rw [if_pos hp] at hb
      exact .inr (hfl (fun h => by rw [h] at hp; simp at hp) hb)
    · rw [if_neg hp] at hb
      have hnil : s1.pending = [] := List.length_eq_zero_iff.1 (by omega)
      exact .inl ⟨by rw [hb, ← h1], by omega, fun _ => hnil⟩
  | false =>
    rw [if_neg (by simp)] at hb
    by_cases hp : s1.pending.length ≥ batchChannelSize
    · rw [if_pos hp] at hb
      exact .inr (hfl (fun h => by rw [h] at hp; simp [batchChannelSize] at hp) hb)
    · rw [if_neg hp] at hb
      exact .inl ⟨by rw [hb, ← h1], by unfold batchChannelSize at hp; omega, by simp⟩

private theorem noz_inv {ε : Type} {evs : List (NozEvent ε)} {s : Nozzle ε} (h : NozRun evs s) :
    s.pending.length < 512 ∧ s.chan.length ≤ 512 ∧
    (received evs).Perm (consumed evs ++ (s.pending ++ s.buffer)) ∧
    (batched evs ++ (s.pending ++ s.buffer)).Sublist (received evs) ∧
    (∀ b, .queued b ∈ evs ∨ .dropped b ∈ evs → 1 ≤ b.length ∧ b.length ≤ 512) ∧
    (queued evs).Perm (s.chan ++ s.inflight ++ delivered evs ++ failed evs) ∧
    (s.reading ≤ 1 ∧ s.ingress + s.reading = (received evs).length) ∧
    s.egress + s.sent.sum = (delivered evs).flatten.length ∧
    s.err + s.refused = (failed evs).length := by
  induction h with
  | nil => exact ⟨by simp, by simp, List.Perm.nil, List.Sublist.refl _, by simp, List.Perm.nil, ⟨by simp, rfl⟩, rfl, rfl⟩
  | @step evs s evs' s' hr hs ih =>
    obtain ⟨i1, i2, i3, i3', i4, i5, i6, i7, i8⟩ := ih
    have app : ∀ {α : Type} (f : NozEvent ε → Option α), (evs ++ evs').filterMap f =
        evs.filterMap f ++ evs'.filterMap f := fun f => List.filterMap_append
    have hrec : received (evs ++ evs') = received evs ++ received evs' := app _
    have hcon : consumed (evs ++ evs') = consumed evs ++ consumed evs' := List.flatMap_append
    have hbat : batched (evs ++ evs') = batched evs ++ batched evs' := List.flatMap_append
    have hque : queued (evs ++ evs') = queued evs ++ queued evs' := app _
    have hdel : delivered (evs ++ evs') = delivered evs ++ delivered evs' := app _
    have hfai : failed (evs ++ evs') = failed evs ++ failed evs' := app _
    rw [hrec, hcon, hbat, hque, hdel, hfai]
    cases hs with
    | receive e hrd =>
      refine ⟨i1, i2, ?_, ?_, ?_, ?_, ?_, ?_, ?_⟩
      · have := i3.append_right [e]
        simpa [received, consumed] using this
      · have := i3'.append_right [e]
        simpa [received, batched] using this
      · intro b hb
        refine i4 b ?_
        simpa using hb
      · simpa [queued, delivered, failed] using i5
      · simp [received] at i6 ⊢; omega
      · simpa [delivered] using i7
      · simpa [failed] using i8
    | count hrd =>
      simp only [List.append_nil, show received ([] : List (NozEvent ε)) = [] from rfl,
        show consumed ([] : List (NozEvent ε)) = [] from rfl, show batched ([] : List (NozEvent ε)) = [] from rfl,
        show queued ([] : List (NozEvent ε)) = [] from rfl, show delivered ([] : List (NozEvent ε)) = [] from rfl,
        show failed ([] : List (NozEvent ε)) = [] from rfl]
      exact ⟨i1, i2, i3, i3', i4, i5, ⟨by omega, by omega⟩, i7, i8⟩
    | countSent l r n hsn =>
      simp only [List.append_nil, show received ([] : List (NozEvent ε)) = [] from rfl,
        show consumed ([] : List (NozEvent ε)) = [] from rfl, show batched ([] : List (NozEvent ε)) = [] from rfl,
        show queued ([] : List (NozEvent ε)) = [] from rfl, show delivered ([] : List (NozEvent ε)) = [] from rfl,
        show failed ([] : List (NozEvent ε)) = [] from rfl]
      refine ⟨i1, i2, i3, i3', i4, i5, i6, ?_, i8⟩
      rw [hsn] at i7
      simp only [List.sum_append, List.sum_cons] at i7 ⊢
      omega
    | countFailed n hrf =>
      simp only [List.append_nil, show received ([] : List (NozEvent ε)) = [] from rfl,
        show consumed ([] : List (NozEvent ε)) = [] from rfl, show batched ([] : List (NozEvent ε)) = [] from rfl,
        show queued ([] : List (NozEvent ε)) = [] from rfl, show delivered ([] : List (NozEvent ε)) = [] from rfl,
        show failed ([] : List (NozEvent ε)) = [] from rfl]
      exact ⟨i1, i2, i3, i3', i4, i5, i6, i7, by omega⟩
    | lose n =>
      refine ⟨i1, i2, ?_, ?_, ?_, ?_, ?_, ?_, ?_⟩
      · refine (show (received evs ++ received [NozEvent.lost (s.buffer.take n)]).Perm _ from ?_)
        have h1 : received [NozEvent.lost (s.buffer.take n)] = [] := rfl
        have h2 : consumed [NozEvent.lost (s.buffer.take n)] = s.buffer.take n := by simp [consumed]
        rw [h1, h2, List.append_nil, List.append_assoc]
        refine i3.trans (List.Perm.append_left _ ?_)
        simp only
        rw [← List.append_assoc]
        refine List.Perm.trans ?_ (List.Perm.append_right _ List.perm_append_comm)
        rw [List.append_assoc, List.take_append_drop]
      · have h1 : received [NozEvent.lost (s.buffer.take n)] = [] := rfl
        have h2 : batched [NozEvent.lost (s.buffer.take n)] = [] := rfl
        rw [h1, h2, List.append_nil, List.append_nil]
        refine List.Sublist.trans (List.Sublist.append_left (List.Sublist.append_left (List.drop_sublist n _) _) _) i3'
      · intro b hb
        refine i4 b ?_
        simpa using hb
      · simpa [queued, delivered, failed] using i5
      · simpa [received] using i6
      · simpa [delivered] using i7
      · simpa [failed] using i8
    | batch fired =>
      obtain ⟨buf, pend, hpb, hlen, hcase⟩ := iter_spec fired s
      rcases hcase with ⟨he, hlt, _⟩ | ⟨hne, hroom, he⟩ | ⟨hne, hfull, he⟩
      · rw [he]
        simp only [List.append_nil]
        refine ⟨hlt, i2, ?_, ?_, i4, ?_, ?_, ?_, ?_⟩
        · simp only [received, consumed, List.filterMap_nil, List.flatMap_nil, List.append_nil] at i3 ⊢
          rw [hpb]; exact i3
        · simp only [received, batched, List.filterMap_nil, List.flatMap_nil, List.append_nil] at i3' ⊢
          rw [hpb]; exact i3'
        · simpa [queued, delivered, failed] using i5
        · simpa [received] using i6
        · simpa [delivered] using i7
        · simpa [failed] using i8
      · rw [he]
        have h1 : received [NozEvent.queued pend] = [] := rfl
        have h2 : consumed [NozEvent.queued pend] = pend := by simp [consumed]
        have h3 : batched [NozEvent.queued pend] = pend := by simp [batched]
        have h4 : queued [NozEvent.queued pend] = [pend] := rfl
        have h5 : delivered [NozEvent.queued pend] = [] := rfl
        have h6 : failed [NozEvent.queued pend] = [] := rfl
        simp only
        rw [h1, h2, h3, h4, h5, h6]
        simp only [List.append_nil, List.nil_append]
        refine ⟨by simp, ?_, ?_, ?_, ?_, ?_, i6, i7, i8⟩
        · simp; omega
        · rw [List.append_assoc, hpb]; exact i3
        · rw [List.append_assoc, hpb]; exact i3'
        · intro b hb
          rcases hb with hb | hb
          · rcases List.mem_append.1 hb with hb | hb
            · exact i4 b (.inl hb)
            · rw [List.mem_singleton] at hb
              injection hb with hb
              subst hb
              have := List.length_pos_iff.2 hne
              omega
          · rcases List.mem_append.1 hb with hb | hb
            · exact i4 b (.inr hb)
            · rw [List.mem_singleton] at hb; cases hb
        · refine (i5.append_right [pend]).trans ?_
          simp only [List.append_assoc]
          refine List.Perm.append_left _ ?_
          have := List.perm_append_comm (l₁ := s.inflight ++ (delivered evs ++ failed evs)) (l₂ := [pend])
          simpa only [List.append_assoc] using this
      · rw [he]
        have h1 : received [NozEvent.dropped pend] = [] := rfl
        have h2 : consumed [NozEvent.dropped pend] = pend := by simp [consumed]
        have h3 : batched [NozEvent.dropped pend] = pend := by simp [batched]
        have h4 : queued [NozEvent.dropped pend] = [] := rfl
        have h5 : delivered [NozEvent.dropped pend] = [] := rfl
        have h6 : failed [NozEvent.dropped pend] = [] := rfl
        simp only
        rw [h1, h2, h3, h4, h5, h6]
        simp only [List.append_nil, List.nil_append]
        refine ⟨by simp, i2, ?_, ?_, ?_, i5, i6, i7, i8⟩
        · rw [List.append_assoc, hpb]; exact i3
        · rw [List.append_assoc, hpb]; exact i3'
        · intro b hb
          rcases hb with hb | hb
          · rcases List.mem_append.1 hb with hb | hb
            · exact i4 b (.inl hb)
            · rw [List.mem_singleton] at hb; cases hb
          · rcases List.mem_append.1 hb with hb | hb
            · exact i4 b (.inr hb)
            · rw [List.mem_singleton] at hb
              injection hb with hb
              subst hb
              have := List.length_pos_iff.2 hne
              omega
    | take b rest hc =>
      have h1 : received ([] : List (NozEvent ε)) = [] := rfl
      have h2 : consumed ([] : List (NozEvent ε)) = [] := rfl
      have h3 : batched ([] : List (NozEvent ε)) = [] := rfl
      have h4 : queued ([] : List (NozEvent ε)) = [] := rfl
      have h5 : delivered ([] : List (NozEvent ε)) = [] := rfl
      have h6 : failed ([] : List (NozEvent ε)) = [] := rfl
      rw [h1, h2, h3, h4, h5, h6]
      simp only [List.append_nil]
      refine ⟨i1, ?_, i3, i3', i4, ?_, i6, i7, i8⟩
      · rw [hc] at i2; simp at i2; omega
      · refine i5.trans ?_
        rw [hc]
        refine List.Perm.append_right _ (List.Perm.append_right _ ?_)
        simp only [List.cons_append]
        exact List.perm_middle.symm
    | deliver l r b hi =>
      have h1 : received [NozEvent.delivered b] = [] := rfl
      have h2 : consumed [NozEvent.delivered b] = [] := rfl
      have h3 : batched [NozEvent.delivered b] = [] := rfl
      have h4 : queued [NozEvent.delivered b] = [] := rfl
      have h5 : delivered [NozEvent.delivered b] = [b] := rfl
      have h6 : failed [NozEvent.delivered b] = [] := rfl
      rw [h1, h2, h3, h4, h5, h6]
      simp only [List.append_nil]
      refine ⟨i1, i2, i3, i3', ?_, ?_, i6, ?_, i8⟩
      · intro b' hb; refine i4 b' ?_; simpa using hb
      · refine i5.trans ?_
        rw [hi]
        simp only [List.append_assoc]
        refine List.Perm.append_left _ (List.Perm.append_left _ ?_)
        classical
        refine List.perm_iff_count.2 fun a => ?_
        simp only [List.cons_append, List.count_cons, List.count_append, List.count_nil]
        omega
      · rw [List.flatten_append, List.length_append, ← i7]; simp; omega
    | fail l r b hi =>
      have h1 : received [NozEvent.failed b] = [] := rfl
      have h2 : consumed [NozEvent.failed b] = [] := rfl
      have h3 : batched [NozEvent.failed b] = [] := rfl
      have h4 : queued [NozEvent.failed b] = [] := rfl
      have h5 : delivered [NozEvent.failed b] = [] := rfl
      have h6 : failed [NozEvent.failed b] = [b] := rfl
      rw [h1, h2, h3, h4, h5, h6]
      simp only [List.append_nil]
      refine ⟨i1, i2, i3, i3', ?_, ?_, i6, i7, ?_⟩
      · intro b' hb; refine i4 b' ?_; simpa using hb
      · refine i5.trans ?_
        rw [hi]
        simp only [List.append_assoc]
        refine List.Perm.append_left _ (List.Perm.append_left _ ?_)
        classical
        refine List.perm_iff_count.2 fun a => ?_
        simp only [List.cons_append, List.count_cons, List.count_append, List.count_nil]
        omega
      · rw [List.length_append, ← i8]; simp; omega

/-- Every batch has between 1 and 512 envelopes. -/
theorem C71_batch_size {ε : Type} {evs : List (NozEvent ε)} {s : Nozzle ε} (h : NozRun evs s)
    (b : List ε) (hb : .queued b ∈ evs ∨ .dropped b ∈ evs ∨ .delivered b ∈ evs ∨ .failed b ∈ evs) :
    1 ≤ b.length ∧ b.length ≤ 512 := by
  obtain ⟨_, _, _, _, i4, i5, _⟩ := noz_inv h
  have hq : b ∈ queued evs → 1 ≤ b.length ∧ b.length ≤ 512 := by
    intro hb
    obtain ⟨ev, h1, h2⟩ := List.mem_filterMap.1 hb
    cases ev <;> simp at h2
    subst h2
    exact i4 _ (.inl h1)
  rcases hb with hb | hb | hb | hb
  · exact i4 b (.inl hb)
  · exact i4 b (.inr hb)
  · refine hq (i5.mem_iff.2 ?_)
    have : b ∈ delivered evs := List.mem_filterMap.2 ⟨_, hb, rfl⟩
    simp [this]
  · refine hq (i5.mem_iff.2 ?_)
    have : b ∈ failed evs := List.mem_filterMap.2 ⟨_, hb, rfl⟩
    simp [this]

/-- Every received envelope is in exactly one place: lost in the stream buffer,
dropped, queued, or still buffered; and every queued batch is waiting, being sent,
delivered or failed. -/
theorem C71_conservation {ε : Type} {evs : List (NozEvent ε)} {s : Nozzle ε} (h : NozRun evs s) :
    (received evs).Perm (consumed evs ++ (s.pending ++ s.buffer)) ∧
    (queued evs).Perm (s.chan ++ s.inflight ++ delivered evs ++ failed evs) := by
  obtain ⟨_, _, i3, _, _, i5, _⟩ := noz_inv h
  exact ⟨i3, i5⟩

/-- Batching keeps the order: the batches, one after the other, followed by what is
buffered, are a subsequence of the received stream; and all of it if the stream
buffer lost nothing. -/
theorem C71_order {ε : Type} {evs : List (NozEvent ε)} {s : Nozzle ε} (h : NozRun evs s) :
    (batched evs ++ (s.pending ++ s.buffer)).Sublist (received evs) ∧
    ((∀ es, .lost es ∈ evs → es = []) → received evs = batched evs ++ (s.pending ++ s.buffer)) := by
  obtain ⟨_, _, i3, i3', hrest⟩ := noz_inv h
  clear hrest
  refine ⟨i3', ?_⟩
  intro hl
  have hcb : consumed evs = batched evs := by
    clear i3 i3' h
    induction evs with
    | nil => rfl
    | cons ev evs ih =>
      have ih' := ih fun es hes => hl es (List.mem_cons_of_mem _ hes)
      simp only [consumed, batched, List.flatMap_cons] at ih' ⊢
      rw [ih']
      cases ev <;> try rfl
      rw [hl _ (List.mem_cons_self ..)]
  refine (i3'.eq_of_length ?_).symm
  rw [← hcb]
  exact i3.length_eq.symm

/-- The counters: `nozzle_ingress` counts the received envelopes, `nozzle_egress`
the delivered ones, `nozzle_err` the failed batches.  None is ever ahead, `nozzle_ingress` is
behind by one envelope at most, and they are exact when no goroutine is about to count. -/
theorem C71_counters {ε : Type} {evs : List (NozEvent ε)} {s : Nozzle ε} (h : NozRun evs s) :
    (s.ingress ≤ (received evs).length ∧ (received evs).length ≤ s.ingress + 1 ∧
      s.egress ≤ (delivered evs).flatten.length ∧ s.err ≤ (failed evs).length) ∧
    (s.reading = 0 → s.ingress = (received evs).length) ∧
    (s.sent = [] → s.egress = (delivered evs).flatten.length) ∧
    (s.refused = 0 → s.err = (failed evs).length) := by
  obtain ⟨_, _, _, _, _, _, ⟨i1, i2⟩, i3, i4⟩ := noz_inv h
  refine ⟨⟨by omega, by omega, by omega, by omega⟩, fun hr => by omega, fun hs => ?_, fun hf => by omega⟩
  rw [hs] at i3
  exact i3

/-- An envelope is put into the buffer before it is counted.  So the counters may show more
envelopes delivered than received. -/
theorem C71_ahead_false : ∃ (evs : List (NozEvent Nat)) (s : Nozzle Nat), NozRun evs s ∧
    s.ingress = 0 ∧ s.egress = 1 := by
  have h := NozRun.step (NozRun.step (NozRun.step (NozRun.step (NozRun.step .nil
    (.receive _ 1 rfl)) (.batch _ true)) (.take _ [1] [] (by rfl))) (.deliver _ [] [] [1] rfl))
    (.countSent _ [] [] 1 rfl)
  exact ⟨_, _, h, rfl, rfl⟩

/-- Envelopes are dropped only when 512 batches are waiting, so no memory is used
without bound: at most 512 batches wait and fewer than 512 envelopes are pending. -/
theorem C71_bounded {ε : Type} {evs : List (NozEvent ε)} {s : Nozzle ε} (h : NozRun evs s) :
    s.chan.length ≤ 512 ∧ s.pending.length < 512 ∧
    ∀ evs' s', NozStep s evs' s' → ∀ b, .dropped b ∈ evs' → s.chan.length = 512 := by
  obtain ⟨i1, i2, _⟩ := noz_inv h
  refine ⟨i2, i1, ?_⟩
  intro evs' s' hs b hb
  cases hs with
  | batch fired =>
    obtain ⟨buf, pend, _, _, hcase⟩ := iter_spec fired s
    rcases hcase with ⟨he, _⟩ | ⟨_, _, he⟩ | ⟨_, hfull, he⟩
    · rw [he] at hb; cases hb
    · rw [he] at hb; simp at hb
    · omega
  | _ => simp at hb

/-- When the flush timer has fired, nothing stays behind in the batcher. -/
theorem C71_flush {ε : Type} (s : Nozzle ε) : (batcherIter true s).1.pending = [] := by
  obtain ⟨buf, pend, _, _, hcase⟩ := iter_spec true s
  rcases hcase with ⟨he, _, hp⟩ | ⟨_, _, he⟩ | ⟨_, _, he⟩
  · rw [he]; exact hp rfl
  · rw [he]
  · rw [he]

/-- One envelope goes through the batcher on a timer tick. -/
private theorem run_one {evs : List (NozEvent Nat)} {s : Nozzle Nat} (h : NozRun evs s)
    (hb : s.buffer = []) (hp : s.pending = []) (hr : s.reading = 0) :
    (s.chan.length < 512 → NozRun (evs ++ [.received 0] ++ [.queued [0]])
      { s with chan := s.chan ++ [[0]], ingress := s.ingress + 1 }) ∧
    (¬ s.chan.length < 512 → NozRun (evs ++ [.received 0] ++ [.dropped [0]])
      { s with ingress := s.ingress + 1 }) := by
  obtain ⟨buffer, pending, chan, inflight, ingress, egress, err, reading, sent, refused⟩ := s
  simp only at hb hp hr
  subst hb; subst hp; subst hr
  have h1 := NozRun.step (NozRun.step h (.receive _ 0 rfl)) (.count _ rfl)
  have h2 := NozRun.step h1 (.batch _ true)
  constructor
  · intro hc
    simp only at hc
    simpa [batcherIter, nozzleFlush, batchChannelSize, hc] using h2
  · intro hc
    simp only at hc
    simpa [batcherIter, nozzleFlush, batchChannelSize, hc] using h2

/-- The metrics do not show every loss: a run that ends with all buffers empty, no
failed batch and nothing lost in the stream buffer, in which 513 envelopes came in
and 512 went out. -/
theorem C71_drop_false : ∃ (evs : List (NozEvent Nat)) (s : Nozzle Nat), NozRun evs s ∧
    s.buffer = [] ∧ s.pending = [] ∧ s.chan = [] ∧ s.inflight = [] ∧
    s.reading = 0 ∧ s.sent = [] ∧ s.refused = 0 ∧ s.ingress = 513 ∧ s.egress = 512 ∧ s.err = 0 ∧ .dropped [0] ∈ evs ∧ ∀ es, .lost es ∉ evs := by
  have fill : ∀ n, n ≤ 512 → ∃ evs, NozRun evs ⟨[], [], List.replicate n [0], [], n, 0, 0, 0, [], 0⟩ ∧
      ∀ es, NozEvent.lost es ∉ evs := by
    intro n
    induction n with
    | zero => intro _; exact ⟨[], .nil, by simp⟩
    | succ n ih =>
      intro hn
      obtain ⟨evs, h1, h2⟩ := ih (by omega)
      have := (run_one h1 rfl rfl rfl).1 (by simp; omega)
      simp only [← List.replicate_succ'] at this
      exact ⟨_, this, by intro es; simpa using h2 es⟩
  obtain ⟨evs, h1, h2⟩ := fill 512 (by omega)
  have hd := (run_one h1 rfl rfl rfl).2 (by rw [List.length_replicate]; omega)
  have hnl : ∀ es, NozEvent.lost es ∉ evs ++ [.received 0] ++ [.dropped [0]] := by
    intro es; simpa using h2 es
  have drain : ∀ n, n ≤ 512 → ∃ evs, NozRun evs ⟨[], [], List.replicate (512 - n) [0], [], 513, n, 0, 0, [], 0⟩ ∧
      .dropped [0] ∈ evs ∧ ∀ es, NozEvent.lost es ∉ evs := by
    intro n
    induction n with
    | zero => intro _; exact ⟨_, hd, by simp, hnl⟩
    | succ n ih =>
      intro hn
      obtain ⟨evs, g1, g2, g3⟩ := ih (by omega)
      have ht := NozRun.step g1 (.take _ [0] (List.replicate (512 - (n + 1)) [0])
        (by simp only; rw [show 512 - n = (512 - (n + 1)) + 1 by omega, List.replicate_succ]))
      have hs := NozRun.step (NozRun.step ht (.deliver _ [] [] [0] rfl)) (.countSent _ [] [] 1 rfl)
      exact ⟨_, hs, by simp [g2], by intro es; simpa using g3 es⟩
  obtain ⟨evs', g1, g2, g3⟩ := drain 512 (by omega)
  exact ⟨evs', _, g1, rfl, rfl, rfl, rfl, rfl, rfl, rfl, rfl, rfl, rfl, g2, g3⟩

-- Two envelopes arrive, the timer fires after the second, a worker delivers both.
example : ∃ evs, NozRun evs (⟨[], [], [], [], 2, 2, 0, 0, [], 0⟩ : Nozzle Nat) ∧ .delivered [1, 2] ∈ evs := by
  have h := NozRun.step (NozRun.step (NozRun.step (NozRun.step (NozRun.step (NozRun.step (NozRun.step (NozRun.step (NozRun.step .nil
    (.receive _ 1 rfl)) (.count _ rfl)) (.batch _ false)) (.receive _ 2 rfl)) (.batch _ true)) (.count _ rfl))
    (.take _ [1, 2] [] (by rfl))) (.deliver _ [] [] [1, 2] rfl)) (.countSent _ [] [] 2 rfl)
  exact ⟨_, h, by simp⟩

/-! ## C72 -/

/-- The nozzle asks for exactly the configured kinds, in order, if all their names
are known. -/
theorem C72_selectors_partial (names : List Str) :
    ((∀ n ∈ names, n ∈ ["log".toList, "gauge".toList, "counter".toList, "timer".toList, "event".toList]) ↔
      ∀ s ∈ buildSelectors names, s ≠ none) ∧
    (buildSelectors names).length = names.length ∧
    buildSelectors ["log".toList, "gauge".toList, "counter".toList, "timer".toList, "event".toList] =
      [some .log, some .gauge, some .counter, some .timer, some .event] := by
  refine ⟨?_, by simp [buildSelectors], by decide⟩
  have key : ∀ n, n ∈ ["log".toList, "gauge".toList, "counter".toList, "timer".toList, "event".toList] ↔
      selectorTypes n ≠ none := by
    intro n
    unfold selectorTypes
    by_cases h1 : n = "log".toList
    · rw [if_pos h1, h1]; exact ⟨fun _ => by simp, fun _ => List.mem_cons_self ..⟩
    rw [if_neg h1]
    by_cases h2 : n = "gauge".toList
    · rw [if_pos h2, h2]; exact ⟨fun _ => by simp, fun _ => by decide⟩
    rw [if_neg h2]
    by_cases h3 : n = "counter".toList
    · rw [if_pos h3, h3]; exact ⟨fun _ => by simp, fun _ => by decide⟩
    rw [if_neg h3]
    by_cases h4 : n = "timer".toList
    · rw [if_pos h4, h4]; exact ⟨fun _ => by simp, fun _ => by decide⟩
    rw [if_neg h4]
    by_cases h5 : n = "event".toList
    · rw [if_pos h5, h5]; exact ⟨fun _ => by simp, fun _ => by decide⟩
    rw [if_neg h5]
    refine ⟨?_, fun h => absurd rfl h⟩
    intro h
    rcases List.mem_cons.1 h with h | h
    · exact absurd h h1
    rcases List.mem_cons.1 h with h | h
    · exact absurd h h2
    rcases List.mem_cons.1 h with h | h
    · exact absurd h h3
    rcases List.mem_cons.1 h with h | h
    · exact absurd h h4
    rcases List.mem_cons.1 h with h | h
    · exact absurd h h5
    · cases h
  unfold buildSelectors
  constructor
  · intro h s hs
    obtain ⟨n, hn, rfl⟩ := List.mem_map.1 hs
    exact (key n).1 (h n hn)
  · intro h n hn
    exact (key n).2 (h _ (List.mem_map.2 ⟨n, hn, rfl⟩))

/-- Name by name: the selector in each place of the request is the kind of the name in that
place of the configuration, whatever the list of names. -/
theorem C72_each (names : List Str) (i : Nat) :
    (buildSelectors names)[i]? = (names[i]?).map fun n =>
      [("log".toList, SelectorKind.log), ("gauge".toList, .gauge), ("counter".toList, .counter),
        ("timer".toList, .timer), ("event".toList, .event)].lookup n := by
  unfold buildSelectors
  rw [List.getElem?_map]
  congr 1
  funext n
  unfold selectorTypes
  simp only [List.lookup]
  by_cases h1 : n = "log".toList
  · subst h1; rfl
  rw [if_neg h1, show (n == "log".toList) = false by simpa using h1]
  by_cases h2 : n = "gauge".toList
  · subst h2; rfl
  rw [if_neg h2, show (n == "gauge".toList) = false by simpa using h2]
  by_cases h3 : n = "counter".toList
  · subst h3; rfl
  rw [if_neg h3, show (n == "counter".toList) = false by simpa using h3]
  by_cases h4 : n = "timer".toList
  · subst h4; rfl
  rw [if_neg h4, show (n == "timer".toList) = false by simpa using h4]
  by_cases h5 : n = "event".toList
  · subst h5; rfl
  rw [if_neg h5, show (n == "event".toList) = false by simpa using h5]

example : (buildSelectors ["timer".toList, "log".toList, "timer".toList])[2]? = some (some .timer) := by decide

/-- A misspelt selector becomes a nil entry of the request. -/
theorem C72_unknown_false : none ∈ buildSelectors ["log".toList, "logs".toList] := by decide

end LogCache
