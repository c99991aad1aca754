import Verif.Spec.QueryEnd
import Verif.Props.WalkGrpc
import Verif.Props.PromEnd

/-! # What was sent is what queries return (C157) -/

namespace LogCache
open Spec

theorem wanted_window {compile : Str → Option (Str → Bool)} {now : Int} {q : ReadRequest} (h0 : q.stop ≠ 0)
    {log : List WireEnvelope} {e : WireEnvelope} (he : e ∈ wanted compile now q log) :
    q.start ≤ e.timestamp ∧ e.timestamp < q.stop := by
  unfold wanted at he
  have h1 := List.mem_of_mem_take he
  have h2 := (List.mem_filter.1 h1).1
  obtain ⟨a, ha, hp⟩ := List.mem_filterMap.1 h2
  have ha := (List.mem_filter.1 ha).2
  rw [if_neg h0, Bool.and_eq_true, decide_eq_true_eq, decide_eq_true_eq] at ha
  have : e.timestamp = a.timestamp := by
    unfold wireProject at hp
    split at hp
    · cases hp; rfl
    · split at hp
      · split at hp <;> cases hp <;> rfl
      · cases hp
  rw [this]
  exact ha

theorem strField_len (k : Nat) (hk : k < 16) {s : Str} {B : Nat} (hs : (utf8Bytes s).length ≤ B) (hB : B ≤ 4194304) :
    (encFields (strField k s)).length ≤ B + 5 := by
  unfold strField optField
  split
  · simp [encFields]
  · have h1 : (putVarint (k * 8 + 2)).length ≤ 1 := putVarint_len (k := 0) (by omega)
    have h2 : (putVarint (utf8Bytes s).length).length ≤ 4 := putVarint_len (k := 3) (by norm_num; omega)
    simp only [encFields, WireVal.body, WireVal.wireType, List.length_append, List.length_nil]
    omega

section
variable {compile : Str → Option (Str → Bool)} {cfg : Config} {n : Nat} {L : Str → List Nat}
    {evs : List CEvent} {c : Cluster} {posts : List SendReq} {id : Str} {start stop : Int}
    {log : List WireEnvelope}

theorem query_size (hid : (utf8Bytes id).length ≤ 4000000) (hs : FitsInt64 stop) (s : Int) (hs' : FitsInt64 s) :
    (readReqProto.encode (walkRequest (dataReaderCfg (metricsBetween id start stop)) id s)).length ≤ grpcMaxMessage := by
  have h1 := intField_len 2 (by omega) hs'
  have h2 := intField_len 3 (by omega) hs
  have h3 := strField_len 1 (by omega) hid (by omega)
  have h5 : (encFields (intField 4 0 ++ (optField false 5 (.bytes (putEnums [.gauge, .counter, .timer])) ++
      (boolField 6 false ++ strField 7 [])))).length ≤ 20 := by decide +kernel
  have h4 : (readReqProto.encode (walkRequest (dataReaderCfg (metricsBetween id start stop)) id s)).length =
      (encFields (strField 1 id)).length + ((encFields (intField 2 s)).length + ((encFields (intField 3 stop)).length +
      (encFields (intField 4 0 ++ (optField false 5 (.bytes (putEnums [.gauge, .counter, .timer])) ++
      (boolField 6 false ++ strField 7 [])))).length)) := by
    rw [← encLen_append, ← encLen_append, ← encLen_append]
    rfl
  rw [h4]
  unfold grpcMaxMessage
  omega

theorem fairWalk_query (hid : (utf8Bytes id).length ≤ 4000000) (hf1 : FitsInt64 start) (hf2 : FitsInt64 stop)
    (h0 : stop ≠ 0) (hw : start ≤ stop) :
    FairWalk compile (dataReaderCfg (metricsBetween id start stop)) id stop where
  ends := rfl
  stop0 := h0
  fits := ⟨hf1, hf2⟩
  window := hw
  known := by intro k; simp [dataReaderCfg, metricsBetween]
  limit := by simp [dataReaderCfg, metricsBetween]
  filter := .inl rfl
  size := query_size hid hf2

/-- A read of a window that ends before it begins is turned down. -/
theorem grpcRead_late (hcl : AtRest cfg n L evs c posts id) (hin : PostedInOrder posts id log)
    (hid : (utf8Bytes id).length ≤ 4000000) (hf1 : FitsInt64 start)
    (hf2 : FitsInt64 stop) (h0 : stop ≠ 0) (hw : stop < start) (j : Nat) (now : Int) (out : Option (List WireEnvelope)) :
    GrpcRead compile now c j (walkRequest (dataReaderCfg (metricsBetween id start stop)) id start) out ↔ out = none := by
  have hreq : readReqProto.decode (readReqProto.encode
      (walkRequest (dataReaderCfg (metricsBetween id start stop)) id start)) =
      some (walkRequest (dataReaderCfg (metricsBetween id start stop)) id start) := by
    refine C115_read_request _ ⟨hf1, hf2, by unfold FitsInt64; norm_num [walkRequest, dataReaderCfg, metricsBetween], ?_⟩
      (max_lt (query_size hid hf2 start hf1))
    intro t ht
    have : t ∈ [EType.gauge, EType.counter, EType.timer] := ht
    simp only [List.mem_cons, List.not_mem_nil, or_false] at this
    rcases this with rfl | rfl | rfl <;> trivial
  have hloc : ∀ st, localRead compile now st (walkRequest (dataReaderCfg (metricsBetween id start stop)) id start) =
      some (.error .startAfterEnd) := by
    intro st
    have : readArgs compile now (walkRequest (dataReaderCfg (metricsBetween id start stop)) id start) =
        .error .startAfterEnd := by
      unfold readArgs
      rw [if_pos ⟨h0, hw⟩]
    unfold localRead
    rw [this]
  constructor
  · rintro (⟨hops, i, resp, hat, ⟨_, q, es, ws, b, hdec, hl, _⟩, hback⟩ | ⟨rfl, _⟩)
    · rw [hreq] at hdec
      injection hdec with hdec
      subst hdec
      rw [hloc] at hl
      cases hl
    · rfl
  · rintro rfl
    obtain ⟨-, ⟨hops, i, hex⟩, -⟩ := node_reads compile now hcl j hin
      (q := metricsBetween id stop stop) rfl (by simp [metricsBetween]) (.inr (le_refl _))
      (by simp [metricsBetween]) (.inl rfl)
    exact .inr ⟨rfl, .inr ⟨hops, i, hex, .inr (.inr ⟨_, _, hreq, hloc _⟩)⟩⟩

/-- A read of data for a query, through any node, ends and returns what was sent. -/
theorem C157_reader (hcl : AtRest cfg n L evs c posts id) (hin : PostedInOrder posts id log)
    (hid : (utf8Bytes id).length ≤ 4000000) (hB : ∀ e ∈ postedFor posts id, (wireEnvelopeProto.encode e).length ≤ 41937)
    (hf1 : FitsInt64 start) (hf2 : FitsInt64 stop) (h0 : stop ≠ 0) (j : Nat) :
    (∃ tr, QueryWalk compile c j log id start stop tr) ∧
    ∀ tr, QueryWalk compile c j log id start stop tr → dataReaderResult false (delivered tr) =
      some (answer start stop (some [.gauge, .counter, .timer]) none (log.map envelopeCode)) := by
  by_cases hw : start ≤ stop
  · have hfair := fairWalk_query (compile := compile) hid hf1 hf2 h0 hw
    refine ⟨?_, fun tr hrun => ?_⟩
    · obtain ⟨now, hnow⟩ : ∃ now : Int, ∀ e ∈ log, e.timestamp ≤ now - 1000000000 := by
        have harr := (node_reads compile 0 hcl j hin (q := metricsBetween id start stop) rfl (by simp [metricsBetween])
          (.inr hw) (by simp [metricsBetween]) (.inl rfl)).1
        refine ⟨2 ^ 64, fun e he => ?_⟩
        have := (harr e he).1.1.2
        omega
      suffices hg : ∀ (k : Nat) (s : WalkState Int), (stop - s.start).toNat < k → FitsInt64 s.start → s.start ≤ stop →
          ∃ tr, WalkRun dataReaderBackoff (dataReaderCfg (metricsBetween id start stop)) id
            (GrpcReader compile c j log 1000000000) s tr none from
        hg _ (walkInit _ 0) (Nat.lt_succ_self _) hf1 hw
      intro k
      induction k with
      | zero =>
        intro s hk hs hss
        omega
      | succ k ih =>
        intro s hk hs hss
        have hread := (grpcRead_iff hcl hin hfair j hs hss 0 _).2 rfl
        rw [if_pos (by
          have hl := wanted_len (compile := compile) (now := 0)
            (q := walkRequest (dataReaderCfg (metricsBetween id start stop)) id s.start) (log := log) (B := 41937)
            fun e he => hB e (hin.1.mem_iff.1 he)
          refine answer_bound hl.2 ?_
          have h4 : grpcMaxMessage = 4194304 := rfl
          have h5 : (wanted compile 0 (walkRequest (dataReaderCfg (metricsBetween id start stop)) id s.start) log).length ≤
            100 := hl.1
          omega)] at hread
        have hre : GrpcReader compile c j log 1000000000
            (walkRequest (dataReaderCfg (metricsBetween id start stop)) id s.start) (.got _ now true) :=
          ⟨rfl, hnow, 0, _, hread, rfl⟩
        rcases hst : walkStep dataReaderBackoff (dataReaderCfg (metricsBetween id start stop)) s
          (.got ((wanted compile 0 (walkRequest (dataReaderCfg (metricsBetween id start stop)) id s.start) log).map
            envelopeCode) now true) with ⟨v, r⟩
        cases r with
        | none => exact ⟨_, .done hre hst⟩
        | some s' =>
          cases v with
          | none =>
            exfalso
            unfold walkStep at hst
            simp only at hst
            split at hst
            · simp [dataReaderBackoff, retryBackoff] at hst
            · simp at hst
          | some d =>
            obtain ⟨es, now', more, last, he, rfl, hl, hn⟩ := walkStep_visit hst
            injection he with he _ _
            subst he
            have hm := (walkTrim_prefix _ _ _ _).subset (List.mem_of_getLast? hl)
            obtain ⟨e, he, rfl⟩ := List.mem_map.1 hm
            have hwin := wanted_window h0 he
            have hwin : s.start ≤ e.timestamp ∧ e.timestamp < stop := hwin
            have hs' : s'.start = e.timestamp + 1 := by
              split at hn
              · cases hn
              · cases hn; rfl
            have h2' := hf2
            unfold FitsInt64 at hs h2' ih
            obtain ⟨tr, htr⟩ := ih s' (by rw [hs']; omega) (by rw [hs']; constructor <;> omega) (by rw [hs']; omega)
            exact ⟨_, .step hre hst htr⟩
    · obtain ⟨whole, rfl, -, -, hd, -⟩ := C143_walk_partial hcl hin hfair j (B := 41937) hB (by
        show (100 : Int).toNat * (41937 + 5) + 5 ≤ 4194304
        decide) hrun
      unfold dataReaderResult
      rw [if_neg (by simp), hd rfl, ← wanted_code]
      congr 1
      have : (fun e : Envelope => decide (∀ t ∈ [EType.gauge, EType.counter, EType.timer], t = .any) ||
          decide (∃ t ∈ [EType.gauge, EType.counter, EType.timer], kind e = some t)) =
          typeOk (some [.gauge, .counter, .timer]) := (funext (typeOk_requested [.gauge, .counter, .timer])).symm
      unfold answer
      rw [← this]
      refine List.take_of_length_le ?_ |>.trans ?_
      · refine (List.length_filter_le _ _).trans ((List.length_filterMap_le _ _).trans ((List.length_filter_le _ _).trans ?_))
        simp only [walkRequest, Bool.false_eq_true, if_false, List.length_map]
        rw [if_neg (by omega)]
        omega
      · simp only [walkRequest, Bool.false_eq_true, if_false, dataReaderCfg, metricsBetween, Option.getD_some, if_neg h0,
          reduceCtorEq, if_true]
  · have hlate : ∀ i, GrpcReader compile c j log 1000000000
        (walkRequest (dataReaderCfg (metricsBetween id start stop)) id start) i ↔ i = .failed false := by
      intro i
      constructor
      · intro hi
        cases i with
        | failed d => rw [hi.1]
        | got es now more =>
          obtain ⟨_, _, now', ws, hr, _⟩ := hi
          cases (grpcRead_late hcl hin hid hf1 hf2 h0 (by omega) j now' _).1 hr
      · rintro rfl
        exact ⟨rfl, 0, (grpcRead_late hcl hin hid hf1 hf2 h0 (by omega) j 0 none).2 rfl⟩
    have hf := (hlate _).2 rfl
    refine ⟨⟨List.replicate 5 (.failed false, none),
      .step hf rfl (.step hf rfl (.step hf rfl (.step hf rfl (.done hf rfl))))⟩, fun tr hrun => ?_⟩
    have hnone : answer start stop (some [.gauge, .counter, .timer]) none (log.map envelopeCode) = [] := by
      unfold answer
      have : (log.map envelopeCode).filter (inWindow start stop) = [] := by
        rw [List.filter_eq_nil_iff]
        intro e _
        unfold inWindow
        rw [Bool.and_eq_true, decide_eq_true_eq, decide_eq_true_eq]
        omega
      rw [this]
      rfl
    have hdel : delivered tr = [] := by
      suffices hg : ∀ (s : WalkState Int) r, s.start = start →
          WalkRun dataReaderBackoff (dataReaderCfg (metricsBetween id start stop)) id
            (GrpcReader compile c j log 1000000000) s tr r → delivered tr = [] from hg _ _ rfl hrun
      clear hrun
      intro s r hs h
      induction h with
      | nil => rfl
      | done he hst =>
        rw [hs, hlate] at he
        subst he
        simp only [walkStep, Bool.false_eq_true, if_false, Prod.mk.injEq] at hst
        rw [← hst.1]
        rfl
      | step he hst _ ih =>
        rw [hs, hlate] at he
        subst he
        simp only [walkStep, Bool.false_eq_true, if_false, Prod.mk.injEq] at hst
        obtain ⟨h1, h2⟩ := hst
        have := ih (by
          split at h2
          · cases h2; exact hs
          · cases h2)
        rw [← h1]
        exact this
    rw [hdel, hnone]
    rfl
end

/-- What was sent, as it is stored. -/
theorem storedLogs_sent {posts : List SendReq} (ha : ∀ r ∈ posts, ∀ e ∈ r.envelopes.getD [], Arrived e)
    {log : Str → List WireEnvelope} (hin : ∀ id, PostedInOrder posts id (log id)) :
    StoredLogs fun id => (log id).map envelopeCode := by
  have hmem : ∀ id, ∀ e ∈ log id, Arrived e ∧ e.sourceId = id := by
    intro id e he
    have := (hin id).1.mem_iff.1 he
    unfold postedFor at this
    rw [List.mem_filter, decide_eq_true_eq] at this
    obtain ⟨r, hr, he⟩ := List.mem_flatMap.1 this.1
    exact ⟨ha r hr e he, this.2⟩
  refine ⟨fun id => ?_, fun id e he => ?_, fun id e he => ?_⟩
  · exact List.pairwise_map.2 (hin id).2
  · obtain ⟨x, hx, rfl⟩ := List.mem_map.1 he
    exact (hmem id x hx).2
  · obtain ⟨x, hx, rfl⟩ := List.mem_map.1 he
    have := (hmem id x hx).1.1.2.2.2.1
    refine List.pairwise_map.2 (this.imp ?_)
    intro a b h he
    rw [he] at h
    exact absurd h (List.lt_irrefl _)

section
variable {compile : Str → Option (Str → Bool)} {cfg : Config} {n : Nat} {L : Str → List Nat}
    {evs : List CEvent} {c : Cluster} {posts : List SendReq}

theorem answers_sent {ms : List Matcher} {log : Str → List WireEnvelope} (hrest : RestsFor cfg n L evs c posts (NamesSource ms))
    (hin : ∀ id, PostedInOrder posts id (log id)) {j : Nat} {read : ReadRequest → Option (List Envelope)}
    (hr : ReadsByWalks compile c j (NamesSource ms) log read) : AnswersFrom ms (fun id => (log id).map envelopeCode) read := by
  intro id start stop hid hf1 hf2 h0
  obtain ⟨hcl, hlen, hB⟩ := hrest id hid
  obtain ⟨tr, htr, hread⟩ := hr id start stop hid hf1 hf2 h0
  exact hread.trans ((C157_reader hcl (hin id) hlen hB hf1 hf2 h0 j).2 tr htr)

/-- Whatever node is asked: a client that asks for a plain selector gets, over HTTP as over gRPC,
for every combination of labels the value of the newest envelope that was sent, the selector asks
for and is from before the query's time and the five minutes before it. Missing from the full
claim: what C138, C143 and `AtRest` leave out. -/
theorem C157_instant_partial {st : Nat → Nat} (hst : ErrorStatus st) (why msg : Str) (rfc dur : Str → Option Int)
    (parse : Str → Option (List Matcher)) (num : PVal → Go64) (query : Str) (ms : List Matcher)
    (hq : parse query = some ms) (hp : PlainSelector ms)
    (hrest : RestsFor cfg n L evs c posts (NamesSource ms)) (log : Str → List WireEnvelope)
    (hin : ∀ id, PostedInOrder posts id (log id)) (hc : ClearLabels fun id => (log id).map envelopeCode) (j : Nat)
    (read : Nat → ReadRequest → Option (List Envelope)) (hr : ReadsByWalks compile c j (NamesSource ms) log (read 0))
    (order : Nat → List Matcher → List Str) (ho : ValidOrder (order 0))
    (opts : List PromOpt) (now t : Int) (ht : EvaluatedAt opts now t) :
    ∃ samples,
      readProm (unmarshalInstant go64) (gatewayServe go64 st why (promNode go64 rfc dur parse num read order now msg)
        (httpPromQL query opts)) = some (.vector samples) ∧
      grpcProm ((promNode go64 rfc dur parse num read order now msg).instant (grpcPromQL query opts)) =
        some (some (.vector samples)) ∧
      (∀ s ∈ samples, s.point.time = thousandthsText (t / 1000000) ∧
        ∃ e v, Shows ms e v ∧ CarriesLabels s.metric e ∧ s.point.value = num v ∧
          LastWith ((log e.sourceId).map envelopeCode) (fun x => InSeries ms e x ∧ Recent t x) e) ∧
      (∀ id, ∀ e ∈ postedFor posts id, (∃ v, Shows ms (envelopeCode e) v) → Recent t (envelopeCode e) →
        ∃ s ∈ samples, CarriesLabels s.metric (envelopeCode e)) ∧
      samples.Pairwise fun s s' => ¬ SameLabels s.metric s'.metric := by
  obtain ⟨id, hid⟩ := hp.1
  have hs := storedLogs_sent (hrest id hid).1.arrived hin
  obtain ⟨samples, h1, h2, h3, h4, h5⟩ := C138_instant_partial hst why msg rfc dur parse num _ hs hc read ms
    (answers_sent hrest hin hr) order ho query hq hp opts now t ht
  exact ⟨samples, h1, h2, h3,
    fun id e he => h4 id _ (List.mem_map.2 ⟨e, (hin id).1.mem_iff.2 he, rfl⟩), h5⟩

/-- The same for range queries. -/
theorem C157_range_partial {st : Nat → Nat} (hst : ErrorStatus st) (why msg : Str) (rfc dur : Str → Option Int)
    (parse : Str → Option (List Matcher)) (num : PVal → Go64) (query : Str) (ms : List Matcher)
    (hq : parse query = some ms) (hp : PlainSelector ms)
    (hrest : RestsFor cfg n L evs c posts (NamesSource ms)) (log : Str → List WireEnvelope)
    (hin : ∀ id, PostedInOrder posts id (log id)) (hc : ClearLabels fun id => (log id).map envelopeCode) (j : Nat)
    (read : Nat → ReadRequest → Option (List Envelope)) (hr : ReadsByWalks compile c j (NamesSource ms) log (read 0))
    (order : Nat → List Matcher → List Str) (ho : ValidOrder (order 0))
    (opts : List PromOpt) (now : Int) (a b : Nat) (ht : RangeGiven opts a b) (step : Str) (d : Nat)
    (hstep : lastGiven stepOf opts = some step) (hd : parseStep dur step = some (d * 1000000 : Nat)) (hd0 : 1 ≤ d) :
    ∃ series,
      readProm (unmarshalRange go64) (gatewayServe go64 st why (promNode go64 rfc dur parse num read order now msg)
        (httpPromQLRange query opts)) = some (.matrix series) ∧
      grpcProm ((promNode go64 rfc dur parse num read order now msg).range (grpcPromQLRange query opts)) =
        some (some (.matrix series)) ∧
      (∀ s ∈ series, s.points ≠ [] ∧ ∃ e ∈ (log e.sourceId).map envelopeCode, (∃ v, Shows ms e v) ∧
        CarriesLabels s.metric e ∧
        ∃ shown : Int → Option (Envelope × PVal), ∃ ts : List Int, ts.Pairwise (· < ·) ∧
          (∀ T, T ∈ ts ↔ IsStep (a * 1000) (b * 1000) d T) ∧
          (∀ T ∈ ts, StepShows ((log e.sourceId).map envelopeCode) ms e (b * 1000000000) (T * 1000000) (shown T)) ∧
          s.points = ts.filterMap fun T => (shown T).map fun y => ⟨thousandthsText T, num y.2⟩) ∧
      (∀ id, ∀ e ∈ postedFor posts id, (∃ v, Shows ms (envelopeCode e) v) → ∀ T, IsStep (a * 1000) (b * 1000) d T →
        InSecond (T * 1000000) (b * 1000000000) (envelopeCode e) ∨
          SecondsBefore (T * 1000000) (b * 1000000000) (envelopeCode e) →
        ∃ s ∈ series, CarriesLabels s.metric (envelopeCode e)) ∧
      series.Pairwise fun s s' => ¬ SameLabels s.metric s'.metric := by
  obtain ⟨id, hid⟩ := hp.1
  have hs := storedLogs_sent (hrest id hid).1.arrived hin
  obtain ⟨series, h1, h2, h3, h4, h5⟩ := C138_range_partial hst why msg rfc dur parse num _ hs hc read ms
    (answers_sent hrest hin hr) order ho query hq hp opts now a b ht step d hstep hd hd0
  exact ⟨series, h1, h2, h3,
    fun id e he => h4 id _ (List.mem_map.2 ⟨e, (hin id).1.mem_iff.2 he, rfl⟩), h5⟩

/-- Two nodes give the same answers. -/
theorem C157_any_node {ms : List Matcher} {log : Str → List WireEnvelope} (hrest : RestsFor cfg n L evs c posts (NamesSource ms))
    (hin : ∀ id, PostedInOrder posts id (log id)) {i j : Nat} {r1 r2 : ReadRequest → Option (List Envelope)}
    (h1 : ReadsByWalks compile c i (NamesSource ms) log r1) (h2 : ReadsByWalks compile c j (NamesSource ms) log r2) (id : Str) (start stop : Int)
    (hid : NamesSource ms id) (hf1 : FitsInt64 start) (hf2 : FitsInt64 stop) (h0 : stop ≠ 0) :
    r1 (metricsBetween id start stop) = r2 (metricsBetween id start stop) :=
  (answers_sent hrest hin h1 id start stop hid hf1 hf2 h0).trans
    (answers_sent hrest hin h2 id start stop hid hf1 hf2 h0).symm

/-- There is such a reader at every node. -/
theorem readsByWalks_exists {S : Str → Prop} {log : Str → List WireEnvelope} (hrest : RestsFor cfg n L evs c posts S)
    (hin : ∀ id, PostedInOrder posts id (log id)) (j : Nat) : ∃ read, ReadsByWalks compile c j S log read := by
  refine ⟨readerOf fun id => (log id).map envelopeCode, fun id start stop hid hf1 hf2 h0 => ?_⟩
  obtain ⟨hcl, hlen, hB⟩ := hrest id hid
  obtain ⟨⟨tr, htr⟩, hall⟩ := C157_reader (compile := compile) hcl (hin id) hlen hB hf1 hf2 h0 j
  exact ⟨tr, htr, (hall tr htr).symm⟩
end

/-- A counter of the app `a`. -/
def hits (total : Nat) : WireMessage := .counter "hits".toList 1 total

/-- The selector `hits{source_id="a"}`. -/
def hitsOfA : List Matcher :=
  [⟨.equal, "__name__".toList, "hits".toList⟩, ⟨.equal, "source_id".toList, "a".toList⟩]

theorem hitsOfA_plain : PlainSelector hitsOfA := by
  refine ⟨⟨"a".toList, ⟨.equal, "source_id".toList, "a".toList⟩, by simp [hitsOfA], rfl, .inl ⟨rfl, rfl⟩⟩, ?_⟩
  intro m hm
  simp only [hitsOfA, List.mem_cons, List.not_mem_nil, or_false] at hm
  rcases hm with rfl | rfl
  · intro h; exact absurd rfl h.1
  · intro h; exact absurd rfl h.2

theorem hitsOfA_names {id : Str} (h : NamesSource hitsOfA id) : id = "a".toList := by
  obtain ⟨m, hm, hn, hv⟩ := h
  simp only [hitsOfA, List.mem_cons, List.not_mem_nil, or_false] at hm
  rcases hm with rfl | rfl
  · exact absurd hn (by decide)
  · rcases hv with ⟨_, rfl⟩ | ⟨h, _⟩
    · rfl
    · cases h

theorem hits_label {t : Int} {total : Nat} {k v : Str} (h : IsLabelOf (envelopeCode (appMessage t (hits total))) k v) :
    k = "source_id".toList ∧ v = "a".toList := by
  unfold IsLabelOf at h
  split at h
  · exact ⟨by assumption, h⟩
  · split at h
    · rename_i h'
      exact absurd rfl h'.2
    · cases h

theorem hits_arrived (t : Int) (ht : FitsInt64 t) (total : Nat) (h : total < 2 ^ 64) : Arrived (appMessage t (hits total)) := by
  refine ⟨⟨ht, List.Pairwise.nil, by simp [appMessage], List.Pairwise.nil, ?_⟩, by simp [appMessage, hits]⟩
  intro m hm
  have hm : some (hits total) = some m := hm
  cases hm
  exact ⟨by norm_num, h⟩

theorem hits_shows (t : Int) (total : Nat) (v : PVal) :
    Shows hitsOfA (envelopeCode (appMessage t (hits total))) v ↔ v = .counter total := by
  constructor
  · rintro ⟨_, ⟨_, hv⟩, _⟩; exact hv
  · rintro rfl
    refine ⟨⟨⟨.equal, "source_id".toList, "a".toList⟩, by simp [hitsOfA], rfl, .inl ⟨rfl, rfl⟩⟩, ⟨by decide, rfl⟩, ?_⟩
    intro m hm
    simp only [hitsOfA, List.mem_cons, List.not_mem_nil, or_false] at hm
    rcases hm with rfl | rfl
    · intro h; exact absurd rfl h.1
    · intro h; exact absurd rfl h.2

/-- The two counters of the app `a`. -/
def hitsLog (id : Str) : List WireEnvelope :=
  if id = "a".toList then [appMessage 1 (hits 5), appMessage 2 (hits 6)] else []

theorem hits_posted : postedFor (twoMessages (hits 5) (hits 6)) "a".toList =
    [appMessage 1 (hits 5), appMessage 2 (hits 6)] := by
  simp [twoMessages, postedFor, appMessage]

theorem hits_cluster : ∃ evs c, ∀ S : Str → Prop, (∀ id, S id → id = "a".toList) →
    RestsFor { maxPerSource := 5 } 1 (fun _ => [0]) evs c (twoMessages (hits 5) (hits 6)) S := by
  have ha1 := hits_arrived 1 (by unfold FitsInt64; norm_num) 5 (by norm_num)
  have ha2 := hits_arrived 2 (by unfold FitsInt64; norm_num) 6 (by norm_num)
  obtain ⟨evs, c, hcl⟩ := atRest_messages (hits 5) (hits 6) ha1 ha2 (by
    intro r hr
    simp only [twoMessages, List.mem_cons, List.not_mem_nil, or_false] at hr
    rcases hr with rfl | rfl <;> decide +kernel)
  refine ⟨evs, c, fun S hS id hid => ?_⟩
  rw [hS id hid]
  refine ⟨hcl, by decide +kernel, fun e he => ?_⟩
  rw [hits_posted] at he
  simp only [List.mem_cons, List.not_mem_nil, or_false] at he
  rcases he with rfl | rfl <;> decide +kernel

theorem hitsLog_order (id : Str) : PostedInOrder (twoMessages (hits 5) (hits 6)) id (hitsLog id) := by
  by_cases h : id = "a".toList
  · subst h
    exact inOrder_messages _ _
  · have : postedFor (twoMessages (hits 5) (hits 6)) id = [] := by
      unfold postedFor
      rw [List.filter_eq_nil_iff]
      intro e he
      have : e.sourceId = "a".toList := by
        simp only [twoMessages, List.flatMap_cons, List.flatMap_nil, Option.getD_some, List.cons_append, List.nil_append,
          List.append_nil, List.mem_cons, List.not_mem_nil, or_false] at he
        rcases he with rfl | rfl <;> rfl
      rw [this, decide_eq_true_eq]
      exact fun h' => h h'.symm
    unfold PostedInOrder
    rw [this, show hitsLog id = [] from if_neg h]
    exact ⟨List.Perm.refl _, List.Pairwise.nil⟩

theorem hitsLog_mem (id : Str) : ∀ e ∈ (hitsLog id).map envelopeCode, e = envelopeCode (appMessage 1 (hits 5)) ∨
    e = envelopeCode (appMessage 2 (hits 6)) := by
  intro e he
  unfold hitsLog at he
  split at he
  · simpa using he
  · cases he

theorem hitsLog_clear : ClearLabels fun id => (hitsLog id).map envelopeCode := by
  intro id e he k v hl
  obtain ⟨rfl, rfl⟩ : k = "source_id".toList ∧ v = "a".toList := by
    rcases hitsLog_mem id e he with rfl | rfl <;> exact hits_label hl
  refine ⟨by decide, ?_⟩
  rintro id' e' he' k' v' hl' ⟨pre, post, hseg, _⟩
  have : '-' ∈ "a".toList := by rw [hseg]; simp
  exact absurd this (by decide)

/-- The last of the two counters that satisfies a condition which the second one meets is the
second one. -/
theorem hitsLog_last {Q : Envelope → Prop} {e : Envelope} (hQ : Q (envelopeCode (appMessage 2 (hits 6))))
    (h : LastWith ((hitsLog e.sourceId).map envelopeCode) Q e) : e = envelopeCode (appMessage 2 (hits 6)) := by
  obtain ⟨pre, post, hsplit, -, hpost⟩ := h
  have he : e ∈ (hitsLog e.sourceId).map envelopeCode := by rw [hsplit]; simp
  rcases hitsLog_mem _ e he with rfl | rfl
  · exfalso
    have hl : (hitsLog "a".toList).map envelopeCode =
        [envelopeCode (appMessage 1 (hits 5)), envelopeCode (appMessage 2 (hits 6))] := rfl
    change (hitsLog "a".toList).map envelopeCode = _ at hsplit
    rw [hl] at hsplit
    have hin2 : envelopeCode (appMessage 2 (hits 6)) ∈ post := by
      cases pre with
      | nil => rw [List.nil_append] at hsplit; rw [← (List.cons.inj hsplit).2]; simp
      | cons y pre =>
        exfalso
        cases pre with
        | nil =>
          have := (List.cons.inj (List.cons.inj hsplit).2).1
          exact absurd (congrArg Envelope.timestamp this) (by decide)
        | cons z pre =>
          have := (List.cons.inj (List.cons.inj hsplit).2).2
          simp at this
    exact hpost _ hin2 hQ
  · rfl

/-- Two counters sent to a cluster: a client that asks, at any node, for the value after one
second gets that of the second counter. -/
example (rfc dur : Str → Option Int) (num : PVal → Go64) (why msg : Str) :
    ∃ evs c, RestsFor { maxPerSource := 5 } 1 (fun _ => [0]) evs c (twoMessages (hits 5) (hits 6)) (NamesSource hitsOfA) ∧
    ∀ j, (∃ read, ReadsByWalks (fun _ => none) c j (NamesSource hitsOfA) hitsLog read) ∧
      ∀ read, ReadsByWalks (fun _ => none) c j (NamesSource hitsOfA) hitsLog read → ∃ samples s,
        readProm (unmarshalInstant go64) (gatewayServe go64 (fun _ => 500) why
          (promNode go64 rfc dur (fun _ => some hitsOfA) num (fun _ => read) (fun _ ms => (selectArgs ms).ids)
            2000000000 msg) (httpPromQL "hits{source_id='a'}".toList [.time 1000000000])) = some (.vector samples) ∧
        s ∈ samples ∧ s.point.time = "1.000".toList ∧ s.point.value = num (.counter 6) := by
  obtain ⟨evs, c, hcl⟩ := hits_cluster
  have hrest := hcl (NamesSource hitsOfA) fun _ => hitsOfA_names
  refine ⟨evs, c, hrest, fun j => ⟨readsByWalks_exists hrest hitsLog_order j, fun read hr => ?_⟩⟩
  obtain ⟨samples, h1, -, h3, h4, -⟩ := C157_instant_partial (st := fun _ => 500) (fun _ _ => by simp) why msg rfc dur
    (fun _ => some hitsOfA) num "hits{source_id='a'}".toList hitsOfA rfl hitsOfA_plain hrest hitsLog hitsLog_order
    hitsLog_clear j (fun _ => read) hr (fun _ ms => (selectArgs ms).ids) namedOrder_valid [.time 1000000000] 2000000000
    1000000000 ⟨by decide, .inl ⟨rfl, by decide, by decide⟩⟩
  obtain ⟨s, hs, -⟩ := h4 "a".toList (appMessage 2 (hits 6)) (by rw [hits_posted]; simp) ⟨_, (hits_shows _ _ _).2 rfl⟩
    (by unfold Recent secondOf envelopeCode appMessage; decide)
  refine ⟨samples, s, h1, hs, ?_, ?_⟩
  · rw [(h3 s hs).1]
    decide +kernel
  · obtain ⟨-, e, v, hsh, -, hv, hlast⟩ := h3 s hs
    rw [hv]
    have hone : e = envelopeCode (appMessage 2 (hits 6)) := by
      refine hitsLog_last ⟨⟨⟨_, (hits_shows _ _ _).2 rfl⟩, ?_⟩, by unfold Recent secondOf envelopeCode appMessage; decide⟩
        hlast
      obtain ⟨_, _, hsplit, -⟩ := hlast
      rcases hitsLog_mem _ e (by rw [hsplit]; simp) with rfl | rfl <;> exact fun k v => Iff.rfl
    rw [hone, hits_shows] at hsh
    rw [hsh]

end LogCache
