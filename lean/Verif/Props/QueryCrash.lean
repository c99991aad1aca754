import Verif.Spec.QueryCrash
import Verif.Proof.QueryCrash
import Verif.Props.QueryDoor
import Verif.Props.UserCrash

/-! # What queries return while nodes crash (C169) -/

namespace LogCache
open Spec

section
variable {compile : Str → Option (Str → Bool)} {cfg : Config} {n : Nat} {L : Str → List Nat}

/-- What a client of grpc reads, after any history, is part of what was sent that matches. -/
theorem grpc_only {evs : List PruneEvent} {c : Cluster} {posts : List SendReq} (hcl : AnyHistory cfg n L evs c posts)
    {now : Int} {j : Nat} {q : ReadRequest} (hv : ValidReadRequest q) (hkn : ∀ k, EType.other k ∉ q.types)
    {ws : List WireEnvelope} (h : GrpcRead compile now c j q (some ws)) :
    ∃ log, SomeWire log (postedFor posts q.sourceId) ∧ ws.Sublist (matching compile now q log) := by
  rcases h with ⟨hops, i, resp, -, ⟨hsize, q', es, ws', w, hdec, hloc, hws, hsame, rfl⟩, hback⟩ | ⟨h, -⟩
  swap
  · cases h
  rw [C115_read_request _ hv (max_lt hsize)] at hdec
  injection hdec with hdec
  subst hdec
  rcases read_as_get compile now (c.store i) q hkn with ⟨err, he⟩ | ⟨a, res, h1, h2, h3, h4, h5⟩
  · rw [he] at hloc
    injection hloc with hloc
    cases hloc
  · rw [h1] at hloc
    injection hloc with hloc
    injection hloc with hloc
    subst hloc
    obtain ⟨ops, o1, hsome⟩ := node_holds hcl i
    obtain ⟨g1, -⟩ := C02_read_order hcl.some o1 h2
    rw [h5] at g1
    unfold readOrder at g1
    rw [h4] at g1
    obtain ⟨log, hl1, hl2⟩ := some_code (hsome q.sourceId)
    rw [← hl2, matching_code] at g1
    obtain ⟨ws2, hw1, hw2⟩ := List.sublist_map_iff.1 g1
    rw [hw2] at hws
    have := (List.map_injective_iff.2 envelopeCode_inj) hws
    subst this
    have harr : ∀ e ∈ ws', Arrived e := fun e he =>
      arrived_matching (fun e he => postedFor_arrived hcl.arrived e (someWire_mem hl1 he)) e (hw1.subset he)
    by_cases hm : (readRespProto.encode (some ws')).length ≤ grpcMaxMessage
    · have := grpcBack_fits harr (fun w hw => by rw [answer_len hw]; exact hm) hsame hback
      injection this with this
      subst this
      exact ⟨log, hl1, hw1⟩
    · have := grpcBack_large (by rw [answer_len hsame]; omega) hback
      cases this

theorem cutTail_sub (p : Envelope → Bool) (es : List Envelope) : ∀ e ∈ cutTail p es, e ∈ es := by
  intro e he
  unfold cutTail at he
  rw [List.mem_reverse] at he
  exact List.mem_reverse.1 ((List.dropWhile_sublist _).subset he)

theorem walkTrim_sub (c : WalkCfg) (r : Bool) (now : Int) (es : List Envelope) : ∀ e ∈ walkTrim c r now es, e ∈ es := by
  intro e he
  unfold walkTrim at he
  have h1 : ∀ e ∈ (if c.stop.isNone || !r then cutTail (fun e => !decide (e.timestamp ≤ now - c.delay)) es else es), e ∈ es := by
    intro e he
    split at he
    · exact cutTail_sub _ _ e he
    · exact he
  simp only at he
  split at he
  · exact h1 e (cutTail_sub _ _ e he)
  · exact h1 e he

theorem postedFor_early {early posts : List SendReq} (h : early <+: posts) {id : Str} {e : WireEnvelope}
    (he : e ∈ postedFor early id) : e ∈ postedFor posts id := by
  obtain ⟨late, rfl⟩ := h
  rw [postedFor_append]
  exact List.mem_append_left _ he

/-- What the walk of a query is given, whatever happens meanwhile. -/
theorem crash_walk {posts : List SendReq} {j : Nat} {id : Str} {start stop : Int} (hf : FitsInt64 stop) (h0 : stop ≠ 0)
    {s : WalkState Int} {tr : List (WalkIn × Option (List Envelope))} {r : Option (WalkState Int)}
    (h : WalkRun dataReaderBackoff (dataReaderCfg (metricsBetween id start stop)) id (CrashReader compile cfg n L posts j)
      s tr r) (hs : FitsInt64 s.start) :
    ∀ e ∈ (delivered tr).flatten, ∃ w ∈ postedFor posts id, e = envelopeCode w ∧ s.start ≤ w.timestamp ∧
      w.timestamp < stop := by
  have hpage : ∀ {s : WalkState Int} {i : WalkIn} {v : Option (List Envelope)} {s' : Option (WalkState Int)},
      FitsInt64 s.start →
      CrashReader compile cfg n L posts j (walkRequest (dataReaderCfg (metricsBetween id start stop)) id s.start) i →
      walkStep dataReaderBackoff (dataReaderCfg (metricsBetween id start stop)) s i = (v, s') →
      (∀ b, v = some b → ∀ e ∈ b, ∃ w ∈ postedFor posts id, e = envelopeCode w ∧ s.start ≤ w.timestamp ∧
        w.timestamp < stop) ∧ ∀ t, s' = some t → FitsInt64 t.start ∧ s.start ≤ t.start := by
    intro s i v s' hs he hst
    cases i with
    | failed done =>
      simp only [walkStep] at hst
      split at hst
      · cases hst
        exact ⟨fun b hb => (by cases hb), fun t ht => (by cases ht)⟩
      · simp only [Prod.mk.injEq] at hst
        obtain ⟨rfl, rfl⟩ := hst
        refine ⟨fun b hb => (by cases hb), fun t ht => ?_⟩
        split at ht
        · cases ht; exact ⟨hs, le_refl _⟩
        · cases ht
    | got es now more =>
      obtain ⟨evs, c, early, hcl, hpre, now', ws, hread, rfl⟩ := he
      have hin : ∀ e ∈ ws.map envelopeCode, ∃ w ∈ postedFor posts id, e = envelopeCode w ∧ s.start ≤ w.timestamp ∧
          w.timestamp < stop := by
        obtain ⟨log, hl1, hl2⟩ := grpc_only hcl ⟨hs, hf, by unfold FitsInt64 walkRequest dataReaderCfg metricsBetween; simp,
          by intro t ht
             simp only [walkRequest, dataReaderCfg, metricsBetween] at ht
             simp at ht
             rcases ht with rfl | rfl | rfl <;> simp [ValidType]⟩ (by
          intro k hk
          simp [walkRequest, dataReaderCfg, metricsBetween] at hk) hread
        intro e he
        obtain ⟨w, hw, rfl⟩ := List.mem_map.1 he
        have hm := hl2.subset hw
        unfold matching at hm
        obtain ⟨a, ha, hpr⟩ := List.mem_filterMap.1 (List.mem_filter.1 hm).1
        have haw : a = w := by
          simp only [walkRequest, dataReaderCfg, if_true, wireProject] at hpr
          injection hpr
        subst haw
        obtain ⟨hal, hwin⟩ := List.mem_filter.1 ha
        rw [Bool.and_eq_true, decide_eq_true_eq, decide_eq_true_eq] at hwin
        refine ⟨a, postedFor_early hpre (someWire_mem hl1 ?_), rfl, hwin.1, ?_⟩
        · split at hal
          · exact List.mem_reverse.1 hal
          · exact hal
        · have := hwin.2
          rw [if_neg (show ¬ (walkRequest (dataReaderCfg (metricsBetween id start stop)) id s.start).stop = 0 from h0)] at this
          exact this
      have htrim : ∀ e ∈ walkTrim (dataReaderCfg (metricsBetween id start stop)) s.receivedEmpty now (ws.map envelopeCode),
          ∃ w ∈ postedFor posts id, e = envelopeCode w ∧ s.start ≤ w.timestamp ∧ w.timestamp < stop :=
        fun e he => hin e (walkTrim_sub _ _ _ _ e he)
      simp only [walkStep] at hst
      generalize walkTrim (dataReaderCfg (metricsBetween id start stop)) s.receivedEmpty now (ws.map envelopeCode) = es at hst htrim
      split at hst
      · simp only [Prod.mk.injEq] at hst
        obtain ⟨rfl, rfl⟩ := hst
        refine ⟨fun b hb => (by cases hb), fun t ht => ?_⟩
        split at ht
        · cases ht; exact ⟨hs, le_refl _⟩
        · cases ht
      · next last hlast =>
        simp only [Prod.mk.injEq] at hst
        obtain ⟨rfl, rfl⟩ := hst
        refine ⟨fun b hb => ?_, fun t ht => ?_⟩
        · cases hb
          exact htrim
        · obtain ⟨w, -, rfl, h1, h2⟩ := htrim last (List.mem_of_getLast? hlast)
          have hts : (envelopeCode w).timestamp = w.timestamp := rfl
          have hkey : ∀ (b : Bool) (x : WalkState Int), (if b = true then none else some x) = some t → x = t := by
            intro b x h
            cases b
            · exact Option.some.inj h
            · cases h
          rw [← hkey _ _ ht]
          unfold FitsInt64 at hs hf ⊢
          simp only [hts]
          omega
  induction h with
  | nil => intro e he; cases he
  | done he hst =>
    obtain ⟨h1, -⟩ := hpage hs he hst
    intro e hin
    obtain ⟨b, hb, hin⟩ := List.mem_flatten.1 hin
    unfold delivered at hb
    obtain ⟨x, hx, hxb⟩ := List.mem_filterMap.1 hb
    rw [List.mem_singleton] at hx
    subst hx
    exact h1 b hxb e hin
  | step he hst _ ih =>
    obtain ⟨h1, h2⟩ := hpage hs he hst
    obtain ⟨g1, g2⟩ := h2 _ rfl
    intro e hin
    obtain ⟨b, hb, hin⟩ := List.mem_flatten.1 hin
    unfold delivered at hb
    obtain ⟨x, hx, hxb⟩ := List.mem_filterMap.1 hb
    rcases List.mem_cons.1 hx with rfl | hx
    · exact h1 b hxb e hin
    · obtain ⟨w, a1, a2, a3, a4⟩ := ih g1 e (List.mem_flatten.2 ⟨b, List.mem_filterMap.2 ⟨x, hx, hxb⟩, hin⟩)
      exact ⟨w, a1, a2, by omega, a4⟩

theorem reads_sent {posts : List SendReq} {j : Nat} {read : ReadRequest → Option (List Envelope)}
    (hr : ReadsAnyhow compile cfg n L posts j read) {id : Str} {start stop : Int} {es : List Envelope}
    (hf1 : FitsInt64 start) (hf2 : FitsInt64 stop) (h0 : stop ≠ 0) (h : read (metricsBetween id start stop) = some es) :
    ∀ e ∈ es, ∃ w ∈ postedFor posts id, e = envelopeCode w ∧ start ≤ w.timestamp ∧ w.timestamp < stop := by
  obtain ⟨tr, ended, hw, hres⟩ := hr id start stop es hf1 hf2 h0 h
  have : (delivered tr).flatten = es := by
    unfold dataReaderResult at hres
    split at hres
    · cases hres
    · injection hres
  rw [← this]
  exact crash_walk hf2 h0 hw hf1

/-- The matrix of a plain selector, whatever happens while it is read. -/
theorem matrix_sent {posts : List SendReq} {j : Nat} {read : ReadRequest → Option (List Envelope)}
    (hr : ReadsAnyhow compile cfg n L posts j read) {ms : List Matcher} (hp : PlainSelector ms)
    (ha : ∀ r ∈ posts, ∀ e ∈ r.envelopes.getD [], Arrived e)
    (hc : ClearLabels fun id => (postedFor posts id).map envelopeCode) {order : List Str}
    (ho : order.Perm (selectArgs ms).ids) {start stop : Int} (hf1 : FitsInt64 (start - 1000000000)) (hf2 : FitsInt64 stop)
    (h0 : stop ≠ 0) {ts : List Int} (hts : ts.Pairwise (· < ·)) {m : List (List (Str × Str) × List (Int × PVal))}
    (h : selectorMatrix ts (select 1000000000 start stop read order ms) = some m) :
    ∀ x ∈ m, x.2 ≠ [] ∧ ∀ y ∈ x.2, y.1 ∈ ts ∧ ∃ id w, NamesSource ms id ∧ w ∈ postedFor posts id ∧
      Shows ms (envelopeCode w) y.2 ∧ CarriesLabels (labelMap x.1) (envelopeCode w) ∧
      w.timestamp < stop ∧ y.1 * 1000000 - 300000000000 ≤ secondOf (envelopeCode w) ∧
      secondOf (envelopeCode w) ≤ y.1 * 1000000 := by
  have hmem : ∀ id, ∀ e ∈ postedFor posts id, Arrived e ∧ e.sourceId = id := by
    intro id e he
    refine ⟨postedFor_arrived ha e he, ?_⟩
    unfold postedFor at he
    rw [List.mem_filter, decide_eq_true_eq] at he
    exact he.2
  have ht : ∀ id, ∀ e ∈ (postedFor posts id).map envelopeCode, (e.tags.map Prod.fst).Nodup := by
    intro id e he
    obtain ⟨w, hw, rfl⟩ := List.mem_map.1 he
    have := (hmem id w hw).1.1.2.2.2.1
    refine List.pairwise_map.2 (this.imp ?_)
    intro a b h he
    rw [he] at h
    exact absurd h (List.lt_irrefl _)
  have hown : ∀ id, ∀ e ∈ (postedFor posts id).map envelopeCode, e.sourceId = id := by
    intro id e he
    obtain ⟨w, hw, rfl⟩ := List.mem_map.1 he
    exact (hmem id w hw).2
  obtain ⟨out, hout, hm⟩ := selectorMatrix_mem hts h
  have hsel := select_only (log := fun id => (postedFor posts id).map envelopeCode) ht hown hc hp ho
    (fun id es _ hre e he => by
      obtain ⟨w, h1, rfl, h2, h3⟩ := reads_sent hr hf1 hf2 h0 hre e he
      refine ⟨List.mem_map.2 ⟨w, h1, rfl⟩, ?_⟩
      unfold inWindow
      rw [Bool.and_eq_true, decide_eq_true_eq, decide_eq_true_eq]
      exact ⟨h2, h3⟩) hout
  intro x hx
  obtain ⟨hne, s, hs, hlab, hy⟩ := hm x hx
  refine ⟨hne, fun y hyx => ?_⟩
  obtain ⟨hty, p, hpm, hpv, hge, hle⟩ := hy y hyx
  obtain ⟨hnd, hpts⟩ := hsel s hs
  obtain ⟨e, he, hw, hsh, hcl, hsec⟩ := hpts p hpm
  obtain ⟨w, hwm, rfl⟩ := List.mem_map.1 he
  unfold inWindow at hw
  rw [Bool.and_eq_true, decide_eq_true_eq, decide_eq_true_eq] at hw
  refine ⟨hty, _, w, hsh.1, hwm, by rw [← hpv]; exact hsh, ?_, hw.2, by omega, by omega⟩
  have hnd' : ((seriesLabels s).map Prod.fst).Nodup := ((List.mergeSort_perm s.tags _).map Prod.fst).nodup_iff.2 hnd
  rw [hlab, labelMap_nodup _ hnd']
  exact carries_of_same (sorted_lookup hnd _) hcl

/-- What a node answers an instant query with. -/
theorem instant_sent {posts : List SendReq} {j : Nat} {read : Nat → ReadRequest → Option (List Envelope)}
    (hr : ReadsAnyhow compile cfg n L posts j (read 0)) {ms : List Matcher} (hp : PlainSelector ms)
    (ha : ∀ r ∈ posts, ∀ e ∈ r.envelopes.getD [], Arrived e)
    (hc : ClearLabels fun id => (postedFor posts id).map envelopeCode)
    {order : Nat → List Matcher → List Str} (ho : ValidOrder (order 0)) (num : PVal → Go64) (rfc : Str → Option Int)
    (now t : Int) (query time : Str) (engine : Str → Int → Option (EngineRun Go64))
    (hen : ∀ t, engine query t = some (plainInstant num ms t)) (hrt : requestTime rfc now time = some t)
    (h0 : 1000000 ≤ t) (h63 : t < 2 ^ 63) :
    (instantQuery go64 rfc engine read order now query time).result = .error ∨
    ∃ samples, (instantQuery go64 rfc engine read order now query time).result = .answer (.vector samples) ∧
      ∀ s ∈ samples, s.point.time = formatTime go64 (t / 1000000) ∧
        WasSent posts (NamesSource ms) ms num (Recent (t / 1000000 * 1000000)) s.metric s.point.value := by
  have htm : timeMilliseconds t = t / 1000000 := Int.tdiv_eq_ediv_of_nonneg (by omega)
  have hlb : lookback = 300000 := rfl
  have hmint : fromTime (t - lookback * 1000000) = t / 1000000 - 300000 := by
    unfold fromTime
    rw [hlb]
    omega
  have hw1 : wrap64 (fromTime (t - lookback * 1000000) * 1000000) = t / 1000000 * 1000000 - 300000000000 := by
    rw [hmint, wrap64_small (by omega) (by omega)]
    omega
  have hw2 : wrap64 (fromTime t * 1000000) = t / 1000000 * 1000000 := by
    unfold fromTime
    exact wrap64_small (by omega) (by omega)
  unfold instantQuery
  rw [hrt]
  simp only [hen]
  unfold finishQuery
  split
  · exact .inl rfl
  · unfold plainInstant
    rw [runEngine]
    simp only [hw1, hw2]
    rw [runEngine]
    unfold instantValue
    simp only [htm]
    cases hm : selectorMatrix [t / 1000000] (select 1000000000 (t / 1000000 * 1000000 - 300000000000)
        (t / 1000000 * 1000000) (read 0) (order 0 ms) ms) with
    | none => exact .inl rfl
    | some m =>
      refine .inr ⟨_, rfl, ?_⟩
      have hsent := matrix_sent hr hp ha hc (validOrder_perm ho ms) (by constructor <;> omega) (by constructor <;> omega)
        (by omega) (List.pairwise_singleton ..) hm
      intro s hs
      obtain ⟨es, hes, rfl⟩ := List.mem_map.1 hs
      obtain ⟨x, hx, hxe⟩ := List.mem_filterMap.1 hes
      obtain ⟨p, hp', rfl⟩ := Option.map_eq_some_iff.1 hxe
      obtain ⟨hT, id, w, a1, a2, a3, a4, a5, a6, -⟩ := (hsent x hx).2 p (List.mem_of_mem_head? hp')
      rw [List.mem_singleton.1 hT] at a6
      exact ⟨rfl, id, w, p.2, a1, a2, a3, a4, rfl, a6, a5⟩

/-- What a node answers a range query with. -/
theorem range_sent {posts : List SendReq} {j : Nat} {read : Nat → ReadRequest → Option (List Envelope)}
    (hr : ReadsAnyhow compile cfg n L posts j (read 0)) {ms : List Matcher} (hp : PlainSelector ms)
    (ha : ∀ r ∈ posts, ∀ e ∈ r.envelopes.getD [], Arrived e)
    (hc : ClearLabels fun id => (postedFor posts id).map envelopeCode)
    {order : Nat → List Matcher → List Str} (ho : ValidOrder (order 0)) (num : PVal → Go64) (rfc dur : Str → Option Int)
    (query start stop step : Str) (engine : Str → Int → Int → Int → Option (EngineRun Go64))
    (hen : ∀ a b d, engine query a b d = some (plainRange num ms a b d)) (a b d : Int)
    (ea : parseTime rfc start = some a) (eb : parseTime rfc stop = some b) (ed : parseStep dur step = some d)
    (ha0 : 0 ≤ a) (hb0 : 1000000 ≤ b) (ha63 : a < 2 ^ 63) (hb63 : b < 2 ^ 63) (hd0 : 1000000 ≤ d) :
    (rangeQuery go64 rfc dur engine read order query start stop step).result = .error ∨
    ∃ series, (rangeQuery go64 rfc dur engine read order query start stop step).result = .answer (.matrix series) ∧
      ∀ s ∈ series, s.points ≠ [] ∧ ∀ p ∈ s.points,
        ∃ T, IsStep (a / 1000000) (b / 1000000) (d / 1000000) T ∧ p.time = formatTime go64 T ∧
          WasSent posts (NamesSource ms) ms num (AtStep (T * 1000000) (b / 1000000 * 1000000)) s.metric p.value := by
  have htd : timeMilliseconds d = d / 1000000 := Int.tdiv_eq_ediv_of_nonneg (by omega)
  have hta : timeMilliseconds a = a / 1000000 := Int.tdiv_eq_ediv_of_nonneg ha0
  have htb : timeMilliseconds b = b / 1000000 := Int.tdiv_eq_ediv_of_nonneg (by omega)
  have hdpos : 0 < d / 1000000 := by omega
  have hlb : lookback = 300000 := rfl
  have hw1 : wrap64 (fromTime (a - lookback * 1000000) * 1000000) = a / 1000000 * 1000000 - 300000000000 := by
    have : fromTime (a - lookback * 1000000) = a / 1000000 - 300000 := by
      unfold fromTime
      rw [hlb]
      omega
    rw [this, wrap64_small (by omega) (by omega)]
    omega
  have hw2 : wrap64 (fromTime b * 1000000) = b / 1000000 * 1000000 := by
    unfold fromTime
    exact wrap64_small (by omega) (by omega)
  unfold rangeQuery
  rw [ea, eb, ed]
  simp only [hen]
  unfold finishQuery
  split
  · exact .inl rfl
  · unfold plainRange
    rw [runEngine]
    simp only [hw1, hw2, htd, hta, htb]
    rw [if_neg (by omega), if_neg (by omega), runEngine]
    cases hm : selectorMatrix (stepTimes (a / 1000000) (b / 1000000) (d / 1000000))
        (select 1000000000 (a / 1000000 * 1000000 - 300000000000)
        (b / 1000000 * 1000000) (read 0) (order 0 ms) ms) with
    | none => exact .inl rfl
    | some m =>
      refine .inr ⟨_, rfl, ?_⟩
      have hsent := matrix_sent hr hp ha hc (validOrder_perm ho ms) (by constructor <;> omega) (by constructor <;> omega)
        (by omega) (stepTimes_sorted hdpos) hm
      intro s hs
      obtain ⟨es, hes, rfl⟩ := List.mem_map.1 hs
      obtain ⟨x, hx, rfl⟩ := List.mem_map.1 hes
      obtain ⟨hne, hall⟩ := hsent x hx
      refine ⟨by simpa [toSeries] using hne, fun p hp' => ?_⟩
      simp only [toSeries, List.map_map, List.mem_map] at hp'
      obtain ⟨y, hy, rfl⟩ := hp'
      obtain ⟨hT, id, w, a1, a2, a3, a4, a5, a6, a7⟩ := hall y hy
      refine ⟨y.1, (mem_stepTimes hdpos _).1 hT, rfl, id, w, y.2, a1, a2, a3, a4, rfl, ?_⟩
      rcases Int.lt_or_eq_of_le a7 with h | h
      · exact .inr ⟨a6, h, a5⟩
      · exact .inl ⟨h, a5⟩

theorem asked_time {rfc : Str → Option Int} {query : Str} {opts : List PromOpt} {now t : Int} (ht : EvaluatedAt opts now t) :
    requestTime rfc now (askedInstant query opts).time = some t := by
  obtain ⟨hmod, hcase⟩ := ht
  unfold requestTime
  rcases hcase with ⟨h1, h0, h2⟩ | ⟨h1, h2, h3, -, -⟩
  · have e : (askedInstant query opts).time = formatClientTime t := by
      unfold askedInstant
      simp only
      rw [h1]
      rfl
    rw [e, if_neg (formatClient_ne (by omega) h2)]
    obtain ⟨n, rfl⟩ := Int.eq_ofNat_of_zero_le (show 0 ≤ t by omega)
    obtain ⟨u, a1, -, -, a2⟩ := C101_client_time rfc n (by omega)
    have := a2 (by omega)
    rw [a1, this]
  · have e : (askedInstant query opts).time = [] := by
      unfold askedInstant
      simp only
      rw [h1]
      rfl
    rw [e, if_pos rfl, Option.some.injEq]
    omega

theorem asked_bounds {rfc : Str → Option Int} {query : Str} {opts : List PromOpt} {a b : Nat} (ht : RangeGiven opts a b) :
    parseTime rfc (askedRange query opts).start = some ((a * 1000000000 : Nat) : Int) ∧
    parseTime rfc (askedRange query opts).stop = some ((b * 1000000000 : Nat) : Int) := by
  obtain ⟨ha, hb, hb1, ha2, hb2⟩ := ht
  have hread : ∀ n : Nat, n < 2 ^ 32 - 1 →
      parseTime rfc (timeText (some ((n * 1000000000 : Nat) : Int))) = some ((n * 1000000000 : Nat) : Int) := by
    intro n hn
    obtain ⟨u, a1, -, -, a2⟩ := C101_client_time rfc (n * 1000000000) (by omega)
    rw [show timeText (some ((n * 1000000000 : Nat) : Int)) = formatClientTime ((n * 1000000000 : Nat) : Int) from rfl, a1,
      a2 (Nat.dvd_mul_left _ _)]
  unfold askedRange
  simp only
  rw [ha, hb]
  exact ⟨hread a ha2, hread b hb2⟩

variable {posts : List SendReq} {j : Nat} {read : Nat → ReadRequest → Option (List Envelope)}

/-- **Whatever happens** before and while it is asked: a client that asks a node for a plain
selector gets an error or only values of envelopes that were sent for the sources named, with
the metric and the labels asked for, from the five minutes before the query's time.
Missing from the full claim: other queries, and labels that collide. -/
theorem C169_gateway_instant_partial {st : Nat → Nat} (hst : ErrorStatus st) (why msg : Str) (rfc dur : Str → Option Int)
    (parse : Str → Option (List Matcher)) (num : PVal → Go64) (query : Str) (ms : List Matcher)
    (hq : parse query = some ms) (hp : PlainSelector ms) (ha : ∀ r ∈ posts, ∀ e ∈ r.envelopes.getD [], Arrived e)
    (hc : ClearLabels fun id => (postedFor posts id).map envelopeCode)
    (hr : ReadsAnyhow compile cfg n L posts j (read 0))
    (order : Nat → List Matcher → List Str) (ho : ValidOrder (order 0))
    (opts : List PromOpt) (now t : Int) (ht : EvaluatedAt opts now t) :
    readProm (unmarshalInstant go64) (gatewayServe go64 st why (promNode go64 rfc dur parse num read order now msg)
        (httpPromQL query opts)) = none ∧
      grpcProm ((promNode go64 rfc dur parse num read order now msg).instant (grpcPromQL query opts)) = none ∨
    ∃ samples,
      readProm (unmarshalInstant go64) (gatewayServe go64 st why (promNode go64 rfc dur parse num read order now msg)
        (httpPromQL query opts)) = some (.vector samples) ∧
      grpcProm ((promNode go64 rfc dur parse num read order now msg).instant (grpcPromQL query opts)) =
        some (some (.vector samples)) ∧
      ∀ s ∈ samples, s.point.time = thousandthsText (t / 1000000) ∧
        WasSent posts (NamesSource ms) ms num (Recent t) s.metric s.point.value := by
  have ht0 : 1000000000 ≤ t := by rcases ht.2 with h | h <;> omega
  have ht63 : t < 2 ^ 63 := by rcases ht.2 with h | h <;> omega
  have htm : t / 1000000 * 1000000 = t := by have := ht.1; omega
  have hen : ∀ t, (fun q t => (parse q).map (plainInstant num · t)) query t = some (plainInstant num ms t) := by
    intro t
    simp only [hq]
    rfl
  have hshape : ∀ x : QueryEnd Go64, (instantQuery go64 rfc (fun q t => (parse q).map (plainInstant num · t)) read order
      now query (askedInstant query opts).time).result = x →
      (promNode go64 rfc dur parse num read order now msg).instant (askedInstant query opts) = serverAns msg x := by
    rintro x rfl
    rfl
  obtain ⟨g1, g2⟩ := C104_instant C76_float64 hst why (promNode go64 rfc dur parse num read order now msg) query opts
  rcases instant_sent hr hp ha hc ho num rfc now t query (askedInstant query opts).time
    (fun q t => (parse q).map (plainInstant num · t)) hen (asked_time ht)
    (by omega) ht63 with h | ⟨samples, h1, h2⟩
  · obtain ⟨a, b⟩ := g2 2 msg (hshape _ h) (by decide)
    exact .inl ⟨b, a⟩
  · rw [htm] at h2
    have hthree : ∀ p ∈ points (.vector samples), ThreeDecimals go64 p.time := by
      intro p hp
      obtain ⟨s, hs, rfl⟩ := List.mem_map.1 hp
      rw [(h2 s hs).1]
      exact thousandths_three
    obtain ⟨a, b⟩ := g1 _ (hshape _ h1) hthree
    refine .inr ⟨samples, b, a, fun s hs => ⟨?_, (h2 s hs).2⟩⟩
    exact (h2 s hs).1.trans (thousandths_text (by omega) (by omega))

/-- The same for range queries. -/
theorem C169_gateway_range_partial {st : Nat → Nat} (hst : ErrorStatus st) (why msg : Str) (rfc dur : Str → Option Int)
    (parse : Str → Option (List Matcher)) (num : PVal → Go64) (query : Str) (ms : List Matcher)
    (hq : parse query = some ms) (hp : PlainSelector ms) (ha : ∀ r ∈ posts, ∀ e ∈ r.envelopes.getD [], Arrived e)
    (hc : ClearLabels fun id => (postedFor posts id).map envelopeCode)
    (hr : ReadsAnyhow compile cfg n L posts j (read 0))
    (order : Nat → List Matcher → List Str) (ho : ValidOrder (order 0))
    (opts : List PromOpt) (now : Int) (a b : Nat) (ht : RangeGiven opts a b) (step : Str) (d : Nat)
    (hstep : lastGiven stepOf opts = some step) (hd : parseStep dur step = some (d * 1000000 : Nat)) (hd0 : 1 ≤ d) :
    readProm (unmarshalRange go64) (gatewayServe go64 st why (promNode go64 rfc dur parse num read order now msg)
        (httpPromQLRange query opts)) = none ∧
      grpcProm ((promNode go64 rfc dur parse num read order now msg).range (grpcPromQLRange query opts)) = none ∨
    ∃ series,
      readProm (unmarshalRange go64) (gatewayServe go64 st why (promNode go64 rfc dur parse num read order now msg)
        (httpPromQLRange query opts)) = some (.matrix series) ∧
      grpcProm ((promNode go64 rfc dur parse num read order now msg).range (grpcPromQLRange query opts)) =
        some (some (.matrix series)) ∧
      ∀ s ∈ series, s.points ≠ [] ∧ ∀ p ∈ s.points,
        ∃ T, IsStep (a * 1000) (b * 1000) d T ∧ p.time = thousandthsText T ∧
          WasSent posts (NamesSource ms) ms num (AtStep (T * 1000000) (b * 1000000000)) s.metric p.value := by
  obtain ⟨ea, eb⟩ := asked_bounds (rfc := rfc) (query := query) ht
  have ed : parseStep dur (askedRange query opts).step = some ((d * 1000000 : Nat) : Int) := by
    unfold askedRange
    simp only
    rw [hstep]
    exact hd
  obtain ⟨-, -, hb1, ha2, hb2⟩ := ht
  have hen : ∀ x y z, (fun q a b d => (parse q).map (plainRange num · a b d)) query x y z =
      some (plainRange num ms x y z) := by
    intro x y z
    simp only [hq]
    rfl
  have hshape : ∀ x : QueryEnd Go64, (rangeQuery go64 rfc dur (fun q a b d => (parse q).map (plainRange num · a b d)) read
      order query (askedRange query opts).start (askedRange query opts).stop (askedRange query opts).step).result = x →
      (promNode go64 rfc dur parse num read order now msg).range (askedRange query opts) = serverAns msg x := by
    rintro x rfl
    rfl
  obtain ⟨g1, g2⟩ := C104_range C76_float64 hst why (promNode go64 rfc dur parse num read order now msg) query opts
  rcases range_sent hr hp ha hc ho num rfc dur query (askedRange query opts).start (askedRange query opts).stop
    (askedRange query opts).step (fun q a b d => (parse q).map (plainRange num · a b d)) hen _ _ _ ea eb ed (by omega) (by omega) (by omega) (by omega) (by omega)
    with h | ⟨series, h1, h2⟩
  · obtain ⟨a, b⟩ := g2 2 msg (hshape _ h) (by decide)
    exact .inl ⟨b, a⟩
  · rw [show ((a * 1000000000 : Nat) : Int) / 1000000 = a * 1000 by omega,
      show ((b * 1000000000 : Nat) : Int) / 1000000 = b * 1000 by omega,
      show ((d * 1000000 : Nat) : Int) / 1000000 = d by omega,
      show (b : Int) * 1000 * 1000000 = b * 1000000000 by omega] at h2
    have hthree : ∀ p ∈ points (.matrix series), ThreeDecimals go64 p.time := by
      intro p hp
      obtain ⟨s, hs, hps⟩ := List.mem_flatMap.1 hp
      obtain ⟨T, -, hT, -⟩ := (h2 s hs).2 p hps
      rw [hT]
      exact thousandths_three
    obtain ⟨g, g'⟩ := g1 _ (hshape _ h1) hthree
    refine .inr ⟨series, g', g, fun s hs => ⟨(h2 s hs).1, fun p hp => ?_⟩⟩
    obtain ⟨T, hT, hpT, hw⟩ := (h2 s hs).2 p hp
    refine ⟨T, hT, hpT.trans ?_, hw⟩
    obtain ⟨k, hk, hle⟩ := hT
    have : 0 ≤ (d : Int) * k := Int.mul_nonneg (by omega) (by omega)
    exact thousandths_text (by omega) (by omega)

theorem wasSent_seen {S : Str → Prop} {ms ms' : List Matcher} (hs : SameButSources ms ms')
    (hS : ∀ id, NamesSource ms' id ↔ S id) {num : PVal → Go64} {W : Envelope → Prop} {labels : List (Str × Str)} {v : Go64}
    (h : WasSent posts (NamesSource ms') ms' num W labels v) : WasSent posts S ms num W labels v := by
  obtain ⟨id, w, x, h1, h2, h3, h4⟩ := h
  exact ⟨id, w, x, (hS id).1 h1, h2, (shows_other hs hS _ _).1 h3, h4⟩

variable {oauth : Str → Option UserCtx} {auth : Str → Str → Bool}
  {related : List Str → Str → Option Expansions} {order : List Str → List Str} {parse : Str → Option PExpr}
  {print : PExpr → Str} {nodeParse : Str → Option (List Matcher)} {token query : Str} {ms : List Matcher}
  {u : UserCtx} {rel : Expansions}

/-- **For a user, too**: whatever happens before and while they ask the auth proxy for a plain
selector, what they get is of envelopes that were sent, and of the sources that the selector names
and the apps of these names only those they may read. -/
theorem C169_instant_partial {st : Nat → Nat} (hst : ErrorStatus st) (why msg : Str) (rfc dur : Str → Option Int)
    (num : PVal → Go64) (explain : Str → Str)
    (hu : UserAsks oauth auth related order parse print nodeParse token query ms u rel)
    (ha : ∀ r ∈ posts, ∀ e ∈ r.envelopes.getD [], Arrived e)
    (hc : ClearLabels fun id => (postedFor posts id).map envelopeCode)
    (hr : ReadsAnyhow compile cfg n L posts j (read 0)) (iter : Nat → List Matcher → List Str) (ho : ValidOrder (iter 0))
    (opts : List PromOpt) (now t : Int) (ht : EvaluatedAt opts now t) (r : PResult Go64)
    (h : readProm (unmarshalInstant go64) (askProxy go64 st why (promNode go64 rfc dur nodeParse num read iter now msg)
      oauth auth related order parse explain print token (httpPromQL query opts)) = some r) :
    ∃ samples, r = .vector samples ∧ ∀ s ∈ samples, s.point.time = thousandthsText (t / 1000000) ∧
      WasSent posts (SeenSource u auth rel ms) ms num (Recent t) s.metric s.point.value := by
  by_cases hmay : MayAsk u auth rel ms
  · obtain ⟨ms', hq, hsame, hnames⟩ := (asks_handled hu).1 hmay
    have hplain : PlainSelector ms' := by
      obtain ⟨name, hname⟩ := hu.plain.1
      obtain ⟨id, h1, h2⟩ := hmay name hname
      exact plain_other hsame hu.plain ⟨id, (hnames id).2 ⟨name, hname, h1, h2⟩⟩
    rw [(ask_forward go64 st why _ explain hq opts).1] at h
    rcases C169_gateway_instant_partial hst why msg rfc dur nodeParse num (print (.vector ms')) ms' (hu.readBack ms' hsame)
      hplain ha hc hr iter ho opts now t ht with ⟨h', -⟩ | ⟨samples, h1, -, h2⟩
    · rw [h'] at h; cases h
    · rw [h1] at h
      cases h
      exact ⟨samples, rfl, fun s hs => ⟨(h2 s hs).1, wasSent_seen hsame hnames (h2 s hs).2⟩⟩
  · rw [(C158_refused go64 st why _ explain opts hu hmay (.inl rfl)).2.1] at h
    cases h

/-- The same for range queries. -/
theorem C169_range_partial {st : Nat → Nat} (hst : ErrorStatus st) (why msg : Str) (rfc dur : Str → Option Int)
    (num : PVal → Go64) (explain : Str → Str)
    (hu : UserAsks oauth auth related order parse print nodeParse token query ms u rel)
    (ha : ∀ r ∈ posts, ∀ e ∈ r.envelopes.getD [], Arrived e)
    (hc : ClearLabels fun id => (postedFor posts id).map envelopeCode)
    (hr : ReadsAnyhow compile cfg n L posts j (read 0)) (iter : Nat → List Matcher → List Str) (ho : ValidOrder (iter 0))
    (opts : List PromOpt) (now : Int) (a b : Nat) (ht : RangeGiven opts a b) (step : Str) (d : Nat)
    (hstep : lastGiven stepOf opts = some step) (hd : parseStep dur step = some (d * 1000000 : Nat)) (hd0 : 1 ≤ d)
    (r : PResult Go64)
    (h : readProm (unmarshalRange go64) (askProxy go64 st why (promNode go64 rfc dur nodeParse num read iter now msg)
      oauth auth related order parse explain print token (httpPromQLRange query opts)) = some r) :
    ∃ series, r = .matrix series ∧ ∀ s ∈ series, s.points ≠ [] ∧ ∀ p ∈ s.points,
      ∃ T, IsStep (a * 1000) (b * 1000) d T ∧ p.time = thousandthsText T ∧
        WasSent posts (SeenSource u auth rel ms) ms num (AtStep (T * 1000000) (b * 1000000000)) s.metric p.value := by
  by_cases hmay : MayAsk u auth rel ms
  · obtain ⟨ms', hq, hsame, hnames⟩ := (asks_handled hu).1 hmay
    have hplain : PlainSelector ms' := by
      obtain ⟨name, hname⟩ := hu.plain.1
      obtain ⟨id, h1, h2⟩ := hmay name hname
      exact plain_other hsame hu.plain ⟨id, (hnames id).2 ⟨name, hname, h1, h2⟩⟩
    rw [(ask_forward go64 st why _ explain hq opts).2] at h
    rcases C169_gateway_range_partial hst why msg rfc dur nodeParse num (print (.vector ms')) ms' (hu.readBack ms' hsame)
      hplain ha hc hr iter ho opts now a b ht step d hstep hd hd0 with ⟨h', -⟩ | ⟨series, h1, -, h2⟩
    · rw [h'] at h; cases h
    · rw [h1] at h
      cases h
      exact ⟨series, rfl, fun s hs => ⟨(h2 s hs).1, fun p hp => by
        obtain ⟨T, a, c, e⟩ := (h2 s hs).2 p hp
        exact ⟨T, a, c, wasSent_seen hsame hnames e⟩⟩⟩
  · rw [(C158_refused go64 st why _ explain opts hu hmay (.inr rfl)).2.1] at h
    cases h
end

theorem walkRun_mono {β : Type} {bo : Backoff β} {c : WalkCfg} {src : Str} {env env' : ReadRequest → WalkIn → Prop}
    (h : ∀ q i, env q i → env' q i) {s : WalkState β} {tr : List (WalkIn × Option (List Envelope))}
    {r : Option (WalkState β)} (hrun : WalkRun bo c src env s tr r) : WalkRun bo c src env' s tr r := by
  induction hrun with
  | nil s => exact .nil s
  | done h1 h2 => exact .done (h _ _ h1) h2
  | step h1 h2 _ ih => exact .step (h _ _ h1) h2 ih

/-- Histories in which nothing is lost are among those in which anything happens. -/
theorem xrun_reliable {cfg : Config} {c0 c : Cluster} {evs : List CEvent} (h : CRun c0 evs c) (hr : Reliable evs) :
    ∃ xs, XRun cfg c0 xs c ∧ clientsOf xs = evs.filter (fun | .client _ _ => true | _ => false) ∧
      ∀ i l, XEvent.retable i l ∉ xs := by
  induction h with
  | nil => exact ⟨[], .nil _, rfl, fun _ _ h => by cases h⟩
  | snoc hrun hstep ih =>
    rename_i ev
    obtain ⟨xs, h1, h2, h3⟩ := ih fun e he => hr e (List.mem_append_left _ he)
    have hev := hr ev (List.mem_append_right _ (List.mem_singleton.2 rfl))
    cases ev with
    | client i req =>
      refine ⟨_, h1.snoc (.client hstep), ?_, ?_⟩
      · rw [List.filter_append, ← h2]
        simp [clientsOf]
      · intro i l hm
        rcases List.mem_append.1 hm with hm | hm
        · exact h3 i l hm
        · simp at hm
    | deliver j i b =>
      refine ⟨_, h1.snoc (.deliver hstep), ?_, ?_⟩
      · rw [List.filter_append, ← h2]
        simp [clientsOf]
      · intro i l hm
        rcases List.mem_append.1 hm with hm | hm
        · exact h3 i l hm
        · simp at hm
    | lose j i => exact absurd hev (by simp)
    | retable i l => exact absurd hev (by simp)

/-- A cluster at rest is one after some history. -/
theorem atRest_any {cfg : Config} {n : Nat} {L : Str → List Nat} {evs : List CEvent} {c : Cluster} {posts : List SendReq}
    {id : Str} (h : AtRest cfg n L evs c posts id) : ∃ evs', AnyHistory cfg n L evs' c posts := by
  obtain ⟨xs, h1, h2, h3⟩ := xrun_reliable (cfg := cfg) h.run h.reliable
  refine ⟨_, any_plain h1 ?_ h.arrived ⟨h.once, fun i l hm => absurd hm (h3 i l)⟩ h.some⟩
  have hp := h.posted
  unfold Posted at hp ⊢
  rw [h2]
  refine (congrArg (fun l => List.Forall₂ _ l posts) ?_).mp hp
  rw [List.filter_filter]
  exact List.filter_congr fun x _ => by cases x <;> rfl

/-- The readers of C157, over a cluster at rest, are among those of C169, also if more is sent later. -/
theorem C169_covers {compile : Str → Option (Str → Bool)} {cfg : Config} {n : Nat} {L : Str → List Nat}
    {evs : List CEvent} {c : Cluster} {posts later : List SendReq} {S : Str → Prop} {j : Nat} {log : Str → List WireEnvelope}
    {read : ReadRequest → Option (List Envelope)} (hrest : RestsFor cfg n L evs c posts S)
    (hr : ReadsByWalks compile c j S log read) (hno : ∀ q, ¬ S q.sourceId → read q = none) :
    ReadsAnyhow compile cfg n L (posts ++ later) j read := by
  intro id start stop es hf1 hf2 h0 hes
  by_cases hid : S id
  · obtain ⟨tr, htr, hout⟩ := hr id start stop hid hf1 hf2 h0
    obtain ⟨evs', hany⟩ := atRest_any (hrest id hid).1
    refine ⟨tr, false, walkRun_mono ?_ htr, hout.symm.trans hes⟩
    rintro q (_ | ⟨es, now, more⟩) hi
    · trivial
    · obtain ⟨-, -, now', ws, h1, h2⟩ := hi
      exact ⟨evs', c, posts, hany, List.prefix_append _ _, now', ws, h1, h2⟩
  · rw [hno _ hid] at hes
    cases hes

/-- A case of `C169_instant_partial`: two counters of the app `a` are sent to a cluster, and more
may be sent to it later; the reader of its queries is as in C169, and a user who may read `a` gets
the second of them, of which the theorem says that it was sent. -/
example (why msg : Str) (rfc dur : Str → Option Int) (num : PVal → Go64) (j : Nat) :
    ∃ read, ReadsAnyhow (fun _ => none) { maxPerSource := 5 } 1 (fun _ => [0]) (twoMessages (hits 5) (hits 6)) j read ∧
      ∃ samples s, readProm (unmarshalInstant go64) (askProxy go64 (fun _ => 500) why
          (promNode go64 rfc dur hitsParse num (fun _ => read) (fun _ ms => (selectArgs ms).ids) 2000000000 msg)
          (fun t => if t = "t".toList then some shopUser else none) (fun id _ => decide (id = "a".toList))
          (fun _ _ => some shopApps) id (fun _ => some (.vector hitsOfShop)) id hitsText "t".toList
          (httpPromQL "hits{source_id='shop'}".toList [.time 1000000000])) = some (.vector samples) ∧
        s ∈ samples ∧ WasSent (twoMessages (hits 5) (hits 6))
          (SeenSource shopUser (fun id _ => decide (id = "a".toList)) shopApps hitsOfShop) hitsOfShop num
          (Recent 1000000000) s.metric s.point.value := by
  obtain ⟨evs, c, hcl⟩ := hits_cluster
  have hrest := hcl _ fun id h => (shop_seen id).1 h
  obtain ⟨read0, hr0⟩ := readsByWalks_exists (compile := fun _ => none) hrest hitsLog_order j
  have hr : ReadsByWalks (fun _ => none) c j
      (SeenSource shopUser (fun id _ => decide (id = "a".toList)) shopApps hitsOfShop) hitsLog
      (fun q => if q.sourceId = "a".toList then read0 q else none) := by
    intro id start stop hid hf1 hf2 h0
    have he : id = "a".toList := (shop_seen id).1 hid
    obtain ⟨tr, h1, h2⟩ := hr0 id start stop hid hf1 hf2 h0
    exact ⟨tr, h1, (if_pos (show (metricsBetween id start stop).sourceId = _ from he)).trans h2⟩
  have hany : ReadsAnyhow (fun _ => none) { maxPerSource := 5 } 1 (fun _ => [0]) (twoMessages (hits 5) (hits 6) ++ []) j _ :=
    C169_covers hrest hr fun q hq => if_neg fun h => hq ((shop_seen _).2 h)
  rw [List.append_nil] at hany
  have hu := shop_asks (fun _ => some (.vector hitsOfShop)) "hits{source_id='shop'}".toList rfl
  have ht : EvaluatedAt [.time 1000000000] 2000000000 1000000000 := ⟨by decide, .inl ⟨rfl, by decide, by decide⟩⟩
  obtain ⟨samples, h1, h3, h4, -⟩ := C158_instant_partial (st := fun _ => 500) (fun _ _ => by simp) why msg rfc dur num id
    hu shop_mayAsk hrest hitsLog
    hitsLog_order hitsLog_clear j (fun _ => _) hr (fun _ ms => (selectArgs ms).ids) namedOrder_valid
    [.time 1000000000] 2000000000 1000000000 ht
  obtain ⟨s, hs, -⟩ := h4 "a".toList (appMessage 2 (hits 6)) (by rw [hits_posted]; simp) ⟨_, (shop_shows _ _ _).2 rfl⟩
    (by unfold Recent secondOf envelopeCode appMessage; decide)
  have hposted : ∀ id, postedFor (twoMessages (hits 5) (hits 6)) id = hitsLog id := by
    intro id
    by_cases h : id = "a".toList
    · subst h
      exact hits_posted.trans (if_pos rfl).symm
    · have := (hitsLog_order id).1.symm
      rw [show hitsLog id = [] from if_neg h] at this ⊢
      exact List.perm_nil.1 this
  obtain ⟨samples', hs', hall⟩ := C169_instant_partial (st := fun _ => 500) (fun _ _ => by simp) why msg rfc dur num id
    hu (hrest _ ((shop_seen _).2 rfl)).1.arrived (by simp only [hposted]; exact hitsLog_clear) (read := fun _ => _) hany
    (fun _ ms => (selectArgs ms).ids) namedOrder_valid [.time 1000000000] 2000000000 1000000000 ht _ h1
  cases hs'
  exact ⟨_, hany, samples, s, h1, hs, (hall s hs).2⟩

end LogCache
