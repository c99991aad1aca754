import Verif.Props.PromClient
import Verif.Props.Engine

/-! # Stored values seen through the client library (C138) -/

namespace LogCache
open Spec

theorem thousandths_text {t : Int} (h0 : 0 ≤ t) (h : t < 2 ^ 43 * 1000) :
    formatTime go64 t = thousandthsText t := go64_time (by omega)

theorem thousandths_three {t : Int} : ThreeDecimals go64 (formatTime go64 t) :=
  ⟨_, rfl, C76_float64.millis t⟩

theorem formatClient_ne {t : Int} (h0 : 0 ≤ t) (h : t < (2 ^ 32 - 1) * 1000000000) :
    formatClientTime t ≠ [] := by
  obtain ⟨n, rfl⟩ := Int.eq_ofNat_of_zero_le h0
  obtain ⟨m, hm, -⟩ := formatClient_core n (by omega)
  rw [hm]
  unfold three
  simp

/-- A client that asks for a plain selector gets, over HTTP as over gRPC, for every
combination of labels the value of the newest stored envelope the selector asks for from
before the query's time and the five minutes before it, with the query's time in seconds,
and nothing else.  Missing from the full claim: what C133 says, and times with fractions of
seconds, which C101 rounds. -/
theorem C138_instant_partial {st : Nat → Nat} (hst : ErrorStatus st) (why msg : Str) (rfc dur : Str → Option Int)
    (parse : Str → Option (List Matcher)) (num : PVal → Go64)
    (log : Str → List Envelope) (hs : StoredLogs log) (hc : ClearLabels log)
    (read : Nat → ReadRequest → Option (List Envelope)) (ms : List Matcher) (hr : AnswersFrom ms log (read 0))
    (order : Nat → List Matcher → List Str) (ho : ValidOrder (order 0))
    (query : Str) (hq : parse query = some ms) (hp : PlainSelector ms)
    (opts : List PromOpt) (now t : Int) (ht : EvaluatedAt opts now t) :
    ∃ samples,
      readProm (unmarshalInstant go64) (gatewayServe go64 st why (promNode go64 rfc dur parse num read order now msg)
        (httpPromQL query opts)) = some (.vector samples) ∧
      grpcProm ((promNode go64 rfc dur parse num read order now msg).instant (grpcPromQL query opts)) =
        some (some (.vector samples)) ∧
      (∀ s ∈ samples, s.point.time = thousandthsText (t / 1000000) ∧
        ∃ e v, Shows ms e v ∧ CarriesLabels s.metric e ∧ s.point.value = num v ∧
          LastWith (log e.sourceId) (fun x => InSeries ms e x ∧ Recent t x) e) ∧
      (∀ id, ∀ e ∈ log id, (∃ v, Shows ms e v) → Recent t e → ∃ s ∈ samples, CarriesLabels s.metric e) ∧
      samples.Pairwise fun s s' => ¬ SameLabels s.metric s'.metric := by
  obtain ⟨hmod, hcase⟩ := ht
  have ht0 : 1000000000 ≤ t := by rcases hcase with h | h <;> omega
  have ht63 : t < 2 ^ 63 := by rcases hcase with h | h <;> omega
  have htm : t / 1000000 * 1000000 = t := by omega
  have htime : if (askedInstant query opts).time = [] then t % 1000000000 = 0 ∧ t ≤ now ∧ now < t + 1000000000
      else parseTime rfc (askedInstant query opts).time = some t := by
    rcases hcase with ⟨h1, -, h2⟩ | ⟨h1, h2, h3, -, -⟩
    · have e : (askedInstant query opts).time = formatClientTime t := by
        unfold askedInstant
        simp only
        rw [h1]
        rfl
      rw [e, if_neg (formatClient_ne (by omega) h2)]
      obtain ⟨n, rfl⟩ := Int.eq_ofNat_of_zero_le (show 0 ≤ t by omega)
      obtain ⟨u, a1, -, -, a2⟩ := C101_client_time rfc n (by omega)
      have := a2 (by omega)
      rw [a1, this]
    · have e : (askedInstant query opts).time = [] := by
        unfold askedInstant
        simp only
        rw [h1]
        rfl
      rw [e, if_pos rfl]
      exact ⟨hmod, h2, h3⟩
  obtain ⟨samples, h1, h2, h3, h4⟩ := C133_instant_partial go64 rfc num log hs hc read ms hr order ho hp now query
    (askedInstant query opts).time t htime (by omega) ht63
  have hans : (promNode go64 rfc dur parse num read order now msg).instant (askedInstant query opts) =
      .ok (some (.vector samples)) := by
    have hq' : (instantQuery go64 rfc (fun q t => (parse q).map (plainInstant num · t)) read order now
        (askedInstant query opts).query (askedInstant query opts).time) =
        instantQuery go64 rfc (fun _ t => some (plainInstant num ms t)) read order now query
          (askedInstant query opts).time := by
      unfold instantQuery
      cases requestTime rfc now (askedInstant query opts).time with
      | none => rfl
      | some t =>
        simp only
        rw [show (askedInstant query opts).query = query from rfl, hq]
        rfl
    show serverAns msg _ = _
    rw [hq', h1]
    rfl
  have hthree : ∀ p ∈ points (.vector samples), ThreeDecimals go64 p.time := by
    intro p hp
    obtain ⟨s, hs, rfl⟩ := List.mem_map.1 hp
    rw [(h2 s hs).1]
    exact thousandths_three
  obtain ⟨g1, g2⟩ := (C104_instant C76_float64 hst why _ query opts).1 _ hans hthree
  refine ⟨samples, g2, g1, ?_, ?_, h4⟩
  · intro s hs
    obtain ⟨a, b⟩ := h2 s hs
    rw [htm] at b
    exact ⟨a.trans (thousandths_text (by omega) (by omega)), b⟩
  · rw [htm] at h3
    exact h3

/-- A client asks, with a time and without one, for the samples of a source. -/
example (rfc dur : Str → Option Int) (num : PVal → Go64) :
    let log := onlyA ([(980000000000, 1), (990500000000, 2), (1000000000000, 3)].map fun x => sampleAt x.1 x.2)
    let node := promNode go64 rfc dur (fun _ => some exEqual) num (fun _ => readerOf log)
      (fun _ ms => (selectArgs ms).ids) 1000300000000 []
    ∀ opts, opts = [.time 7, .time 1000000000000] ∨ opts = [] →
      ∃ samples s, readProm (unmarshalInstant go64) (gatewayServe go64 (fun _ => 500) [] node
          (httpPromQL "cpu{source_id='a'}".toList opts)) = some (.vector samples) ∧
        s ∈ samples ∧ s.point.time = "1000.000".toList := by
  intro log node opts hopts
  obtain ⟨samples, h1, -, h2, h3, -⟩ := C138_instant_partial (st := fun _ => 500) (fun _ _ => by simp) [] [] rfc dur
    (fun _ => some exEqual) num log (onlyA_stored _ (by decide)) (onlyA_clear _) (fun _ => readerOf log)
    exEqual (readerOf_answers log) (fun _ ms => (selectArgs ms).ids) namedOrder_valid "cpu{source_id='a'}".toList rfl
    exEqual_plain opts 1000300000000 1000000000000 (by
      refine ⟨by decide, ?_⟩
      rcases hopts with rfl | rfl
      · exact .inl ⟨rfl, by decide, by decide⟩
      · exact .inr ⟨rfl, by decide, by decide, by decide, by decide⟩)
  obtain ⟨s, hs, -⟩ := h3 "a".toList (sampleAt 990500000000 2) (by decide) ⟨_, (sampleAt_shows _ _ _).2 rfl⟩
    (by unfold Recent secondOf; decide)
  refine ⟨samples, s, h1, hs, (h2 s hs).1.trans ?_⟩
  decide +kernel

/-- The newest value is not seen when it is from the time the client gives: C133_now_false,
at the client. -/
theorem C138_now_false (rfc dur : Str → Option Int) (num : PVal → Go64) (why msg : Str) (query : Str) :
    ∃ log e, StoredLogs log ∧ ClearLabels log ∧ e ∈ log "a".toList ∧ Shows exEqual e (.counter 1) ∧
      e.timestamp = 1000000000000 ∧
      readProm (unmarshalInstant go64) (gatewayServe go64 (fun _ => 500) why (promNode go64 rfc dur
        (fun _ => some exEqual) num (fun _ => readerOf log) (fun _ ms => (selectArgs ms).ids) 1000000000000 msg)
        (httpPromQL query [.time 1000000000000])) = some (.vector []) := by
  obtain ⟨log, e, h1, h2, h3, h4, h5, h6⟩ := C133_now_false go64 rfc num query
  refine ⟨log, e, h1, h2, h3, h4, h5, ?_⟩
  have ht : parseTime rfc (askedInstant query [.time 1000000000000]).time = some 1000000000000 := by
    obtain ⟨u, a1, -, -, a2⟩ := C101_client_time rfc 1000000000000 (by decide)
    rw [show (askedInstant query [.time 1000000000000]).time = formatClientTime ((1000000000000 : Nat) : Int) from rfl, a1,
      a2 (by decide)]
    rfl
  have hans : (promNode go64 rfc dur (fun _ => some exEqual) num (fun _ => readerOf log)
      (fun _ ms => (selectArgs ms).ids) 1000000000000 msg).instant (askedInstant query [.time 1000000000000]) =
      .ok (some (.vector [])) := by
    have := h6 1000000000000 (askedInstant query [.time 1000000000000]).time (by
      split
      · rfl
      · exact ht)
    show serverAns msg (instantQuery go64 rfc (fun _ t => some (plainInstant num exEqual t)) _ _ _ query _).result = _
    rw [this]
    rfl
  exact ((C104_instant C76_float64 (st := fun _ => 500) (fun _ _ => by simp) why _ query _).1 _ hans
    (fun p hp => nomatch hp)).2

/-- The same for range queries: a client gets the points that C134 speaks of, with the times
of the steps in seconds. -/
theorem C138_range_partial {st : Nat → Nat} (hst : ErrorStatus st) (why msg : Str) (rfc dur : Str → Option Int)
    (parse : Str → Option (List Matcher)) (num : PVal → Go64)
    (log : Str → List Envelope) (hs : StoredLogs log) (hc : ClearLabels log)
    (read : Nat → ReadRequest → Option (List Envelope)) (ms : List Matcher) (hr : AnswersFrom ms log (read 0))
    (order : Nat → List Matcher → List Str) (ho : ValidOrder (order 0))
    (query : Str) (hq : parse query = some ms) (hp : PlainSelector ms)
    (opts : List PromOpt) (now : Int) (a b : Nat) (ht : RangeGiven opts a b) (step : Str) (d : Nat)
    (hstep : lastGiven stepOf opts = some step) (hd : parseStep dur step = some (d * 1000000 : Nat)) (hd0 : 1 ≤ d) :
    ∃ series,
      readProm (unmarshalRange go64) (gatewayServe go64 st why (promNode go64 rfc dur parse num read order now msg)
        (httpPromQLRange query opts)) = some (.matrix series) ∧
      grpcProm ((promNode go64 rfc dur parse num read order now msg).range (grpcPromQLRange query opts)) =
        some (some (.matrix series)) ∧
      (∀ s ∈ series, s.points ≠ [] ∧ ∃ e ∈ log e.sourceId, (∃ v, Shows ms e v) ∧ CarriesLabels s.metric e ∧
        ∃ shown : Int → Option (Envelope × PVal), ∃ ts : List Int, ts.Pairwise (· < ·) ∧
          (∀ T, T ∈ ts ↔ IsStep (a * 1000) (b * 1000) d T) ∧
          (∀ T ∈ ts, StepShows (log e.sourceId) ms e (b * 1000000000) (T * 1000000) (shown T)) ∧
          s.points = ts.filterMap fun T => (shown T).map fun y => ⟨thousandthsText T, num y.2⟩) ∧
      (∀ id, ∀ e ∈ log id, (∃ v, Shows ms e v) → ∀ T, IsStep (a * 1000) (b * 1000) d T →
        InSecond (T * 1000000) (b * 1000000000) e ∨ SecondsBefore (T * 1000000) (b * 1000000000) e →
        ∃ s ∈ series, CarriesLabels s.metric e) ∧
      series.Pairwise fun s s' => ¬ SameLabels s.metric s'.metric := by
  obtain ⟨ha, hb, hb1, ha2, hb2⟩ := ht
  have hread : ∀ n : Nat, n < 2 ^ 32 - 1 →
      parseTime rfc (timeText (some ((n * 1000000000 : Nat) : Int))) = some ((n * 1000000000 : Nat) : Int) := by
    intro n hn
    obtain ⟨u, a1, -, -, a2⟩ := C101_client_time rfc (n * 1000000000) (by omega)
    rw [show timeText (some ((n * 1000000000 : Nat) : Int)) = formatClientTime ((n * 1000000000 : Nat) : Int) from rfl, a1,
      a2 (Nat.dvd_mul_left _ _)]
  have ea : parseTime rfc (askedRange query opts).start = some ((a * 1000000000 : Nat) : Int) := by
    unfold askedRange
    simp only
    rw [ha]
    exact hread a ha2
  have eb : parseTime rfc (askedRange query opts).stop = some ((b * 1000000000 : Nat) : Int) := by
    unfold askedRange
    simp only
    rw [hb]
    exact hread b hb2
  have ed : parseStep dur (askedRange query opts).step = some ((d * 1000000 : Nat) : Int) := by
    unfold askedRange
    simp only
    rw [hstep]
    exact hd
  obtain ⟨series, h1, h2, h3, h4⟩ := C134_range_partial go64 rfc dur num log hs hc read ms hr order ho hp query
    (askedRange query opts).start (askedRange query opts).stop (askedRange query opts).step _ _ _ ea eb ed
    (by omega) (by omega) (by omega) (by omega) (by omega)
  rw [show ((a * 1000000000 : Nat) : Int) / 1000000 = a * 1000 by omega,
    show ((b * 1000000000 : Nat) : Int) / 1000000 = b * 1000 by omega,
    show ((d * 1000000 : Nat) : Int) / 1000000 = d by omega,
    show (b : Int) * 1000 * 1000000 = b * 1000000000 by omega] at h2 h3
  have hans : (promNode go64 rfc dur parse num read order now msg).range (askedRange query opts) =
      .ok (some (.matrix series)) := by
    have hq' : (rangeQuery go64 rfc dur (fun q a b d => (parse q).map (plainRange num · a b d)) read order
        (askedRange query opts).query (askedRange query opts).start (askedRange query opts).stop
        (askedRange query opts).step) =
        rangeQuery go64 rfc dur (fun _ a b d => some (plainRange num ms a b d)) read order query
          (askedRange query opts).start (askedRange query opts).stop (askedRange query opts).step := by
      unfold rangeQuery
      rw [ea, eb, ed]
      simp only
      rw [show (askedRange query opts).query = query from rfl, hq]
      rfl
    show serverAns msg _ = _
    rw [hq', h1]
    rfl
  have hthree : ∀ p ∈ points (.matrix series), ThreeDecimals go64 p.time := by
    intro p hp
    obtain ⟨s, hs, hps⟩ := List.mem_flatMap.1 hp
    obtain ⟨-, e, -, -, -, shown, ts, -, -, -, hpts⟩ := h2 s hs
    rw [hpts] at hps
    obtain ⟨T, -, hT⟩ := List.mem_filterMap.1 hps
    obtain ⟨y, -, rfl⟩ := Option.map_eq_some_iff.1 hT
    exact thousandths_three
  obtain ⟨g1, g2⟩ := (C104_range C76_float64 hst why _ query opts).1 _ hans hthree
  refine ⟨series, g2, g1, ?_, h3, h4⟩
  intro s hs
  obtain ⟨a1, e, a2, a3, a4, shown, ts, b1, b2, b3, b4⟩ := h2 s hs
  refine ⟨a1, e, a2, a3, a4, shown, ts, b1, b2, b3, b4.trans (List.filterMap_congr fun T hT => ?_)⟩
  obtain ⟨k, hk, hle⟩ := (b2 T).1 hT
  have : 0 ≤ (d : Int) * k := Int.mul_nonneg (by omega) (by omega)
  rw [thousandths_text (by omega) (by omega)]

/-- A query the engine cannot read fails for every client: over gRPC, over HTTP, and raw
over HTTP with the engine's text, whatever its times are. -/
theorem C138_unreadable {st : Nat → Nat} (hst : ErrorStatus st) (h2 : st 2 = 500) (why msg : Str)
    (rfc dur : Str → Option Int) (parse : Str → Option (List Matcher)) (num : PVal → Go64)
    (read : Nat → ReadRequest → Option (List Envelope)) (order : Nat → List Matcher → List Str) (now : Int)
    (query : Str) (hq : parse query = none) (opts : List PromOpt) :
    let s := promNode go64 rfc dur parse num read order now msg
    (grpcProm (s.instant (grpcPromQL query opts)) = none ∧
      readProm (unmarshalInstant go64) (gatewayServe go64 st why s (httpPromQL query opts)) = none ∧
      ∃ x, readRaw (gatewayServe go64 st why s (httpPromQL query opts)) = some x ∧ RawFailed x msg) ∧
    (grpcProm (s.range (grpcPromQLRange query opts)) = none ∧
      readProm (unmarshalRange go64) (gatewayServe go64 st why s (httpPromQLRange query opts)) = none ∧
      ∃ x, readRaw (gatewayServe go64 st why s (httpPromQLRange query opts)) = some x ∧ RawFailed x msg) := by
  intro s
  have e1 : s.instant (askedInstant query opts) = .error 2 msg := by
    have : (instantQuery go64 rfc (fun q t => (parse q).map (plainInstant num · t)) read order now
        (askedInstant query opts).query (askedInstant query opts).time).result = .error := by
      unfold instantQuery
      cases requestTime rfc now (askedInstant query opts).time with
      | none => rfl
      | some t =>
        simp only
        rw [show (askedInstant query opts).query = query from rfl, hq]
        rfl
    show serverAns msg _ = _
    rw [this]
    rfl
  have e2 : s.range (askedRange query opts) = .error 2 msg := by
    have : (rangeQuery go64 rfc dur (fun q a b d => (parse q).map (plainRange num · a b d)) read order
        (askedRange query opts).query (askedRange query opts).start (askedRange query opts).stop
        (askedRange query opts).step).result = .error := by
      unfold rangeQuery
      cases parseStep dur (askedRange query opts).step with
      | none => rfl
      | some d =>
        cases parseTime rfc (askedRange query opts).start with
        | none => rfl
        | some a =>
          cases parseTime rfc (askedRange query opts).stop with
          | none => rfl
          | some b =>
            simp only
            rw [show (askedRange query opts).query = query from rfl, hq]
            rfl
    show serverAns msg _ = _
    rw [this]
    rfl
  obtain ⟨a1, a2⟩ := (C104_instant C76_float64 hst why s query opts).2 _ _ e1 (by decide)
  obtain ⟨b1, b2⟩ := (C104_range C76_float64 hst why s query opts).2 _ _ e2 (by decide)
  obtain ⟨-, c1, -, c2⟩ := C105_raw C76_float64 hst why s query opts
  have c1 := c1 _ _ e1 (by decide)
  have c2 := c2 _ _ e2 (by decide)
  rw [if_pos (.inr h2)] at c1 c2
  exact ⟨⟨a1, a2, c1⟩, b1, b2, c2⟩

end LogCache
