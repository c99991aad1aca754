import Verif.Model.SyslogMetric
import Verif.Spec.SyslogMetric
import Verif.Props.SyslogStream
import Verif.Props.HttpWire
import Verif.Proof.Protobuf

/-! # C151: metrics sent over syslog -/

namespace LogCache
open Spec

theorem lastValues_nodup {ps : List (Str × Str)} (h : (ps.map (·.1)).Nodup) : lastValues ps = ps := by
  induction ps with
  | nil => rfl
  | cons p ps ih =>
    rw [List.map_cons, List.nodup_cons] at h
    rw [lastValues, if_neg h.1, ih h.2]

theorem attr_mem {ps : List (Str × Str)} (h : (ps.map (·.1)).Nodup) {k : String} {v : Str} (hm : (k.toList, v) ∈ ps) :
    ps.lookup k.toList = some v ∧ attr ps k = v := by
  have : ps.lookup k.toList = some v := by
    induction ps with
    | nil => cases hm
    | cons p ps ih =>
      rw [List.map_cons, List.nodup_cons] at h
      rcases List.mem_cons.1 hm with rfl | hm
      · exact List.lookup_cons_self
      · have hne : (k.toList == p.1) = false := by
          rw [beq_eq_false_iff_ne]
          intro e
          exact h.1 (List.mem_map.2 ⟨_, hm, e⟩)
        rw [List.lookup_cons, hne]
        exact ih h.2 hm
  exact ⟨this, by unfold attr; rw [this]; rfl⟩

theorem syslogFloat_text {w : Str} (h : FloatText w) :
    ∃ x, Binary64 x ∧ ValueText x w ∧ syslogFloat w = some (f64Bits x : Int) := by
  unfold syslogFloat
  rcases h with ⟨neg, q, hs, hq⟩ | rfl | rfl | rfl
  · obtain ⟨m, e, hp, hn⟩ := C96_numbers hs hq
    refine ⟨.fin neg m e, hn.1, ⟨q, hs, hn⟩, ?_⟩
    rw [hp]; rfl
  · exact ⟨.nan, trivial, rfl, by rw [C96_words (x := .nan) (.inr (.inr ⟨by decide, rfl⟩))]; rfl⟩
  · exact ⟨.inf false, trivial, rfl, by rw [C96_words (x := .inf false) (.inl ⟨by decide, rfl⟩)]; rfl⟩
  · exact ⟨.inf true, trivial, rfl, by rw [C96_words (x := .inf true) (.inr (.inl ⟨by decide, rfl⟩))]; rfl⟩

/-- Lines that the server can read and turn into envelopes are all sent on, in order, and
counted, however the network cuts the stream. -/
theorem sent_all {α : Type} (pf : Str → Option Int) (max : Nat) (idle now : Int) (cs : List (Int × List UInt8))
    (ht : OnTime max parseOctets idle (newConn idle now) cs) (ls : List α) (hne : ls ≠ []) (line : α → Str)
    (msg : α → SyslogMsg) (R : α → Envelope → Prop) (hp : ∀ x ∈ ls, Rfc5424 (line x) (msg x))
    (hlen : ∀ x ∈ ls, (octets (line x)).length ≤ max)
    (conv : ∀ x ∈ ls, ∃ e, convertToEnvelope pf (msg x) = some (some e) ∧ R x e)
    (hdata : allData cs = ls.flatMap (fun x => syslogFrame (octets (line x)))) :
    ∃ s, syslogRun pf {} ((connRun max parseOctets idle (newConn idle now) (dataEvents cs ++ [.close])).map (·, true)) = some s ∧
      s.ingress = ls.length ∧ s.invalid = 0 ∧ List.Forall₂ R ls s.sent := by
  have hf := (C110_frames max parseOctets idle now cs ht (ls.map fun x => (octets (line x), msg x)) (by
    intro y hy
    obtain ⟨x, hx, rfl⟩ := List.mem_map.1 hy
    have hpx : parseOctets (octets (line x)) = some (msg x) := (C111_parse _ _).2 ⟨_, rfl, hp x hx⟩
    refine ⟨?_, hlen x hx, hpx⟩
    intro h0
    obtain ⟨pri, _, _, _, _, _, _, _, _, _, _, hl, _⟩ := hp x hx
    have h2 := congrArg List.length h0
    simp only [hl, octets_append, List.length_append, List.cons_append, octets_cons, List.length_nil] at h2
    have : (String.utf8EncodeChar '<').length = 1 := by decide
    omega) (by rw [hdata, List.flatMap_map])).2 (by simpa using hne)
  rw [hf]
  have key : ∀ (ls : List α), (∀ x ∈ ls, ∃ e, convertToEnvelope pf (msg x) = some (some e) ∧ R x e) →
      ∀ s0 : SyslogState, ∃ s es, syslogRun pf s0 ((ls.map fun x => (SyslogIn.msg (msg x), true))) = some s ∧
        s.ingress = s0.ingress + ls.length ∧ s.invalid = s0.invalid ∧ s.sent = s0.sent ++ es ∧ List.Forall₂ R ls es := by
    intro ls
    induction ls with
    | nil => intro _ s0; exact ⟨s0, [], rfl, rfl, rfl, by simp, .nil⟩
    | cons x ls ih =>
      intro h s0
      obtain ⟨e, he, hc⟩ := h x (List.mem_cons_self ..)
      have hstep : parseListener pf true s0 (.msg (msg x)) =
          some { s0 with ingress := s0.ingress + 1, sent := s0.sent ++ [e] } := by
        unfold parseListener
        simp only [he]
        rfl
      obtain ⟨s, es, h1, h2, h3, h4, h5⟩ := ih (fun y hy => h y (List.mem_cons_of_mem _ hy))
        { s0 with ingress := s0.ingress + 1, sent := s0.sent ++ [e] }
      refine ⟨s, e :: es, ?_, ?_, h3, ?_, .cons hc h5⟩
      · rw [List.map_cons, syslogRun, hstep]
        exact h1
      · rw [h2, List.length_cons]
        simp only
        omega
      · rw [h4]; simp
  obtain ⟨s, es, h1, h2, h3, h4, h5⟩ := key ls conv {}
  refine ⟨s, ?_, ?_, h3, ?_⟩
  · rw [← h1]
    congr 1
    simp
  · rw [h2]; simp
  · rw [h4]; simpa using h5

/-- What the parser makes of the line of a metric. -/
theorem metric_rfc5424 {max : Nat} {l : AppMetric} {t : Int} {inst : Str} (h : l.Valid max t inst) :
    ∃ v, Rfc5424 l.line
      { procId := some l.pid, appname := some l.app, timestamp := some t, structuredData := some [(l.id, l.params)],
        message := v, priority := some 14 } := by
  obtain ⟨h1, _, _, h2, h3, h4, _, _, hid, hps, hnd, _, ⟨v, hv⟩, _⟩ := h
  have hdash : HeaderField 32 "-".toList none := by
    refine ⟨by decide, by decide, ?_, .inl ⟨rfl, rfl⟩⟩
    intro c hc
    have : c = '-' := by simpa using hc
    subst this
    exact (visible_iff _).1 (by decide)
  refine ⟨v, 14, 1, l.time, l.host, l.app, l.pid, "-".toList, sdElementText (l.id, l.params), l.text,
    some l.host, none, ?_, by omega, by omega, by omega, .inr ⟨t, h1, rfl⟩, h2, h3, h4, hdash,
    .inr ⟨[(l.id, l.params)], by simp, by simp, ?_, by simp, ?_⟩, hv, rfl⟩
  · unfold AppMetric.line
    have e2 : "<14>1 ".toList = '<' :: dec 14 ++ '>' :: dec 1 ++ [' '] := by decide +kernel
    have e3 : " - ".toList = ' ' :: "-".toList ++ [' '] := by decide +kernel
    rw [e2, e3]
    generalize "-".toList = x
    simp
  · intro e he
    have : e = (l.id, l.params) := by simpa using he
    subst this
    exact ⟨hid, hps⟩
  · simp [lastValues_nodup hnd]

theorem metric_converted {max : Nat} {l : AppMetric} {t : Int} {inst : Str} (h : l.Valid max t inst) (v : Option Str) :
    ∃ e, convertToEnvelope syslogFloat
      { procId := some l.pid, appname := some l.app, timestamp := some t, structuredData := some [(l.id, l.params)],
        message := v, priority := some 14 } = some (some e) ∧ l.CarriedBy t inst e := by
  obtain ⟨_, h1, h2, _, _, _, hl, hw, _, _, hnd, hm, _, _⟩ := h
  have hinst : (sourceTypeInstId l.pid).2 = inst := by
    unfold AppMetric.pid
    cases hp : l.path with
    | nil => rw [hp] at hl; cases hl
    | cons k r => rw [hp] at hl hw; rw [C90_instance (k :: r) k inst rfl hl hw]
  have key : ∃ m, l.metric.Stored m ∧ ElementMeans syslogFloat l.id l.params m := by
    cases hk : l.metric with
    | counter name d tot =>
      rw [hk] at hm
      obtain ⟨a, b, c, d1, d2, d3⟩ := hm
      refine ⟨_, rfl, ?_⟩
      have := ElementMeans.counter (pf := syslogFloat) (ps := l.params) (d := d) (t := tot) a
        (by rw [(attr_mem hnd d2).2]; exact ⟨numeral_dec _, b⟩) (by rw [(attr_mem hnd d3).2]; exact ⟨numeral_dec _, c⟩)
      rwa [(attr_mem hnd d1).2] at this
    | gauge name unit value =>
      rw [hk] at hm
      obtain ⟨a, b, d1, d2, d3⟩ := hm
      obtain ⟨x, hx, hv, hf⟩ := syslogFloat_text b
      refine ⟨_, ⟨x, hx, hv, rfl⟩, ?_⟩
      have := ElementMeans.gauge (pf := syslogFloat) (ps := l.params) (u := unit) (v := f64Bits x) a
        (attr_mem hnd d2).1 (by rw [(attr_mem hnd d3).2]; exact hf)
      rwa [(attr_mem hnd d1).2] at this
    | event title body =>
      rw [hk] at hm
      obtain ⟨a, d1, d2⟩ := hm
      refine ⟨_, rfl, ?_⟩
      have := ElementMeans.event (pf := syslogFloat) (ps := l.params) a
      rwa [(attr_mem hnd d1).2, (attr_mem hnd d2).2] at this
    | timer name start stop =>
      rw [hk] at hm
      obtain ⟨a, b1, b2, c1, c2, d1, d2, d3⟩ := hm
      refine ⟨_, rfl, ?_⟩
      have := ElementMeans.timer (pf := syslogFloat) (ps := l.params) (a := start) (b := stop) a
        (by rw [(attr_mem hnd d2).2]; exact (parseInt64_iff _ _).1 (parseInt64_dec b1 b2))
        (by rw [(attr_mem hnd d3).2]; exact (parseInt64_iff _ _).1 (parseInt64_dec c1 c2))
      rwa [(attr_mem hnd d1).2] at this
  obtain ⟨m, hs, he⟩ := key
  exact ⟨{ sourceId := l.app, timestamp := t, instanceId := inst, message := some m },
    (C74_structured syslogFloat _ l.pid l.app t ⟨rfl, rfl, rfl⟩ h1 h2 l.id l.params rfl _).2
      ⟨m, he, rfl, rfl, rfl, hinst.symm, rfl, rfl⟩, rfl, rfl, rfl, rfl, rfl, m, hs, rfl⟩

/-- Log lines, counters, gauges, events and timers of conforming senders, in any mixture,
arrive as they were sent: each as one envelope with the source id, instance, time and
content of the line, in order, counted once, without any error, however the network cuts the
stream. -/
theorem C151_metrics (max : Nat) (idle now : Int) (cs : List (Int × List UInt8))
    (ht : OnTime max parseOctets idle (newConn idle now) cs)
    (ls : List (AppMessage × Int × Str)) (hne : ls ≠ []) (hv : ∀ x ∈ ls, x.1.Valid max x.2.1 x.2.2)
    (hdata : allData cs = ls.flatMap (fun x => syslogFrame (octets x.1.line))) :
    ∃ s, syslogRun syslogFloat {}
        ((connRun max parseOctets idle (newConn idle now) (dataEvents cs ++ [.close])).map (·, true)) = some s ∧
      s.ingress = ls.length ∧ s.invalid = 0 ∧ List.Forall₂ (fun x e => x.1.CarriedBy x.2.1 x.2.2 e) ls s.sent := by
  have hmsg : ∀ x ∈ ls, ∃ m, Rfc5424 x.1.line m ∧
      ∃ e, convertToEnvelope syslogFloat m = some (some e) ∧ x.1.CarriedBy x.2.1 x.2.2 e := by
    rintro ⟨x, t, inst⟩ hx
    have h := hv _ hx
    cases x with
    | log l kind =>
      refine ⟨_, line_rfc5424 h, ?_⟩
      obtain ⟨v1, v2, v3, v4, v5, v6, v7, v8, v9, v10, _⟩ := h
      simp only at v2 v3 v7 v8
      obtain ⟨line, hl, he⟩ := C74_log syslogFloat
        { procId := some l.pid, appname := some l.app, timestamp := some t, message := some l.text,
          priority := some (if l.stderr then 11 else 14) } l.pid l.app l.text t (if l.stderr then 11 else 14)
        ⟨rfl, rfl, rfl⟩ v2 v3 (.inl rfl) rfl rfl
      refine ⟨_, he, rfl, rfl, ?_, ?_, line, hl, ?_⟩
      · show (sourceTypeInstId l.pid).2 = _
        unfold AppLog.pid
        rw [C90_instance l.path _ _ v7 v8 v9]
      · show [("source_type".toList, (sourceTypeInstId l.pid).1)] = _
        unfold AppLog.pid
        rw [C90_instance l.path _ _ v7 v8 v9]
      · show some (Message.log line (decide ((if l.stderr = true then 11 else 14) = 11))) = _
        cases l.stderr <;> rfl
    | metric l =>
      obtain ⟨v, hr⟩ := metric_rfc5424 h
      exact ⟨_, hr, metric_converted h v⟩
  have hch : ∃ msg : AppMessage × Int × Str → SyslogMsg, ∀ x ∈ ls, Rfc5424 x.1.line (msg x) ∧
      ∃ e, convertToEnvelope syslogFloat (msg x) = some (some e) ∧ x.1.CarriedBy x.2.1 x.2.2 e := by
    classical
    refine ⟨fun x => if h : x ∈ ls then (hmsg x h).choose else {}, fun x hx => ?_⟩
    simp only [dif_pos hx]
    exact (hmsg x hx).choose_spec
  obtain ⟨msg, hm⟩ := hch
  refine sent_all syslogFloat max idle now cs ht ls hne (fun x => x.1.line) msg
    (fun x e => x.1.CarriedBy x.2.1 x.2.2 e) (fun x hx => (hm x hx).1) ?_ (fun x hx => (hm x hx).2) hdata
  rintro ⟨x, t, inst⟩ hx
  have h := hv _ hx
  cases x with
  | log l kind => exact h.2.2.2.2.2.2.2.2.2.2
  | metric l => exact h.2.2.2.2.2.2.2.2.2.2.2.2.2

/-- Every value of a gauge can be sent: the shortest text that reads back as the value is
accepted, and the value stored is the one that was sent, to the last bit. -/
theorem C151_gauge_exact (x : F64) (hx : Binary64 x) :
    FloatText x.fmtShort ∧ syslogFloat x.fmtShort = some (f64Bits x : Int) ∧ f64OfBits (f64Bits x) = x := by
  refine ⟨?_, by unfold syslogFloat; rw [short_read x hx]; rfl, f64_read hx⟩
  have hp := short_read x hx
  have hne : parseFloat x.fmtShort ≠ none := by rw [hp]; simp
  rw [Ne, C96_errors, not_and_or] at hne
  cases x with
  | nan => exact .inr (.inl rfl)
  | inf neg => cases neg with
    | false => exact .inr (.inr (.inl rfl))
    | true => exact .inr (.inr (.inr rfl))
  | fin neg m e =>
    left
    rcases hne with hw | hs
    · exfalso
      rw [not_forall] at hw
      obtain ⟨x, hx⟩ := hw
      rw [not_not] at hx
      have := C96_words hx
      rw [hp] at this
      injection this with this
      subst this
      rcases hx with ⟨_, h⟩ | ⟨_, h⟩ | ⟨_, h⟩ <;> cases h
    · simp only [not_forall, not_le] at hs
      obtain ⟨neg', q, h1, h2⟩ := hs
      exact ⟨neg', q, h1, h2⟩

/-- A message with structured data none of whose elements begins with the name of an envelope
kind is lost, whatever its text: it counts as invalid. -/
theorem C151_other_data (pf : Str → Option Int) (m : SyslogMsg) (pid app : Str) (ts : Int) (hc : Complete m pid app ts)
    (es : List (Str × List (Str × Str))) (hne : es ≠ []) (hs : m.structuredData = some es)
    (h : ∀ x ∈ es, ¬ "counter".toList <+: x.1 ∧ ¬ "gauge".toList <+: x.1 ∧ ¬ "event".toList <+: x.1 ∧ ¬ "timer".toList <+: x.1)
    (ok : Bool) (s : SyslogState) :
    syslogRun pf s [(.msg m, ok)] = some { s with invalid := s.invalid + 1 } := by
  obtain ⟨hp, ha, ht⟩ := hc
  cases es with
  | nil => exact absurd rfl hne
  | cons x es =>
    obtain ⟨h1, h2, h3, h4⟩ := h x (List.mem_cons_self ..)
    have e : ∀ p : Str, ¬ p <+: x.1 → hasPrefix x.1 p = false := by
      intro p hp
      cases hq : hasPrefix x.1 p with
      | false => rfl
      | true => exact absurd (List.isPrefixOf_iff_prefix.1 hq) hp
    have : convertToEnvelope pf m = some none := by
      unfold convertToEnvelope
      simp only [hp, ha, ht, hs]
      unfold convertElement
      rw [e _ h1, e _ h2, e _ h3, e _ h4]
      rfl
    unfold syslogRun parseListener
    simp only [this]
    rfl

/-- So a log line with tags, which RFC 5424 allows, is lost; and the tags of a metric are
never stored: if the server happens to look at the tags first, the metric is lost too. -/
theorem C151_tags_false :
    (∃ m, Rfc5424 "<14>1 2019-05-15T15:00:00Z host app [APP/0] - [tags@47450 k=\"v\"] hello".toList m ∧
      syslogRun syslogFloat {} [(.msg m, true)] = some { invalid := 1 }) ∧
    ∃ m x y, Rfc5424 ("<14>1 2019-05-15T15:00:00Z host app [APP/0] - [counter@47450 name=\"c\" delta=\"1\" total=\"2\"]".toList ++
        "[tags@47450 k=\"v\"]".toList) m ∧
      m.structuredData = some [x, y] ∧
      syslogRun syslogFloat {} [(.msg m, true)] = some { ingress := 1, sent :=
        [{ sourceId := "app".toList, timestamp := 1557932400000000000, instanceId := "0".toList,
           message := some (.counter "c".toList 1 2) }] } ∧
      syslogRun syslogFloat {} [(.msg { m with structuredData := some [y, x] }, true)] = some { invalid := 1 } := by
  constructor
  · refine ⟨{ procId := some "[APP/0]".toList, appname := some "app".toList, timestamp := some 1557932400000000000,
              structuredData := some [("tags@47450".toList, [("k".toList, "v".toList)])],
              message := some "hello".toList, priority := some 14 }, (rfc5424_iff _ _).1 (by decide +kernel), by decide +kernel⟩
  · refine ⟨{ procId := some "[APP/0]".toList, appname := some "app".toList, timestamp := some 1557932400000000000,
              structuredData := some [("counter@47450".toList, [("name".toList, "c".toList), ("delta".toList, "1".toList),
                ("total".toList, "2".toList)]), ("tags@47450".toList, [("k".toList, "v".toList)])],
              priority := some 14 }, _, _, (rfc5424_iff _ _).1 (by decide +kernel), rfl, by decide +kernel, by decide +kernel⟩

/-- A log line whose structured data begins with the name of an envelope kind, such as
`eventSource`, is stored as an event without title and body; its text is lost. -/
theorem C151_event_false :
    ∃ m, Rfc5424 "<14>1 2019-05-15T15:00:00Z host app [APP/0] - [eventSource@1 id=\"7\"] hello".toList m ∧
      syslogRun syslogFloat {} [(.msg m, true)] = some { ingress := 1, sent :=
        [{ sourceId := "app".toList, timestamp := 1557932400000000000, instanceId := "0".toList,
           message := some (.event [] []) }] } := by
  refine ⟨{ procId := some "[APP/0]".toList, appname := some "app".toList, timestamp := some 1557932400000000000,
              structuredData := some [("eventSource@1".toList, [("id".toList, "7".toList)])],
              message := some "hello".toList, priority := some 14 }, (rfc5424_iff _ _).1 (by decide +kernel), by decide +kernel⟩

/-- The hypotheses can be met: a gauge in the form of the platform, with quotes in its name. -/
def sampleGauge : AppMetric :=
  { metric := .gauge "a\"b]".toList "percentage".toList "-1.5e2".toList
    time := "2019-05-15T15:00:00.25Z".toList, host := "org.space.app".toList,
    app := "c3a1f0e2-0000-4000-8000-000000000001".toList, path := ["3".toList],
    id := "gauge@47450".toList,
    params := [("name".toList, "a\"b]".toList), ("value".toList, "-1.5e2".toList), ("unit".toList, "percentage".toList)],
    text := [] }

example : sampleGauge.Valid 8197 1557932400250000000 "3".toList := by
  have vis : ∀ s : Str, s.all visibleAscii = true → ∀ c ∈ s, Visible c := by
    intro s h c hc
    rw [List.all_eq_true] at h
    exact (visible_iff c).1 (h c hc)
  have nam : ∀ s : Str, s ≠ [] → s.length ≤ 32 → s.all sdNameChar = true → SdName s := by
    intro s h1 h2 h
    rw [List.all_eq_true] at h
    exact ⟨h1, h2, fun c hc => (sdNameChar_iff c).1 (h c hc)⟩
  have hfl : FloatText "-1.5e2".toList := by
    have hp : parseFloat "-1.5e2".toList = some (.fin true 5277655813324800 (-45)) := by decide +kernel
    have hne : parseFloat "-1.5e2".toList ≠ none := by rw [hp]; simp
    rw [Ne, C96_errors, not_and_or] at hne
    rcases hne with hw | hs
    · exfalso
      rw [not_forall] at hw
      obtain ⟨x, hx⟩ := hw
      rw [not_not] at hx
      have := C96_words hx
      rw [hp] at this
      injection this with this
      subst this
      rcases hx with ⟨_, h⟩ | ⟨_, h⟩ | ⟨_, h⟩ <;> cases h
    · simp only [not_forall, not_le] at hs
      obtain ⟨neg', q, h1, h2⟩ := hs
      exact .inl ⟨neg', q, h1, h2⟩
  refine ⟨(rfc3339_iff (by omega) _ _).1 (by decide +kernel), by decide, by decide,
    ⟨by decide, by decide, vis _ (by decide), .inr ⟨by decide, rfl⟩⟩,
    ⟨by decide, by decide, vis _ (by decide), .inr ⟨by decide, rfl⟩⟩,
    ⟨by decide, by decide, vis _ (by decide), .inr ⟨by decide, rfl⟩⟩, by decide, by decide,
    nam _ (by decide) (by decide) (by decide), ?_, by decide, ⟨by decide, hfl, by decide, by decide, by decide⟩,
    ⟨none, .inl ⟨.inl rfl, rfl⟩⟩, by decide +kernel⟩
  intro p hp
  have : p.1 ∈ ["name".toList, "value".toList, "unit".toList] := List.mem_map_of_mem (f := Prod.fst) hp
  simp only [List.mem_cons, List.not_mem_nil, or_false] at this
  rcases this with h | h | h <;> rw [h] <;> exact nam _ (by decide) (by decide) (by decide)

end LogCache
