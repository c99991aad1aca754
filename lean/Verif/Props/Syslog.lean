import Verif.Proof.WhiteSpace
import Verif.Spec.Syslog
import Verif.Proof.Num
import Verif.Proof.Promql

/-! # Properties of the syslog server (C74, C89, C90) -/

namespace LogCache
open Spec

private theorem hasPrefix_iff {s p : Str} : hasPrefix s p = true ↔ p <+: s := List.isPrefixOf_iff_prefix

private theorem mapGet_attr (ps : List (Str × Str)) (k : String) : mapGet ps k.toList = attr ps k := rfl

/-- Two different kinds never share a prefix. -/
private theorem prefix_excl {a b id : Str} {x y : Char} {p q : Str} (ha : a = x :: p) (hb : b = y :: q)
    (hxy : x ≠ y) (h1 : a <+: id) : hasPrefix id b = false := by
  cases h : hasPrefix id b with
  | false => rfl
  | true =>
    exfalso
    obtain ⟨u, hu⟩ := h1
    obtain ⟨v, hv⟩ := hasPrefix_iff.1 h
    rw [← hv, ha, hb] at hu
    injection hu with h _
    exact hxy h

private theorem element_iff (pf : Str → Option Int) (env : Envelope) (id : Str) (ps : List (Str × Str)) (e : Envelope) :
    convertElement pf env (id, ps) = some e ↔
      ∃ m, ElementMeans pf id ps m ∧ e = { env with message := some m } := by
  constructor
  · intro h
    unfold convertElement at h
    simp only at h
    by_cases h1 : hasPrefix id "counter".toList = true
    · rw [if_pos h1] at h
      unfold convertCounter at h
      simp only [mapGet_attr] at h
      cases hd : parseUint64 (attr ps "delta") with
      | none => rw [hd] at h; cases h
      | some d =>
        cases ht : parseUint64 (attr ps "total") with
        | none => rw [hd, ht] at h; cases h
        | some t =>
          rw [hd, ht] at h
          injection h with h
          exact ⟨_, .counter (hasPrefix_iff.1 h1) ((parseUint64_iff _ _).1 hd) ((parseUint64_iff _ _).1 ht), h.symm⟩
    rw [if_neg h1] at h
    by_cases h2 : hasPrefix id "gauge".toList = true
    · rw [if_pos h2] at h
      unfold convertGauge at h
      simp only [mapGet_attr] at h
      cases hd : ps.lookup "unit".toList with
      | none => rw [hd] at h; cases h
      | some u =>
        cases ht : pf (attr ps "value") with
        | none => rw [hd, ht] at h; cases h
        | some v =>
          rw [hd, ht] at h
          injection h with h
          exact ⟨_, .gauge (hasPrefix_iff.1 h2) hd ht, h.symm⟩
    rw [if_neg h2] at h
    by_cases h3 : hasPrefix id "event".toList = true
    · rw [if_pos h3] at h
      injection h with h
      exact ⟨_, .event (hasPrefix_iff.1 h3), h.symm⟩
    rw [if_neg h3] at h
    by_cases h4 : hasPrefix id "timer".toList = true
    · rw [if_pos h4] at h
      unfold convertTimer at h
      simp only [mapGet_attr] at h
      cases hd : parseInt64 (attr ps "start") with
      | none => rw [hd] at h; cases h
      | some d =>
        cases ht : parseInt64 (attr ps "stop") with
        | none => rw [hd, ht] at h; cases h
        | some t =>
          rw [hd, ht] at h
          injection h with h
          exact ⟨_, .timer (hasPrefix_iff.1 h4) ((parseInt64_iff _ _).1 hd) ((parseInt64_iff _ _).1 ht), h.symm⟩
    rw [if_neg h4] at h
    cases h
  · rintro ⟨m, hm, rfl⟩
    unfold convertElement
    simp only
    cases hm with
    | counter hid hd ht =>
      rw [if_pos (hasPrefix_iff.2 hid)]
      unfold convertCounter
      simp only [mapGet_attr, (parseUint64_iff _ _).2 hd, (parseUint64_iff _ _).2 ht]
    | gauge hid hu hv =>
      have n1 := prefix_excl (b := "counter".toList) rfl rfl (by decide) hid
      rw [if_neg (by rw [n1]; decide), if_pos (hasPrefix_iff.2 hid)]
      unfold convertGauge
      simp only [mapGet_attr, hu, hv]
    | event hid =>
      have n1 := prefix_excl (b := "counter".toList) rfl rfl (by decide) hid
      have n2 := prefix_excl (b := "gauge".toList) rfl rfl (by decide) hid
      rw [if_neg (by rw [n1]; decide), if_neg (by rw [n2]; decide), if_pos (hasPrefix_iff.2 hid)]
      rfl
    | timer hid ha hb =>
      have n1 := prefix_excl (b := "counter".toList) rfl rfl (by decide) hid
      have n2 := prefix_excl (b := "gauge".toList) rfl rfl (by decide) hid
      have n3 := prefix_excl (b := "event".toList) rfl rfl (by decide) hid
      rw [if_neg (by rw [n1]; decide), if_neg (by rw [n2]; decide), if_neg (by rw [n3]; decide),
        if_pos (hasPrefix_iff.2 hid)]
      unfold convertTimer
      simp only [mapGet_attr, (parseInt64_iff _ _).2 ha, (parseInt64_iff _ _).2 hb]

private theorem wrap_id {n : Int} (h1 : -2 ^ 63 ≤ n) (h2 : n < 2 ^ 63) : wrap64 n = n := by
  unfold wrap64; omega

/-! ## C74 -/

/-- A message with one structured-data element is accepted exactly when the element
means something, and then the envelope is what it means, under the message's
application name, time and instance. -/
theorem C74_structured (pf : Str → Option Int) (m : SyslogMsg) (pid app : Str) (ts : Int)
    (hc : Complete m pid app ts) (h1 : -2 ^ 63 ≤ ts) (h2 : ts < 2 ^ 63)
    (id : Str) (ps : List (Str × Str)) (hs : m.structuredData = some [(id, ps)]) (e : Envelope) :
    convertToEnvelope pf m = some (some e) ↔
      ∃ msg, ElementMeans pf id ps msg ∧ e.message = some msg ∧ e.sourceId = app ∧ e.timestamp = ts ∧
        e.instanceId = (sourceTypeInstId pid).2 ∧ e.tags = [] ∧ e.deprecatedTags = [] := by
  obtain ⟨hp, ha, ht⟩ := hc
  unfold convertToEnvelope
  simp only [hp, ha, ht, hs, Option.some.injEq]
  rw [element_iff, wrap_id h1 h2]
  constructor
  · rintro ⟨msg, hm, rfl⟩
    exact ⟨msg, hm, rfl, rfl, rfl, rfl, rfl, rfl⟩
  · rintro ⟨msg, hm, e1, e2, e3, e4, e5, e6⟩
    refine ⟨msg, hm, ?_⟩
    obtain ⟨_, _, _, _, _, _⟩ := e
    simp only at e1 e2 e3 e4 e5 e6
    subst e1; subst e2; subst e3; subst e4; subst e5; subst e6
    rfl

/-- With several elements the server takes the one that comes first in Go's random order of
maps and ignores the others: each of them may become the envelope. -/
theorem C89_several_partial (pf : Str → Option Int) (m : SyslogMsg) (pid app : Str) (ts : Int)
    (hc : Complete m pid app ts) (h1 : -2 ^ 63 ≤ ts) (h2 : ts < 2 ^ 63)
    (elements : List (Str × List (Str × Str))) (hne : elements ≠ []) (e : Envelope) :
    (∃ order, order.Perm elements ∧
      convertToEnvelope pf { m with structuredData := some order } = some (some e)) ↔
    ∃ id ps msg, (id, ps) ∈ elements ∧ ElementMeans pf id ps msg ∧ e.message = some msg ∧ e.sourceId = app ∧
      e.timestamp = ts ∧ e.instanceId = (sourceTypeInstId pid).2 ∧ e.tags = [] ∧ e.deprecatedTags = [] := by
  have hfirst : ∀ x rest, convertToEnvelope pf { m with structuredData := some (x :: rest) } =
      convertToEnvelope pf { m with structuredData := some [x] } := by
    intro x rest
    unfold convertToEnvelope
    rfl
  constructor
  · rintro ⟨order, hp, h⟩
    cases order with
    | nil => exact absurd hp.nil_eq.symm hne
    | cons x rest =>
      rw [hfirst] at h
      obtain ⟨msg, hm⟩ := (C74_structured pf { m with structuredData := some [x] } pid app ts hc h1 h2 x.1 x.2 rfl e).1 h
      exact ⟨x.1, x.2, msg, hp.mem_iff.1 (List.mem_cons_self ..), hm⟩
  · rintro ⟨id, ps, msg, hmem, hm⟩
    refine ⟨(id, ps) :: elements.erase (id, ps), (List.perm_cons_erase hmem).symm, ?_⟩
    rw [hfirst]
    exact (C74_structured pf { m with structuredData := some [(id, ps)] } pid app ts hc h1 h2 id ps rfl e).2 ⟨msg, hm⟩

/-- One message with a counter and an event: in one order of the map the counter is stored,
in the other the event. -/
theorem C89_several_false (pf : Str → Option Int) : ∃ (m : SyslogMsg) (x y : Str × List (Str × Str)) (e e' : Envelope),
    e ≠ e' ∧ convertToEnvelope pf { m with structuredData := some [x, y] } = some (some e) ∧
    convertToEnvelope pf { m with structuredData := some [y, x] } = some (some e') := by
  refine ⟨{ procId := some "[APP/0]".toList, appname := some "a".toList, timestamp := some 1 },
    ("counter@1".toList, [("name".toList, "c".toList), ("delta".toList, "1".toList), ("total".toList, "2".toList)]),
    ("event@1".toList, [("title".toList, "t".toList), ("body".toList, "b".toList)]),
    { sourceId := "a".toList, timestamp := 1, instanceId := "0".toList,
      message := some (.counter "c".toList 1 2) },
    { sourceId := "a".toList, timestamp := 1, instanceId := "0".toList,
      message := some (.event "t".toList "b".toList) }, by decide, ?_, ?_⟩
  · rfl
  · rfl

private theorem trim_spec (f : Char → Bool) (s : Str) : ∃ a b, s = a ++ trimWith f s ++ b ∧
    (∀ c ∈ a ++ b, f c = true) ∧ (∀ c, (trimWith f s).head? = some c → f c = false) ∧
    (∀ c, (trimWith f s).getLast? = some c → f c = false) := by
  unfold trimWith
  generalize hd : s.dropWhile f = d
  have e1 : s = s.takeWhile f ++ d := by rw [← hd]; exact List.takeWhile_append_dropWhile.symm
  have hdh : ∀ c, d.head? = some c → f c = false := by
    intro c hc
    have := List.head?_dropWhile_not f s
    rw [hd, hc] at this
    simpa using this
  have e2 : d = (d.reverse.dropWhile f).reverse ++ (d.reverse.takeWhile f).reverse := by
    rw [← List.reverse_append, List.takeWhile_append_dropWhile, List.reverse_reverse]
  refine ⟨s.takeWhile f, (d.reverse.takeWhile f).reverse, ?_, ?_, ?_, ?_⟩
  · rw [List.append_assoc, ← e2]; exact e1
  · intro c hc
    rcases List.mem_append.1 hc with hc | hc
    · exact List.all_eq_true.1 List.all_takeWhile c hc
    · exact List.all_eq_true.1 List.all_takeWhile c (List.mem_reverse.1 hc)
  · intro c hc
    apply hdh
    rw [e2, List.head?_append, hc]
    rfl
  · intro c hc
    rw [List.getLast?_reverse] at hc
    have := List.head?_dropWhile_not f d.reverse
    rw [hc] at this
    simpa using this

/-- A message without structured data is a log line: its text without surrounding
white space, an error line exactly for priority 11. -/
theorem C74_log (pf : Str → Option Int) (m : SyslogMsg) (pid app text : Str) (ts : Int) (prio : Nat)
    (hc : Complete m pid app ts) (h1 : -2 ^ 63 ≤ ts) (h2 : ts < 2 ^ 63)
    (hs : m.structuredData = none ∨ m.structuredData = some []) (hm : m.message = some text)
    (hp : m.priority = some prio) :
    ∃ line, Trimmed text line ∧ convertToEnvelope pf m = some (some
      { sourceId := app, timestamp := ts, instanceId := (sourceTypeInstId pid).2,
        tags := [("source_type".toList, (sourceTypeInstId pid).1)],
        message := some (.log line (decide (prio = 11))) }) := by
  refine ⟨trimSpace text, by rw [trimSpace, goIsSpace_eq]; exact trim_spec whiteSpace text, ?_⟩
  obtain ⟨hpid, ha, ht⟩ := hc
  unfold convertToEnvelope
  rcases hs with hs | hs <;> simp only [hpid, ha, ht, hs, hm, hp, wrap_id h1 h2] <;> rfl

/-- Counters survive the way through syslog: the element a drain writes for a
counter gives back the counter, for all 64-bit values. -/
theorem C74_counter_roundtrip (pf : Str → Option Int) (m : SyslogMsg) (pid app name : Str) (ts : Int) (d t : Nat)
    (hc : Complete m pid app ts) (h1 : -2 ^ 63 ≤ ts) (h2 : ts < 2 ^ 63) (hd : d < 2 ^ 64) (ht : t < 2 ^ 64)
    (id : Str) (hid : "counter".toList <+: id)
    (hs : m.structuredData = some
      [(id, [("name".toList, name), ("delta".toList, dec d), ("total".toList, dec t)])]) :
    convertToEnvelope pf m = some (some
      { sourceId := app, timestamp := ts, instanceId := (sourceTypeInstId pid).2,
        message := some (.counter name d t) }) := by
  refine (C74_structured pf m pid app ts hc h1 h2 _ _ hs _).2 ⟨_, ?_, rfl, rfl, rfl, rfl, rfl, rfl⟩
  exact .counter hid ⟨numeral_dec d, hd⟩ ⟨numeral_dec t, ht⟩

/-- Timers survive the way through syslog. -/
theorem C74_timer_roundtrip (pf : Str → Option Int) (m : SyslogMsg) (pid app name : Str) (ts a b : Int)
    (hc : Complete m pid app ts) (h1 : -2 ^ 63 ≤ ts) (h2 : ts < 2 ^ 63)
    (ha : -2 ^ 63 ≤ a ∧ a < 2 ^ 63) (hb : -2 ^ 63 ≤ b ∧ b < 2 ^ 63)
    (id : Str) (hid : "timer".toList <+: id)
    (hs : m.structuredData = some
      [(id, [("name".toList, name), ("start".toList, decInt a), ("stop".toList, decInt b)])]) :
    convertToEnvelope pf m = some (some
      { sourceId := app, timestamp := ts, instanceId := (sourceTypeInstId pid).2,
        message := some (.timer name a b) }) := by
  refine (C74_structured pf m pid app ts hc h1 h2 _ _ hs _).2 ⟨_, ?_, rfl, rfl, rfl, rfl, rfl, rfl⟩
  exact .timer hid ((parseInt64_iff _ _).1 (parseInt64_dec ha.1 ha.2))
    ((parseInt64_iff _ _).1 (parseInt64_dec hb.1 hb.2))

example : convertToEnvelope (fun _ => none)
    { procId := some "[APP/2]".toList, appname := some "a".toList, timestamp := some 5,
      structuredData := some [("counter@47450".toList,
        [("name".toList, "c".toList), ("delta".toList, dec 3), ("total".toList, dec 40)])] } =
    some (some {
      sourceId := "a".toList, timestamp := 5, instanceId := "2".toList,
      message := some (.counter "c".toList 3 40) }) :=
  C74_counter_roundtrip _ _ "[APP/2]".toList _ _ _ 3 40 ⟨rfl, rfl, rfl⟩ (by decide) (by decide) (by decide)
    (by decide) _ ⟨"@47450".toList, rfl⟩ rfl

/-- The exact condition under which a message crashes the server. -/
theorem C74_crash_partial (pf : Str → Option Int) (m : SyslogMsg) :
    convertToEnvelope pf m = none ↔
      m.procId = none ∨ m.appname = none ∨ m.timestamp = none ∨
        ((m.structuredData = none ∨ m.structuredData = some []) ∧ (m.message = none ∨ m.priority = none)) := by
  obtain ⟨pid, app, ts, sd, text, prio⟩ := m
  unfold convertToEnvelope
  cases pid <;> cases app <;> cases ts <;> simp only [reduceCtorEq, true_or, or_true, false_or]
  rcases sd with _ | _ | ⟨x, xs⟩ <;> cases text <;> cases prio <;> simp

/-- One message without a process id (`-` in RFC 5424) stops the server. -/
theorem C74_crash_false (pf : Str → Option Int) :
    syslogRun pf {} [(.msg
      { appname := some "a".toList, timestamp := some 1,
        message := some "hi".toList, priority := some 14 }, true)] = none := rfl

/-- Over every history that does not crash, the server sends to log-cache exactly
the converted messages, in order (less failing sends); `ingress` counts them and
`invalid_ingress` counts the messages that could not be parsed or converted. -/
theorem C74_counts (pf : Str → Option Int) (ins : List (SyslogIn × Bool)) (s : SyslogState)
    (h : syslogRun pf {} ins = some s) :
    s.sent = ins.filterMap (fun
      | (.msg m, true) => (convertToEnvelope pf m).join
      | _ => none) ∧
    s.ingress = s.sent.length ∧
    s.invalid = ins.countP (fun
      | (.bad, _) => true
      | (.msg m, _) => convertToEnvelope pf m == some none) := by
  have key : ∀ (ins : List (SyslogIn × Bool)) (s0 s : SyslogState), syslogRun pf s0 ins = some s →
      s.sent = s0.sent ++ ins.filterMap (fun
        | (.msg m, true) => (convertToEnvelope pf m).join
        | _ => none) ∧
      s.ingress + s0.sent.length = s0.ingress + s.sent.length ∧
      s.invalid = s0.invalid + ins.countP (fun
        | (.bad, _) => true
        | (.msg m, _) => convertToEnvelope pf m == some none) := by
    intro ins
    induction ins with
    | nil =>
      intro s0 s h
      simp only [syslogRun] at h
      injection h with h
      subst h
      simp
    | cons x ins ih =>
      intro s0 s h
      obtain ⟨i, ok⟩ := x
      simp only [syslogRun] at h
      cases i with
      | bad =>
        obtain ⟨a, b, c⟩ := ih _ _ h
        simp only at a b c
        refine ⟨by simpa using a, b, ?_⟩
        rw [List.countP_cons_of_pos (by rfl), c]; omega
      | msg m =>
        simp only [parseListener] at h
        cases hc : convertToEnvelope pf m with
        | none => rw [hc] at h; cases h
        | some r =>
          rw [hc] at h
          cases r with
          | none =>
            obtain ⟨a, b, c⟩ := ih _ _ h
            simp only at a b c
            refine ⟨?_, b, ?_⟩
            · rw [a]; cases ok <;> simp [hc]
            · rw [List.countP_cons_of_pos (by simp [hc]), c]; omega
          | some env =>
            cases ok with
            | true =>
              obtain ⟨a, b, c⟩ := ih _ _ h
              simp only [if_true] at a b c
              refine ⟨?_, ?_, ?_⟩
              · rw [a]; simp [hc]
              · simp at b; omega
              · rw [List.countP_cons_of_neg (by simp [hc]), c]
            | false =>
              obtain ⟨a, b, c⟩ := ih _ _ h
              refine ⟨?_, b, ?_⟩
              · rw [a]; simp
              · rw [List.countP_cons_of_neg (by simp [hc]), c]
  obtain ⟨a, b, c⟩ := key ins {} s h
  simp only [List.nil_append, List.length_nil, Nat.zero_add, Nat.add_zero] at a b c
  exact ⟨a, b, c⟩

/-- A well-formed message is neither counted as ingress nor as invalid when
log-cache does not accept it. -/
theorem C74_counted_false (pf : Str → Option Int) : ∃ m,
    (∃ e, convertToEnvelope pf m = some (some e)) ∧
    syslogRun pf {} [(.msg m, false)] = some {} := by
  refine ⟨{ procId := some "[APP/1]".toList, appname := some "a".toList, timestamp := some 1,
            message := some "hi".toList, priority := some 14 }, ⟨_, rfl⟩, rfl⟩

/-! ## C89 -/

/-- With at most one structured-data element the result does not depend on the
iteration order of the element map. -/
theorem C89_deterministic_partial (pf : Str → Option Int) (m : SyslogMsg) (xs ys : List (Str × List (Str × Str)))
    (hp : xs.Perm ys) (hl : xs.length ≤ 1) :
    convertToEnvelope pf { m with structuredData := some xs } =
      convertToEnvelope pf { m with structuredData := some ys } := by
  have : xs = ys := by
    match xs, hl with
    | [], _ => exact (List.nil_perm.1 hp).symm
    | [x], _ => exact (List.perm_singleton.1 hp.symm).symm
  rw [this]

/-- A message with a counter element and an element of another vendor is accepted or
rejected depending on the iteration order of a Go map. -/
theorem C89_deterministic_false (pf : Str → Option Int) : ∃ (m : SyslogMsg) (x y : Str × List (Str × Str)) (e : Envelope),
    convertToEnvelope pf { m with structuredData := some [x, y] } = some (some e) ∧
    convertToEnvelope pf { m with structuredData := some [y, x] } = some none := by
  refine ⟨{ procId := some "[APP/1]".toList, appname := some "a".toList, timestamp := some 1 },
    ("counter@47450".toList, [("delta".toList, "1".toList), ("total".toList, "2".toList)]),
    ("origin".toList, []), _, rfl, rfl⟩

/-! ## C91 -/

/-- A converted envelope carries the time of the message if that time fits in 64
bits of nanoseconds (years 1678 to 2262). -/
theorem C91_time_partial (pf : Str → Option Int) (m : SyslogMsg) (e : Envelope) (ts : Int)
    (ht : m.timestamp = some ts) (h1 : -2 ^ 63 ≤ ts) (h2 : ts < 2 ^ 63)
    (h : convertToEnvelope pf m = some (some e)) : e.timestamp = ts := by
  obtain ⟨pid, app, ts', sd, text, prio⟩ := m
  simp only at ht
  subst ht
  unfold convertToEnvelope at h
  cases pid <;> cases app <;> simp only [reduceCtorEq] at h
  rename_i pid app
  have el : ∀ x, convertElement pf
      { sourceId := app, timestamp := wrap64 ts, instanceId := (sourceTypeInstId pid).2 } x = some e →
      e.timestamp = ts := by
    rintro ⟨id, ps⟩ hx
    obtain ⟨_, _, rfl⟩ := (element_iff ..).1 hx
    exact wrap_id h1 h2
  rcases sd with _ | _ | ⟨x, xs⟩ <;> cases text <;> cases prio <;>
    simp only [reduceCtorEq, Option.some.injEq] at h
  all_goals first
    | exact el x h
    | (rw [← h]; exact wrap_id h1 h2)

/-- A log line of the year 3000 gets a time in the past: before that of a line of
2020. -/
theorem C91_time_false (pf : Str → Option Int) : ∃ m m' e e' ts ts',
    m.timestamp = some ts ∧ m'.timestamp = some ts' ∧ ts < ts' ∧
    convertToEnvelope pf m = some (some e) ∧ convertToEnvelope pf m' = some (some e') ∧
    e'.timestamp < e.timestamp := by
  refine ⟨{ procId := some "1".toList, appname := some "a".toList, timestamp := some 1577836800000000000,
            message := some "hi".toList, priority := some 14 },
          { procId := some "1".toList, appname := some "a".toList, timestamp := some 32503680000000000000,
            message := some "hi".toList, priority := some 14 }, _, _, _, _, rfl, rfl, by decide, rfl, rfl, ?_⟩
  decide

/-! ## C90 -/

/-- The process id written for an instance: `[TYPE/…/INSTANCE]`. -/
private def joinSlash : List Str → Str
  | [] => []
  | [w] => w
  | w :: w' :: ws => w ++ '/' :: joinSlash (w' :: ws)

private theorem split_joinSlash : ∀ (ws : List Str), ws ≠ [] → (∀ w ∈ ws, '/' ∉ w) →
    splitOn '/' (joinSlash ws) = ws
  | [], h, _ => absurd rfl h
  | [w], _, h => by
    simp only [joinSlash]
    exact splitOn_free (h w (List.mem_singleton.2 rfl))
  | w :: w' :: ws, _, h => by
    simp only [joinSlash]
    rw [splitOn_append, splitOn_free (h w (List.mem_cons_self ..)),
      split_joinSlash (w' :: ws) (by simp) fun v hv => h v (List.mem_cons_of_mem _ hv)]
    rfl

private theorem mem_joinSlash {c : Char} (hc : c ≠ '/') : ∀ (ws : List Str), c ∈ joinSlash ws → ∃ w ∈ ws, c ∈ w
  | [], h => by cases h
  | [w], h => ⟨w, List.mem_singleton.2 rfl, h⟩
  | w :: w' :: ws, h => by
    simp only [joinSlash] at h
    rcases List.mem_append.1 h with h | h
    · exact ⟨w, List.mem_cons_self .., h⟩
    · rcases List.mem_cons.1 h with h | h
      · exact absurd h hc
      · obtain ⟨v, hv, hcv⟩ := mem_joinSlash hc (w' :: ws) h
        exact ⟨v, List.mem_cons_of_mem _ hv, hcv⟩

private theorem dropWhile_free {f : Char → Bool} {s : Str} (h : ∀ c ∈ s, f c = false) : s.dropWhile f = s := by
  cases s with
  | nil => rfl
  | cons c cs => rw [List.dropWhile_cons_of_neg]; rw [h c (List.mem_cons_self ..)]; decide

private theorem trim_brackets {s : Str} (h : '[' ∉ s ∧ ']' ∉ s) :
    trimWith (fun c => c = '[' || c = ']') ('[' :: s ++ [']']) = s := by
  have hf : ∀ c ∈ s, (fun c => decide (c = '[') || decide (c = ']')) c = false := by
    intro c hc
    have h1 : c ≠ '[' := fun e => h.1 (e ▸ hc)
    have h2 : c ≠ ']' := fun e => h.2 (e ▸ hc)
    simp [h1, h2]
  unfold trimWith
  by_cases hs : s = []
  · subst hs; decide
  · have h1 : List.dropWhile (fun c => decide (c = '[') || decide (c = ']')) ('[' :: s ++ [']']) = s ++ [']'] := by
      rw [List.cons_append, List.dropWhile_cons_of_pos (by decide)]
      cases s with
      | nil => exact absurd rfl hs
      | cons c cs =>
        rw [List.cons_append, List.dropWhile_cons_of_neg]
        have := hf c (List.mem_cons_self ..)
        simp only at this
        rw [this]; decide
    rw [h1, List.reverse_append, List.reverse_singleton, List.singleton_append,
      List.dropWhile_cons_of_pos (by decide),
      dropWhile_free (fun c hc => hf c (List.mem_reverse.1 hc)), List.reverse_reverse]

/-- Instance ids and source types: of a process id `[t/…/i]` the first component is
the source type and the last one the instance id, whatever is in between. -/
theorem C90_instance (ws : List Str) (t i : Str) (hh : ws.head? = some t) (hl : ws.getLast? = some i)
    (hfree : ∀ w ∈ ws, '/' ∉ w ∧ '[' ∉ w ∧ ']' ∉ w) :
    sourceTypeInstId ('[' :: ("/".toList.intercalate ws) ++ [']']) = (t, i) := by
  have hj : ∀ ws : List Str, "/".toList.intercalate ws = joinSlash ws := by
    intro ws
    induction ws with
    | nil => rfl
    | cons w ws ih =>
      cases ws with
      | nil => simp [List.intercalate, joinSlash]
      | cons w' ws =>
        rw [joinSlash, ← ih]
        simp [List.intercalate]
  have hne : ws ≠ [] := by intro e; rw [e] at hh; cases hh
  have h1 : '[' ∉ joinSlash ws := fun hm => by
    obtain ⟨w, hw, hc⟩ := mem_joinSlash (by decide) ws hm
    exact (hfree w hw).2.1 hc
  have h2 : ']' ∉ joinSlash ws := fun hm => by
    obtain ⟨w, hw, hc⟩ := mem_joinSlash (by decide) ws hm
    exact (hfree w hw).2.2 hc
  unfold sourceTypeInstId
  simp only
  rw [hj, trim_brackets ⟨h1, h2⟩, split_joinSlash ws hne fun w hw => (hfree w hw).1]
  rw [List.headD_eq_head?_getD, hh, List.getLastD_eq_getLast?, hl]
  rfl

private theorem dropWhile_split (f : Char → Bool) (s : Str) :
    ∃ a, s = a ++ s.dropWhile f ∧ (∀ c ∈ a, f c = true) ∧ ∀ c, (s.dropWhile f).head? = some c → f c = false := by
  induction s with
  | nil => exact ⟨[], rfl, fun c hc => (nomatch hc), fun c hc => (nomatch hc)⟩
  | cons x xs ih =>
    by_cases hx : f x = true
    · obtain ⟨a, h1, h2, h3⟩ := ih
      rw [List.dropWhile_cons_of_pos hx]
      refine ⟨x :: a, by rw [List.cons_append, ← h1], fun c hc => ?_, h3⟩
      rcases List.mem_cons.1 hc with rfl | hc
      · exact hx
      · exact h2 c hc
    · rw [List.dropWhile_cons_of_neg hx]
      refine ⟨[], rfl, fun c hc => (nomatch hc), fun c hc => ?_⟩
      rw [List.head?_cons, Option.some.injEq] at hc
      subst hc
      simpa using hx

private theorem trimWith_split (f : Char → Bool) (s : Str) :
    ∃ a b, s = a ++ trimWith f s ++ b ∧ (∀ c ∈ a ++ b, f c = true) ∧
      (∀ c, (trimWith f s).head? = some c → f c = false) ∧ ∀ c, (trimWith f s).getLast? = some c → f c = false := by
  obtain ⟨a, h1, h2, h3⟩ := dropWhile_split f s
  obtain ⟨b, g1, g2, g3⟩ := dropWhile_split f (s.dropWhile f).reverse
  have he : s.dropWhile f = trimWith f s ++ b.reverse := by
    have := congrArg List.reverse g1
    rwa [List.reverse_reverse, List.reverse_append] at this
  refine ⟨a, b.reverse, by rw [List.append_assoc, ← he]; exact h1, ?_, ?_, ?_⟩
  · intro c hc
    rcases List.mem_append.1 hc with hc | hc
    · exact h2 c hc
    · exact g2 c (List.mem_reverse.1 hc)
  · intro c hc
    refine h3 c ?_
    rw [he]
    cases ht : trimWith f s with
    | nil => rw [ht] at hc; exact nomatch hc
    | cons x xs => rw [ht] at hc; exact hc
  · intro c hc
    refine g3 c ?_
    unfold trimWith at hc
    rwa [List.getLast?_reverse] at hc

private theorem splitOn_ends (sep : Char) (s : Str) :
    (sep ∉ s ∧ splitOn sep s = [s]) ∨
      ∃ t x y i, s = t ++ sep :: x ∧ sep ∉ t ∧ s = y ++ sep :: i ∧ sep ∉ i ∧
        (splitOn sep s).head? = some t ∧ (splitOn sep s).getLast? = some i := by
  induction s with
  | nil => exact .inl ⟨fun h => (nomatch h), rfl⟩
  | cons c cs ih =>
    by_cases hc : c = sep
    · subst hc
      have hs : splitOn c (c :: cs) = [] :: splitOn c cs := by rw [splitOn, if_pos rfl]
      refine .inr ?_
      rw [hs]
      rcases ih with ⟨h1, h2⟩ | ⟨t, x, y, i, h1, h2, h3, h4, h5, h6⟩
      · exact ⟨[], cs, [], cs, rfl, fun h => (nomatch h), rfl, h1, rfl, by rw [h2]; rfl⟩
      · refine ⟨[], cs, c :: y, i, rfl, fun h => (nomatch h), by rw [List.cons_append, ← h3], h4, rfl, ?_⟩
        rw [List.getLast?_cons, h6]
        rfl
    · have hne : sep ≠ c := fun e => hc e.symm
      rcases ih with ⟨h1, h2⟩ | ⟨t, x, y, i, h1, h2, h3, h4, h5, h6⟩
      · refine .inl ⟨?_, ?_⟩
        · simp [hne, h1]
        · rw [splitOn, if_neg hc, h2]
      · refine .inr ⟨c :: t, x, c :: y, i, by rw [List.cons_append, ← h1], by simp [hne, h2],
          by rw [List.cons_append, ← h3], h4, ?_, ?_⟩
        · rw [splitOn, if_neg hc]
          cases hw : splitOn sep cs with
          | nil => rw [hw] at h5; exact nomatch h5
          | cons w ws =>
            rw [hw] at h5
            simp only [List.head?_cons, Option.some.injEq] at h5
            subst h5
            rfl
        · rw [splitOn, if_neg hc]
          cases hw : splitOn sep cs with
          | nil => rw [hw] at h5; exact nomatch h5
          | cons w ws =>
            rw [hw] at h5 h6
            cases ws with
            | nil =>
              exfalso
              simp only [List.head?_cons, Option.some.injEq, List.getLast?_singleton] at h5 h6
              subst h5
              subst h6
              have : splitOn sep cs = w :: splitOn sep x := by
                rw [h1, splitOn_append, splitOn_free h2]
                rfl
              rw [hw] at this
              have h0 := (List.cons.inj this).2
              cases x with
              | nil => exact nomatch h0
              | cons z zs =>
                rw [splitOn] at h0
                split at h0
                · exact nomatch h0
                · split at h0 <;> exact nomatch h0
            | cons w' ws =>
              rw [List.getLast?_cons_cons] at h6 ⊢
              exact h6

/-- For every process id at all: brackets at its ends, whichever and however many, are taken off;
of what is left the source type is the part before the first slash and the instance id
the part after the last one, and without a slash both are all of it. -/
theorem C90_any (pid t i : Str) (h : sourceTypeInstId pid = (t, i)) :
    ∃ a m b, pid = a ++ m ++ b ∧ (∀ c ∈ a ++ b, c = '[' ∨ c = ']') ∧
      (∀ c, m.head? = some c ∨ m.getLast? = some c → c ≠ '[' ∧ c ≠ ']') ∧
      (('/' ∉ m ∧ t = m ∧ i = m) ∨
        ('/' ∉ t ∧ '/' ∉ i ∧ (∃ x, m = t ++ '/' :: x) ∧ ∃ y, m = y ++ '/' :: i)) := by
  obtain ⟨a, b, h1, h2, h3, h4⟩ := trimWith_split (fun c => c = '[' || c = ']') pid
  refine ⟨a, _, b, h1, fun c hc => by simpa using h2 c hc, ?_, ?_⟩
  · rintro c (hc | hc)
    · simpa using h3 c hc
    · simpa using h4 c hc
  · unfold sourceTypeInstId at h
    simp only [Prod.mk.injEq] at h
    obtain ⟨e1, e2⟩ := h
    rw [List.headD_eq_head?_getD] at e1
    rw [List.getLastD_eq_getLast?] at e2
    rcases splitOn_ends '/' (trimWith (fun c => c = '[' || c = ']') pid) with ⟨g1, g2⟩ | ⟨t', x, y, i', g1, g2, g3, g4, g5, g6⟩
    · rw [g2] at e1 e2
      exact .inl ⟨g1, e1.symm, e2.symm⟩
    · rw [g5] at e1
      rw [g6] at e2
      simp only [Option.getD_some] at e1 e2
      subst e1
      subst e2
      exact .inr ⟨g2, g4, ⟨x, g1⟩, y, g3⟩

example : sourceTypeInstId "[[CELL/a]b/".toList = ("CELL".toList, []) ∧
    sourceTypeInstId "RTR]".toList = ("RTR".toList, "RTR".toList) := by decide

example : sourceTypeInstId "[APP/PROC/WEB/3]".toList = ("APP".toList, "3".toList) := by decide

end LogCache
