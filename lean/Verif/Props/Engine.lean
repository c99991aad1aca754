import Verif.Proof.EngineShown
import Verif.Props.Marshal
import Verif.Props.Walk

/-! # What a query that is a plain selector returns (C133, C134) -/

namespace LogCache
open Spec
variable {F : Type}

theorem sorted_lookup {t : List (Str × Str)} (h : (t.map Prod.fst).Nodup) (le : Str × Str → Str × Str → Bool) (k : Str) :
    (t.mergeSort le).lookup k = t.lookup k := by
  have hp := List.mergeSort_perm t le
  have h' : ((t.mergeSort le).map Prod.fst).Nodup := (hp.map Prod.fst).nodup_iff.2 h
  have key : ∀ (a b : List (Str × Str)), a.Perm b → (b.map Prod.fst).Nodup → ∀ v, a.lookup k = some v → b.lookup k = some v := by
    intro a b hab hb v hv
    exact mem_lookup hb (hab.mem_iff.1 (lookup_mem hv))
  apply Option.ext
  intro v
  exact ⟨key _ _ hp h v, key _ _ hp.symm h' v⟩

theorem alike_of_carries {ls : List (Str × Str)} {x e : Envelope} (h1 : CarriesLabels ls x) (h2 : CarriesLabels ls e) :
    Alike x e := fun k v => by rw [← h1 k v, h2 k v]

theorem carries_of_same {ls ls' : List (Str × Str)} {e : Envelope} (h : ∀ k, ls'.lookup k = ls.lookup k)
    (hc : CarriesLabels ls e) : CarriesLabels ls' e := fun k v => by rw [h k]; exact hc k v

/-- The matrix of a plain selector. -/
theorem plain_matrix {log : Str → List Envelope} (hs : StoredLogs log) (hc : ClearLabels log)
    {read : ReadRequest → Option (List Envelope)} {ms : List Matcher} (hr : AnswersFrom ms log read)
    (hp : PlainSelector ms) {order : List Str} (ho : order.Perm (selectArgs ms).ids) {start stop : Int} (hz : stop ≠ 0)
    (hf1 : FitsInt64 (start - 1000000000)) (hf2 : FitsInt64 stop)
    {ts : List Int} (hts : ts.Pairwise (· ≤ ·)) (hlow : ∀ t ∈ ts, start + lookback * 1000000 ≤ t * 1000000) :
    (select 1000000000 start stop read order ms).isSome ∧
    ∃ m, selectorMatrix ts (select 1000000000 start stop read order ms) = some m ∧
      (∀ x ∈ m, x.2 ≠ [] ∧ (x.1.map Prod.fst).Nodup ∧ ∃ e ∈ log e.sourceId, (∃ v, Shows ms e v) ∧ CarriesLabels x.1 e ∧
        ∃ shown : Int → Option (Envelope × PVal),
          (∀ t ∈ ts, StepShows (log e.sourceId) ms e stop (t * 1000000) (shown t)) ∧
          x.2 = ts.filterMap fun t => (shown t).map fun y => (t, y.2)) ∧
      (∀ id, ∀ e ∈ log id, (∃ v, Shows ms e v) → ∀ t ∈ ts,
        InSecond (t * 1000000) stop e ∨ SecondsBefore (t * 1000000) stop e → ∃ x ∈ m, CarriesLabels x.1 e) ∧
      m.Pairwise fun x y => ¬ SameLabels x.1 y.1 := by
  obtain ⟨out, hout, c1, c2, c3, c4⟩ := select_series hs hc hr hp ho start stop hz hf1 hf2
  rw [hout]
  refine ⟨rfl, _, selectorMatrix_sorted ts hts out c1, ?_⟩
  have hlab : ∀ s ∈ out, ∀ k, (seriesLabels s).lookup k = s.tags.lookup k := fun s hso k =>
    sorted_lookup (c2 s hso).1 _ k
  have hshown : ∀ s ∈ out, ∃ e ∈ log e.sourceId, (∃ v, Shows ms e v) ∧ CarriesLabels s.tags e ∧
      ∃ shown : Int → Option (Envelope × PVal),
        (∀ t ∈ ts, StepShows (log e.sourceId) ms e stop (t * 1000000) (shown t)) ∧
        (ts.filterMap fun t => (shownAt s.points t).map fun p => (t, p.v)) =
          ts.filterMap fun t => (shown t).map fun y => (t, y.2) := by
    intro s hso
    obtain ⟨_, e, he, hw, hsh, hcl, hpts⟩ := c2 s hso
    have hn : ∀ x ∈ log e.sourceId, NamesSource ms x.sourceId := by
      intro x hx
      rw [hs.own _ x hx]
      exact hsh.choose_spec.1
    have hex : ∀ t, ∃ o, t ∈ ts → (StepShows (log e.sourceId) ms e stop (t * 1000000) o ∧
        (shownAt s.points t).map (·.v) = o.map Prod.snd) := by
      intro t
      by_cases h : t ∈ ts
      · obtain ⟨o, h1, h2⟩ := shownAt_envelopes hp (e := e) hn (hlow t h) (stop := stop)
        rw [← hpts] at h2
        exact ⟨o, fun _ => ⟨h1, h2⟩⟩
      · exact ⟨none, fun h' => absurd h' h⟩
    refine ⟨e, he, hsh, hcl, fun t => (hex t).choose, fun t ht => ((hex t).choose_spec ht).1, ?_⟩
    apply List.filterMap_congr
    intro t ht
    have := ((hex t).choose_spec ht).2
    calc (shownAt s.points t).map (fun p => (t, p.v)) = ((shownAt s.points t).map (·.v)).map (fun v => (t, v)) := by
          rw [Option.map_map]; rfl
      _ = _ := by rw [this, Option.map_map]; rfl
  refine ⟨?_, ?_, ?_⟩
  · intro x hx
    obtain ⟨hx, hne⟩ := List.mem_filter.1 hx
    obtain ⟨s, hso, rfl⟩ := List.mem_map.1 hx
    obtain ⟨e, he, hsh, hcl, shown, h1, h2⟩ := hshown s hso
    refine ⟨by simpa using hne, ?_, e, he, hsh, carries_of_same (hlab s hso) hcl, shown, h1, h2⟩
    exact ((List.mergeSort_perm s.tags _).map Prod.fst).nodup_iff.2 (c2 s hso).1
  · intro id e he hsh t ht hvis
    have hsec : secondOf e ≤ e.timestamp := by unfold secondOf; omega
    have hl := hlow t ht
    have hlb : lookback = 300000 := rfl
    rw [hlb] at hl
    have hw : inWindow (start - 1000000000) stop e = true := by
      unfold inWindow
      rw [Bool.and_eq_true, decide_eq_true_eq, decide_eq_true_eq]
      unfold InSecond SecondsBefore at hvis
      omega
    obtain ⟨s, hso, hcl⟩ := c3 id e he hw hsh
    obtain ⟨e', he', _, hcl', shown, h1, h2⟩ := hshown s hso
    refine ⟨(seriesLabels s, ts.filterMap fun t => (shownAt s.points t).map fun p => (t, p.v)), ?_,
      carries_of_same (hlab s hso) hcl⟩
    rw [List.mem_filter]
    refine ⟨List.mem_map.2 ⟨s, hso, rfl⟩, ?_⟩
    have hal : Alike e e' := alike_of_carries hcl hcl'
    have hsome : ∃ y, shown t = some y := by
      cases hsw : shown t with
      | some y => exact ⟨y, rfl⟩
      | none =>
        exfalso
        have := h1 t ht
        rw [hsw] at this
        have hme : e ∈ log e'.sourceId := by rw [← alike_source hal, hs.own id e he]; exact he
        obtain ⟨a, b⟩ := this e hme ⟨hsh, hal⟩
        rcases hvis with h | h
        · exact a h
        · exact b h
    obtain ⟨y, hy⟩ := hsome
    simp only [h2]
    have : (t, y.2) ∈ ts.filterMap fun t => (shown t).map fun y => (t, y.2) :=
      List.mem_filterMap.2 ⟨t, ht, by rw [hy]; rfl⟩
    cases hl' : (ts.filterMap fun t => (shown t).map fun y => (t, y.2)) with
    | nil => rw [hl'] at this; cases this
    | cons a l => rfl
  · apply List.Pairwise.filter
    rw [List.pairwise_map]
    refine List.Pairwise.imp_of_mem ?_ c4
    intro a b ha hb hab hsame
    apply hab
    intro k
    rw [← hlab a ha k, ← hlab b hb k]
    exact hsame k

theorem wrap64_small {n : Int} (h1 : -2 ^ 63 ≤ n) (h2 : n < 2 ^ 63) : wrap64 n = n := by
  unfold wrap64
  omega

/-- A step that is the end of its query: only what is from before it is read. -/
theorem stepShows_end {es : List Envelope} {ms : List Matcher} {e : Envelope} {T : Int} {x : Envelope} {v : PVal}
    (h : StepShows es ms e T T (some (x, v))) :
    Shows ms x v ∧ LastWith es (fun y => InSeries ms e y ∧ Recent T y) x := by
  have hiff : ∀ y : Envelope, SecondsBefore T T y ↔ Recent T y := by
    intro y
    unfold SecondsBefore Recent secondOf
    omega
  obtain ⟨h1, h2⟩ := h
  refine ⟨h1, ?_⟩
  rcases h2 with ⟨pre, post, _, ⟨_, h3, h4⟩, _⟩ | ⟨_, pre, post, h3, h4, h5⟩
  · exfalso
    unfold secondOf at h3
    omega
  · exact ⟨pre, post, h3, ⟨h4.1, (hiff x).1 h4.2⟩, fun y hy hq => h5 y hy ⟨hq.1, (hiff y).2 hq.2⟩⟩

/-- The times of a range query are the steps. -/
theorem mem_stepTimes {a b d : Int} (hd : 0 < d) (T : Int) : T ∈ stepTimes a b d ↔ IsStep a b d T := by
  unfold stepTimes IsStep
  rw [List.mem_map]
  refine exists_congr fun k => ?_
  rw [List.mem_range]
  have key : (k : Int) < (b - a) / d + 1 ↔ d * k ≤ b - a := by
    rw [Int.lt_add_one_iff, Int.le_ediv_iff_mul_le hd, Int.mul_comm]
  constructor
  · rintro ⟨h1, rfl⟩
    have : (k : Int) < (b - a) / d + 1 := by omega
    rw [key] at this
    exact ⟨rfl, by omega⟩
  · rintro ⟨rfl, h2⟩
    have : (k : Int) < (b - a) / d + 1 := by rw [key]; omega
    exact ⟨by omega, rfl⟩

theorem stepTimes_sorted {a b d : Int} (hd : 0 < d) : (stepTimes a b d).Pairwise (· < ·) := by
  unfold stepTimes
  rw [List.pairwise_map]
  refine List.Pairwise.imp ?_ List.pairwise_lt_range
  intro i j hij
  have : d * (i : Int) < d * (j : Int) := Int.mul_lt_mul_of_pos_left (by omega) hd
  omega

/-! ## C133 -/

/-- An instant query that is a plain selector answers, for every combination of labels, with
the value of the newest envelope the selector asks for that is from before the query's
time and from the five minutes before it, counted from the beginning of its second, and
with nothing else.  Missing from the full claim: envelopes of the query's time itself
(below), selectors with other matchers, and labels that collide. -/
theorem C133_instant_partial (fl : FloatLib F) (rfc : Str → Option Int) (num : PVal → F)
    (log : Str → List Envelope) (hs : StoredLogs log) (hc : ClearLabels log)
    (read : Nat → ReadRequest → Option (List Envelope)) (ms : List Matcher) (hr : AnswersFrom ms log (read 0))
    (order : Nat → List Matcher → List Str) (ho : ValidOrder (order 0)) (hp : PlainSelector ms)
    (now : Int) (query time : Str) (t : Int)
    (ht : if time = [] then t % 1000000000 = 0 ∧ t ≤ now ∧ now < t + 1000000000 else parseTime rfc time = some t)
    (h0 : 1000000 ≤ t) (h63 : t < 2 ^ 63) :
    ∃ samples, (instantQuery fl rfc (fun _ t => some (plainInstant num ms t)) read order now query time).result =
        .answer (.vector samples) ∧
      (∀ s ∈ samples, s.point.time = formatTime fl (t / 1000000) ∧
        ∃ e v, Shows ms e v ∧ CarriesLabels s.metric e ∧ s.point.value = num v ∧
          LastWith (log e.sourceId) (fun x => InSeries ms e x ∧ Recent (t / 1000000 * 1000000) x) e) ∧
      (∀ id, ∀ e ∈ log id, (∃ v, Shows ms e v) → Recent (t / 1000000 * 1000000) e →
        ∃ s ∈ samples, CarriesLabels s.metric e) ∧
      samples.Pairwise fun s s' => ¬ SameLabels s.metric s'.metric := by
  have hrt : requestTime rfc now time = some t := by
    unfold requestTime
    split
    · rename_i h
      rw [if_pos h] at ht
      rw [Option.some.injEq]
      omega
    · rename_i h
      rw [if_neg h] at ht
      exact ht
  have htm : timeMilliseconds t = t / 1000000 := Int.tdiv_eq_ediv_of_nonneg (by omega)
  have hlb : lookback = 300000 := rfl
  have hmint : fromTime (t - lookback * 1000000) = t / 1000000 - 300000 := by
    unfold fromTime
    rw [hlb]
    omega
  have hw1 : wrap64 (fromTime (t - lookback * 1000000) * 1000000) = t / 1000000 * 1000000 - 300000000000 := by
    rw [hmint, wrap64_small (by omega) (by omega)]
    omega
  have hw2 : wrap64 (fromTime t * 1000000) = t / 1000000 * 1000000 := by
    unfold fromTime
    exact wrap64_small (by omega) (by omega)
  obtain ⟨hsome, m, hm, d1, d2, d3⟩ := plain_matrix hs hc hr hp (validOrder_perm ho ms) (hz := by omega)
    (hf1 := by constructor <;> omega) (hf2 := by constructor <;> omega)
    (start := t / 1000000 * 1000000 - 300000000000) (stop := t / 1000000 * 1000000)
    (ts := [t / 1000000]) (List.pairwise_singleton _ _) (by
      intro x hx
      rw [List.mem_singleton.1 hx, hlb]
      omega)
  have hq : instantQuery fl rfc (fun _ t => some (plainInstant num ms t)) read order now query time =
      finishQuery (toInstant fl) (runEngine read order 0 (plainInstant num ms t)) := by
    unfold instantQuery
    rw [hrt]
  have hrun : runEngine read order 0 (plainInstant num ms t) =
      ([⟨t / 1000000 * 1000000 - 300000000000, t / 1000000 * 1000000, ms,
        select 1000000000 (t / 1000000 * 1000000 - 300000000000) (t / 1000000 * 1000000) (read 0) (order 0 ms) ms⟩],
        some (.vector (m.filterMap fun s => s.2.head?.map fun p => ⟨s.1, t / 1000000, num p.2⟩))) := by
    unfold plainInstant
    rw [runEngine]
    simp only [hw1, hw2]
    rw [runEngine]
    unfold instantValue
    simp only [htm]
    rw [hm]
    rfl
  have hone : ∀ x ∈ m, ∃ e v, Shows ms e v ∧ CarriesLabels x.1 e ∧ x.2 = [(t / 1000000, v)] ∧
      LastWith (log e.sourceId) (fun y => InSeries ms e y ∧ Recent (t / 1000000 * 1000000) y) e := by
    intro x hx
    obtain ⟨hne, _, e, he, hsh, hcl, shown, h1, h2⟩ := d1 x hx
    have h1 := h1 _ (List.mem_singleton.2 rfl)
    cases hsw : shown (t / 1000000) with
    | none => exact absurd (by rw [h2]; simp [hsw]) hne
    | some y =>
      obtain ⟨y, v⟩ := y
      rw [hsw] at h1
      obtain ⟨g1, pre, post, g2, g3, g4⟩ := stepShows_end h1
      have hal : Alike y e := g3.1.2
      refine ⟨y, v, g1, ?_, ?_, pre, post, ?_, ⟨⟨⟨v, g1⟩, fun k v => Iff.rfl⟩, g3.2⟩, ?_⟩
      · intro k w
        rw [hcl k w]
        exact (hal k w).symm
      · rw [h2]; simp [hsw]
      · rw [alike_source hal]; exact g2
      · rintro z hz ⟨⟨hz1, hz2⟩, hz3⟩
        exact g4 z hz ⟨⟨hz1, fun k w => (hz2 k w).trans (hal k w)⟩, hz3⟩
  rw [hq, hrun]
  unfold finishQuery
  have hcl : ∀ a b c, closureErr [⟨a, b, c, select 1000000000 (t / 1000000 * 1000000 - 300000000000)
      (t / 1000000 * 1000000) (read 0) (order 0 ms) ms⟩] = false := by
    intro a b c
    unfold closureErr
    obtain ⟨o, ho⟩ := Option.isSome_iff_exists.1 hsome
    rw [ho]
    rfl
  rw [if_neg (by rw [hcl]; simp)]
  refine ⟨_, rfl, ?_, ?_, ?_⟩
  · intro s hso
    obtain ⟨es, hes, rfl⟩ := List.mem_map.1 hso
    obtain ⟨x, hx, hxe⟩ := List.mem_filterMap.1 hes
    obtain ⟨e, v, g1, g2, g3, g4⟩ := hone x hx
    rw [g3] at hxe
    simp only [List.head?_cons, Option.map_some, Option.some.injEq] at hxe
    subst hxe
    refine ⟨rfl, e, v, g1, ?_, rfl, g4⟩
    rw [labelMap_nodup _ (d1 x hx).2.1]
    exact g2
  · intro id e he hsh hre
    obtain ⟨x, hx, hcx⟩ := d2 id e he hsh (t / 1000000) (List.mem_singleton.2 rfl) (.inr (by
      unfold Recent secondOf at hre
      unfold SecondsBefore secondOf
      omega))
    obtain ⟨_, v, _, _, g3, _⟩ := hone x hx
    refine ⟨⟨labelMap x.1, ⟨formatTime fl (t / 1000000), num v⟩⟩, ?_, ?_⟩
    · refine List.mem_map.2 ⟨⟨x.1, t / 1000000, num v⟩, List.mem_filterMap.2 ⟨x, hx, ?_⟩, rfl⟩
      rw [g3]
      rfl
    · rw [labelMap_nodup _ (d1 x hx).2.1]
      exact hcx
  · rw [List.pairwise_map, List.pairwise_filterMap]
    refine List.Pairwise.imp_of_mem ?_ d3
    intro a b ha hb hab x hx y hy hsame
    apply hab
    obtain ⟨_, _, _, _, ga, _⟩ := hone a ha
    obtain ⟨_, _, _, _, gb, _⟩ := hone b hb
    rw [ga] at hx
    rw [gb] at hy
    simp only [List.head?_cons, Option.map_some, Option.some.injEq] at hx hy
    subst hx
    subst hy
    simp only at hsame
    rw [labelMap_nodup _ (d1 a ha).2.1, labelMap_nodup _ (d1 b hb).2.1] at hsame
    exact hsame

/-- At a whole second the five minutes are exact. -/
theorem C133_whole_second (T : Int) (hT : T % 1000000000 = 0) (x : Envelope) :
    Recent T x ↔ T - 300000000000 ≤ x.timestamp ∧ x.timestamp < T := by
  unfold Recent secondOf
  omega

/-- The reader behind the queries of a node answers as C133 and C134 require: a walk through
the node's store returns just the envelopes of the window, when no two envelopes of a source
have one timestamp, everything stored is older than the walk's delay and the walk ends
with an answered read. -/
theorem C133_reader {cfg : Config} (hc : 1 ≤ cfg.maxPerSource) {ops : List Op} {st : Store}
    (hrun : Run (newStore cfg) ops st) (hd : DistinctTs ops) (compile : Str → Option (Str → Bool))
    (req : ReadRequest) (h0 : req.stop ≠ 0) (ht : req.types ≠ []) (hany : .any ∉ req.types)
    (tr : List (WalkIn × Option (List Envelope)))
    (hw : WalkRun dataReaderBackoff (dataReaderCfg req) req.sourceId
      (StoreReader compile st (dataReaderCfg req).delay) (walkInit (dataReaderCfg req) 0) tr none)
    (hlast : ∃ es now more v, tr.getLast? = some (.got es now more, v)) :
    dataReaderResult false (delivered tr) =
      some (answer req.start req.stop (some req.types) none (st.envelopes req.sourceId)) := by
  obtain ⟨whole, rfl, _, h2, _⟩ := C45_store_partial hc hrun hd (stop := req.stop) rfl h0 compile hw
  unfold dataReaderResult
  rw [if_neg (by simp), h2 rfl hlast]
  have hreq : requestedTypes ((dataReaderCfg req).types.getD []) = some req.types := by
    have : (dataReaderCfg req).types = some req.types := by
      unfold dataReaderCfg
      simp only
      rw [if_neg ht]
    rw [this, Option.getD_some]
    unfold requestedTypes
    have hf : req.types.filter (fun t => t ≠ .any) = req.types := by
      rw [List.filter_eq_self]
      intro t hm
      simp only [ne_eq, decide_not, Bool.not_eq_eq_eq_not, Bool.not_true, decide_eq_false_iff_not]
      rintro rfl
      exact hany hm
    rw [hf]
    cases hl : req.types with
    | nil => exact absurd hl ht
    | cons a l => rfl
  rw [hreq]
  rfl

/-! ## C134 -/

/-- A range query that is a plain selector answers, for every combination of labels that has
a value at one of its steps, with one point per step that has a value: the value of the
first envelope of the second that begins at the step, if there is one, and otherwise that
of the last envelope whose second began in the five minutes before the step.  Only
envelopes from before the query's end count. -/
theorem C134_range_partial (fl : FloatLib F) (rfc dur : Str → Option Int) (num : PVal → F)
    (log : Str → List Envelope) (hs : StoredLogs log) (hc : ClearLabels log)
    (read : Nat → ReadRequest → Option (List Envelope)) (ms : List Matcher) (hr : AnswersFrom ms log (read 0))
    (order : Nat → List Matcher → List Str) (ho : ValidOrder (order 0)) (hp : PlainSelector ms)
    (query start stop step : Str) (a b d : Int) (ha : parseTime rfc start = some a) (hb : parseTime rfc stop = some b)
    (hd : parseStep dur step = some d) (ha0 : 0 ≤ a) (hb0 : 1000000 ≤ b) (ha63 : a < 2 ^ 63) (hb63 : b < 2 ^ 63)
    (hd0 : 1000000 ≤ d) :
    ∃ series, (rangeQuery fl rfc dur (fun _ a b d => some (plainRange num ms a b d)) read order query start stop step).result =
        .answer (.matrix series) ∧
      (∀ s ∈ series, s.points ≠ [] ∧ ∃ e ∈ log e.sourceId, (∃ v, Shows ms e v) ∧ CarriesLabels s.metric e ∧
        ∃ shown : Int → Option (Envelope × PVal), ∃ ts : List Int, ts.Pairwise (· < ·) ∧
          (∀ T, T ∈ ts ↔ IsStep (a / 1000000) (b / 1000000) (d / 1000000) T) ∧
          (∀ T ∈ ts, StepShows (log e.sourceId) ms e (b / 1000000 * 1000000) (T * 1000000) (shown T)) ∧
          s.points = ts.filterMap fun T => (shown T).map fun y => ⟨formatTime fl T, num y.2⟩) ∧
      (∀ id, ∀ e ∈ log id, (∃ v, Shows ms e v) → ∀ T, IsStep (a / 1000000) (b / 1000000) (d / 1000000) T →
        InSecond (T * 1000000) (b / 1000000 * 1000000) e ∨ SecondsBefore (T * 1000000) (b / 1000000 * 1000000) e →
        ∃ s ∈ series, CarriesLabels s.metric e) ∧
      series.Pairwise fun s s' => ¬ SameLabels s.metric s'.metric := by
  have htd : timeMilliseconds d = d / 1000000 := Int.tdiv_eq_ediv_of_nonneg (by omega)
  have hta : timeMilliseconds a = a / 1000000 := Int.tdiv_eq_ediv_of_nonneg ha0
  have htb : timeMilliseconds b = b / 1000000 := Int.tdiv_eq_ediv_of_nonneg (by omega)
  have hdpos : 0 < d / 1000000 := by omega
  have hlb : lookback = 300000 := rfl
  have hw1 : wrap64 (fromTime (a - lookback * 1000000) * 1000000) = a / 1000000 * 1000000 - 300000000000 := by
    have : fromTime (a - lookback * 1000000) = a / 1000000 - 300000 := by
      unfold fromTime
      rw [hlb]
      omega
    rw [this, wrap64_small (by omega) (by omega)]
    omega
  have hw2 : wrap64 (fromTime b * 1000000) = b / 1000000 * 1000000 := by
    unfold fromTime
    exact wrap64_small (by omega) (by omega)
  have hge : ∀ T ∈ stepTimes (a / 1000000) (b / 1000000) (d / 1000000), a / 1000000 ≤ T := by
    intro T hT
    obtain ⟨k, rfl, _⟩ := (mem_stepTimes hdpos T).1 hT
    have : 0 ≤ d / 1000000 * (k : Int) := Int.mul_nonneg (by omega) (by omega)
    omega
  obtain ⟨hsome, m, hm, d1, d2, d3⟩ := plain_matrix hs hc hr hp (validOrder_perm ho ms) (hz := by omega)
    (hf1 := by constructor <;> omega) (hf2 := by constructor <;> omega)
    (start := a / 1000000 * 1000000 - 300000000000) (stop := b / 1000000 * 1000000)
    (ts := stepTimes (a / 1000000) (b / 1000000) (d / 1000000))
    (List.Pairwise.imp (fun h => Int.le_of_lt h) (stepTimes_sorted hdpos)) (by
      intro T hT
      have := hge T hT
      rw [hlb]
      omega)
  have hq : rangeQuery fl rfc dur (fun _ a b d => some (plainRange num ms a b d)) read order query start stop step =
      finishQuery (toRange fl) (runEngine read order 0 (plainRange num ms a b d)) := by
    unfold rangeQuery
    rw [hd, ha, hb]
  have hrun : runEngine read order 0 (plainRange num ms a b d) =
      ([⟨a / 1000000 * 1000000 - 300000000000, b / 1000000 * 1000000, ms,
        select 1000000000 (a / 1000000 * 1000000 - 300000000000) (b / 1000000 * 1000000) (read 0) (order 0 ms) ms⟩],
        some (.matrix (m.map fun s => ⟨s.1, s.2.map fun p => (p.1, num p.2)⟩))) := by
    unfold plainRange
    rw [runEngine]
    simp only [hw1, hw2, htd, hta, htb]
    rw [if_neg (by omega), if_neg (by omega), runEngine, hm]
    rfl
  rw [hq, hrun]
  unfold finishQuery
  have hcl : ∀ x y z, closureErr [⟨x, y, z, select 1000000000 (a / 1000000 * 1000000 - 300000000000)
      (b / 1000000 * 1000000) (read 0) (order 0 ms) ms⟩] = false := by
    intro x y z
    unfold closureErr
    obtain ⟨o, ho⟩ := Option.isSome_iff_exists.1 hsome
    rw [ho]
    rfl
  rw [if_neg (by rw [hcl]; simp)]
  refine ⟨_, rfl, ?_, ?_, ?_⟩
  · intro s hso
    obtain ⟨es, hes, rfl⟩ := List.mem_map.1 hso
    obtain ⟨x, hx, rfl⟩ := List.mem_map.1 hes
    obtain ⟨hne, hnd, e, he, hsh, hcl, shown, h1, h2⟩ := d1 x hx
    refine ⟨?_, e, he, hsh, ?_, shown, _, stepTimes_sorted hdpos, mem_stepTimes hdpos, h1, ?_⟩
    · unfold toSeries
      simpa using hne
    · show CarriesLabels (labelMap x.1) e
      rw [labelMap_nodup _ hnd]
      exact hcl
    · show (x.2.map fun p => (p.1, num p.2)).map (fun p => (⟨formatTime fl p.1, p.2⟩ : PPoint F)) = _
      rw [h2, List.map_map, List.map_filterMap]
      apply List.filterMap_congr
      intro T _
      cases shown T <;> rfl
  · intro id e he hsh T hT hvis
    obtain ⟨x, hx, hcx⟩ := d2 id e he hsh T ((mem_stepTimes hdpos T).2 hT) hvis
    refine ⟨_, List.mem_map.2 ⟨_, List.mem_map.2 ⟨x, hx, rfl⟩, rfl⟩, ?_⟩
    show CarriesLabels (labelMap x.1) e
    rw [labelMap_nodup _ (d1 x hx).2.1]
    exact hcx
  · rw [List.pairwise_map, List.pairwise_map]
    refine List.Pairwise.imp_of_mem ?_ d3
    intro x y hx hy hxy hsame
    apply hxy
    have hsame : SameLabels (labelMap x.1) (labelMap y.1) := hsame
    rw [labelMap_nodup _ (d1 x hx).2.1, labelMap_nodup _ (d1 y hy).2.1] at hsame
    exact hsame

/-- Where no envelope of the series is from the second that begins at a step, a range query
shows at that whole second what an instant query at that time would. -/
theorem C134_like_instant (es : List Envelope) (ms : List Matcher) (e : Envelope) (stop T : Int)
    (hT : T % 1000000000 = 0) (hstop : T ≤ stop) (hno : ∀ y ∈ es, InSeries ms e y → secondOf y ≠ T)
    (x : Envelope) (v : PVal) (h : StepShows es ms e stop T (some (x, v))) :
    LastWith es (fun y => InSeries ms e y ∧ Recent T y) x := by
  have hiff : ∀ y : Envelope, SecondsBefore T stop y ↔ Recent T y := by
    intro y
    unfold SecondsBefore Recent secondOf
    omega
  rcases h.2 with ⟨pre, post, rfl, ⟨h3, h4⟩, _⟩ | ⟨_, pre, post, h3, h4, h5⟩
  · exact absurd h4.1 (hno x (by simp) h3)
  · exact ⟨pre, post, h3, ⟨h4.1, (hiff x).1 h4.2⟩, fun y hy hq => h5 y hy ⟨hq.1, (hiff y).2 hq.2⟩⟩

/-- And where a range query shows nothing at a whole second, an instant query at that time
has nothing to show either. -/
theorem C134_nothing_like_instant (es : List Envelope) (ms : List Matcher) (e : Envelope) (stop T : Int)
    (hT : T % 1000000000 = 0) (hstop : T ≤ stop) (h : StepShows es ms e stop T none) :
    ∀ y ∈ es, InSeries ms e y → ¬ Recent T y := by
  intro y hy hs hr
  refine (h y hy hs).2 ?_
  unfold SecondsBefore
  unfold Recent secondOf at hr
  unfold secondOf
  omega

/-- The counter of 990 s is too old for the step of 2000 s. -/
example : StepShows [{ timestamp := 990000000000, message := some (.counter "cpu".toList 0 1) }] [] { timestamp := 0 } 3000000000000 2000000000000 none := by
  intro y hy _
  rw [List.mem_singleton] at hy
  subst hy
  unfold InSecond SecondsBefore secondOf
  exact ⟨by decide, by decide⟩

/-! ## Examples, and what does not hold -/

/-- A counter of source `a`. -/
def sampleAt (ts : Int) (total : Nat) : Envelope :=
  { timestamp := ts, sourceId := "a".toList, tags := [("zone".toList, "z1".toList)],
    message := some (.counter "cpu".toList 0 total) }

/-- Source `a` has some envelopes, nothing else is stored. -/
def onlyA (es : List Envelope) (id : Str) : List Envelope := if id = "a".toList then es else []

/-- A reader for stored envelopes. -/
def readerOf (log : Str → List Envelope) (req : ReadRequest) : Option (List Envelope) :=
  some (answer req.start req.stop (some req.types) none (log req.sourceId))

theorem readerOf_answers {ms : List Matcher} (log : Str → List Envelope) : AnswersFrom ms log (readerOf log) := fun _ _ _ _ _ _ _ => rfl

/-- The source ids of a selector in the order they are named. -/
theorem namedOrder_valid : ValidOrder fun ms => (selectArgs ms).ids := idsOrder_valid

theorem sampleAt_label {ts : Int} {n : Nat} {k v : Str} (h : IsLabelOf (sampleAt ts n) k v) :
    k = "source_id".toList ∧ v = "a".toList ∨ k = "zone".toList ∧ v = "z1".toList := by
  unfold IsLabelOf at h
  split at h
  · rename_i hk; exact .inl ⟨hk, h⟩
  · rw [if_neg (by intro h; exact h.2 rfl)] at h
    have := lookup_mem h
    rw [show (sampleAt ts n).tags = [("zone".toList, "z1".toList)] from rfl, List.mem_singleton] at this
    exact .inr ⟨congrArg Prod.fst this, congrArg Prod.snd this⟩

theorem onlyA_stored (xs : List (Int × Nat)) (h : xs.Pairwise fun x y => x.1 ≤ y.1) :
    StoredLogs (onlyA (xs.map fun x => sampleAt x.1 x.2)) where
  byTime id := by
    unfold onlyA
    split
    · unfold ByTime
      rw [List.pairwise_map]
      exact h
    · exact List.Pairwise.nil
  own id e he := by
    unfold onlyA at he
    split at he
    · rename_i hid
      obtain ⟨x, _, rfl⟩ := List.mem_map.1 he
      exact hid.symm
    · cases he
  tags id e he := by
    unfold onlyA at he
    split at he
    · obtain ⟨x, _, rfl⟩ := List.mem_map.1 he
      simp [sampleAt]
    · cases he

theorem onlyA_clear (xs : List (Int × Nat)) : ClearLabels (onlyA (xs.map fun x => sampleAt x.1 x.2)) := by
  have hall : ∀ id, ∀ e ∈ onlyA (xs.map fun x => sampleAt x.1 x.2) id, ∀ k v, IsLabelOf e k v →
      '-' ∉ k ∧ '-' ∉ v := by
    intro id e he k v hl
    unfold onlyA at he
    split at he
    · obtain ⟨x, _, rfl⟩ := List.mem_map.1 he
      rcases sampleAt_label hl with ⟨rfl, rfl⟩ | ⟨rfl, rfl⟩ <;> constructor <;> decide
    · cases he
  intro id e he k v hl
  refine ⟨(hall id e he k v hl).1, ?_⟩
  intro id' e' he' k' v' hl' hseg
  obtain ⟨pre, post, rfl, _⟩ := hseg
  exact (hall id e he k _ hl).2 (by simp)

/-- The selector `cpu{source_id="a", zone="z1"}`. -/
theorem exEqual_plain : PlainSelector exEqual := by
  refine ⟨⟨"a".toList, ⟨.equal, "source_id".toList, "a".toList⟩, by simp [exEqual], rfl, .inl ⟨rfl, rfl⟩⟩, ?_⟩
  intro m hm
  simp only [exEqual, List.mem_cons, List.not_mem_nil, or_false] at hm
  rcases hm with rfl | rfl | rfl
  · intro h; exact absurd rfl h.1
  · intro h; exact absurd rfl h.2
  · intro _; exact ⟨rfl, by decide, by decide⟩

theorem sampleAt_shows (ts : Int) (n : Nat) (v : PVal) : Shows exEqual (sampleAt ts n) v ↔ v = .counter n := by
  constructor
  · rintro ⟨_, ⟨_, hv⟩, _⟩; exact hv
  · rintro rfl
    refine ⟨⟨⟨.equal, "source_id".toList, "a".toList⟩, by simp [exEqual], rfl, .inl ⟨rfl, rfl⟩⟩, ⟨by decide, rfl⟩, ?_⟩
    intro m hm
    simp only [exEqual, List.mem_cons, List.not_mem_nil, or_false] at hm
    rcases hm with rfl | rfl | rfl
    · intro h; exact absurd rfl h.1
    · intro h; exact absurd rfl h.2
    · intro _
      unfold IsLabelOf
      rw [if_neg (by decide), if_neg (by intro h; exact h.2 rfl)]
      exact (by decide : List.lookup "zone".toList [("zone".toList, "z1".toList)] = some "z1".toList)

theorem onlyA_mem {xs : List (Int × Nat)} {e : Envelope}
    (h : e ∈ onlyA (xs.map fun x => sampleAt x.1 x.2) e.sourceId) : ∃ x ∈ xs, e = sampleAt x.1 x.2 := by
  unfold onlyA at h
  split at h
  · obtain ⟨x, hx, rfl⟩ := List.mem_map.1 h
    exact ⟨x, hx, rfl⟩
  · cases h

/-- The conditions of C133 and C134 are met by a source with some samples, and then the
newest value is shown. -/
example (fl : FloatLib F) (rfc : Str → Option Int) (num : PVal → F) (query : Str) :
    let log := onlyA ([(980000000000, 1), (990500000000, 2), (1000000000000, 3)].map fun x => sampleAt x.1 x.2)
    ∃ samples s, (instantQuery fl rfc (fun _ t => some (plainInstant num exEqual t)) (fun _ => readerOf log)
        (fun _ ms => (selectArgs ms).ids) 1000300000000 query []).result = .answer (.vector samples) ∧
      s ∈ samples ∧ s.point = ⟨formatTime fl 1000000, num (.counter 2)⟩ := by
  intro log
  obtain ⟨samples, h1, h2, h3, _⟩ := C133_instant_partial fl rfc num log (onlyA_stored _ (by decide)) (onlyA_clear _)
    (fun _ => readerOf log) exEqual (readerOf_answers log) (fun _ ms => (selectArgs ms).ids) namedOrder_valid
    exEqual_plain 1000300000000 query [] 1000000000000 (by rw [if_pos rfl]; decide) (by decide) (by decide)
  obtain ⟨s, hs, _⟩ := h3 "a".toList (sampleAt 990500000000 2) (by decide) ⟨_, (sampleAt_shows _ _ _).2 rfl⟩
    (by unfold Recent secondOf; decide)
  refine ⟨samples, s, h1, hs, ?_⟩
  obtain ⟨ht, e, v, hsh, _, hv, pre, post, hsplit, hq, hpost⟩ := h2 s hs
  obtain ⟨x, hx, rfl⟩ := onlyA_mem (e := e) (by show e ∈ log e.sourceId; rw [hsplit]; simp)
  rw [sampleAt_shows] at hsh
  subst hsh
  have halike : ∀ a b c d, Alike (sampleAt a b) (sampleAt c d) := fun _ _ _ _ _ _ => Iff.rfl
  simp only [List.mem_cons, List.not_mem_nil, or_false] at hx
  rcases hx with rfl | rfl | rfl
  · exfalso
    -- the older sample is followed by a newer one
    have hl : log "a".toList = [sampleAt 980000000000 1, sampleAt 990500000000 2, sampleAt 1000000000000 3] := rfl
    change log "a".toList = _ at hsplit
    rw [hl] at hsplit
    have hin : sampleAt 990500000000 2 ∈ post := by
      cases pre with
      | nil => rw [List.nil_append] at hsplit; rw [← (List.cons.inj hsplit).2]; simp
      | cons y pre =>
        exfalso
        rw [List.cons_append] at hsplit
        have h := (List.cons.inj hsplit).2
        have : sampleAt 980000000000 1 ∈ [sampleAt 990500000000 2, sampleAt 1000000000000 3] := by rw [h]; simp
        revert this
        decide
    exact hpost _ hin ⟨⟨⟨_, (sampleAt_shows _ _ _).2 rfl⟩, halike _ _ _ _⟩, by unfold Recent secondOf; decide⟩
  · obtain ⟨m, p⟩ := s
    obtain ⟨pt, pv⟩ := p
    simp only at ht hv ⊢
    rw [ht, hv]
    rfl
  · exfalso
    have := hq.2
    revert this
    unfold Recent secondOf
    decide

/-- An instant query does not see an envelope of exactly its time: the only sample is from
the time of the query and the answer is empty. -/
theorem C133_now_false (fl : FloatLib F) (rfc : Str → Option Int) (num : PVal → F) (query : Str) :
    ∃ log e, StoredLogs log ∧ ClearLabels log ∧ e ∈ log "a".toList ∧ Shows exEqual e (.counter 1) ∧
      e.timestamp = 1000000000000 ∧
      ∀ now time, (if time = [] then now = 1000000000000 else parseTime rfc time = some 1000000000000) →
        (instantQuery fl rfc (fun _ t => some (plainInstant num exEqual t)) (fun _ => readerOf log)
          (fun _ ms => (selectArgs ms).ids) now query time).result = .answer (.vector []) := by
  refine ⟨onlyA ([(1000000000000, 1)].map fun x => sampleAt x.1 x.2), sampleAt 1000000000000 1,
    onlyA_stored _ (by decide), onlyA_clear _, by decide, (sampleAt_shows _ _ _).2 rfl, rfl, ?_⟩
  intro now time htime
  obtain ⟨samples, h1, h2, _, _⟩ := C133_instant_partial fl rfc num
    (onlyA ([(1000000000000, 1)].map fun x => sampleAt x.1 x.2)) (onlyA_stored _ (by decide)) (onlyA_clear _)
    (fun _ => readerOf _) exEqual (readerOf_answers _) (fun _ ms => (selectArgs ms).ids) namedOrder_valid
    exEqual_plain now query time 1000000000000 (by
      split
      · rename_i h
        rw [if_pos h] at htime
        subst htime
        decide
      · rename_i h
        rw [if_neg h] at htime
        exact htime) (by decide) (by decide)
  cases samples with
  | nil => exact h1
  | cons s samples =>
    exfalso
    obtain ⟨_, e, v, _, _, _, pre, post, hsplit, hq, _⟩ := h2 s (List.mem_cons_self ..)
    obtain ⟨x, hx, rfl⟩ := onlyA_mem (e := e) (by rw [hsplit]; simp)
    rw [List.mem_singleton.1 hx] at hq
    have := hq.2
    revert this
    unfold Recent secondOf
    decide

/-- A range query and an instant query disagree about the same time: at 1000 s the instant
query shows the value of 990 s, and the range query shows at that step the value of
1000.9 s, which is from after the step. -/
theorem C134_future_false (fl : FloatLib F) (rfc dur : Str → Option Int) (num : PVal → F) (query : Str)
    (start stop step : Str) (ha : parseTime rfc start = some 1000000000000) (hne : start ≠ [])
    (hb : parseTime rfc stop = some 1060000000000) (hd : parseStep dur step = some 60000000000) :
    ∃ log, StoredLogs log ∧ ClearLabels log ∧
      (∃ samples, (instantQuery fl rfc (fun _ t => some (plainInstant num exEqual t)) (fun _ => readerOf log)
          (fun _ ms => (selectArgs ms).ids) 0 query start).result = .answer (.vector samples) ∧ samples ≠ [] ∧
        ∀ s ∈ samples, s.point = ⟨formatTime fl 1000000, num (.counter 1)⟩) ∧
      ∃ series, (rangeQuery fl rfc dur (fun _ a b d => some (plainRange num exEqual a b d)) (fun _ => readerOf log)
          (fun _ ms => (selectArgs ms).ids) query start stop step).result = .answer (.matrix series) ∧ series ≠ [] ∧
        ∀ s ∈ series, ⟨formatTime fl 1000000, num (.counter 2)⟩ ∈ s.points := by
  refine ⟨onlyA ([(990000000000, 1), (1000900000000, 2)].map fun x => sampleAt x.1 x.2),
    onlyA_stored _ (by decide), onlyA_clear _, ?_, ?_⟩
  · obtain ⟨samples, h1, h2, h3, _⟩ := C133_instant_partial fl rfc num
      (onlyA ([(990000000000, 1), (1000900000000, 2)].map fun x => sampleAt x.1 x.2))
      (onlyA_stored _ (by decide)) (onlyA_clear _)
      (fun _ => readerOf _) exEqual (readerOf_answers _) (fun _ ms => (selectArgs ms).ids) namedOrder_valid
      exEqual_plain 0 query start 1000000000000 (by rw [if_neg hne]; exact ha) (by decide) (by decide)
    refine ⟨samples, h1, ?_, ?_⟩
    · obtain ⟨s, hs, _⟩ := h3 "a".toList (sampleAt 990000000000 1) (by decide) ⟨_, (sampleAt_shows _ _ _).2 rfl⟩
        (by unfold Recent secondOf; decide)
      exact List.ne_nil_of_mem hs
    · intro s hs
      obtain ⟨ht, e, v, hsh, _, hv, pre, post, hsplit, hq, _⟩ := h2 s hs
      obtain ⟨x, hx, rfl⟩ := onlyA_mem (e := e) (by rw [hsplit]; simp)
      rw [sampleAt_shows] at hsh
      subst hsh
      simp only [List.mem_cons, List.not_mem_nil, or_false] at hx
      rcases hx with rfl | rfl
      · obtain ⟨m, p⟩ := s
        obtain ⟨pt, pv⟩ := p
        simp only at ht hv ⊢
        rw [ht, hv]
        rfl
      · exfalso
        have := hq.2
        revert this
        unfold Recent secondOf
        decide
  · obtain ⟨series, h1, h2, h3, _⟩ := C134_range_partial fl rfc dur num
      (onlyA ([(990000000000, 1), (1000900000000, 2)].map fun x => sampleAt x.1 x.2))
      (onlyA_stored _ (by decide)) (onlyA_clear _)
      (fun _ => readerOf _) exEqual (readerOf_answers _) (fun _ ms => (selectArgs ms).ids) namedOrder_valid
      exEqual_plain query start stop step 1000000000000 1060000000000 60000000000 ha hb hd (by decide) (by decide)
      (by decide) (by decide) (by decide)
    have hstep : IsStep (1000000000000 / 1000000) (1060000000000 / 1000000) (60000000000 / 1000000) 1000000 :=
      ⟨0, by decide, by decide⟩
    refine ⟨series, h1, ?_, ?_⟩
    · obtain ⟨s, hs, _⟩ := h3 "a".toList (sampleAt 1000900000000 2) (by decide) ⟨_, (sampleAt_shows _ _ _).2 rfl⟩
        1000000 hstep (.inl (by unfold InSecond secondOf; decide))
      exact List.ne_nil_of_mem hs
    · intro s hs
      obtain ⟨_, e, he, _, _, shown, ts, _, hts, hshown, hpts⟩ := h2 s hs
      have hT := (hts 1000000).2 hstep
      have hst := hshown _ hT
      obtain ⟨w, hw, rfl⟩ := onlyA_mem he
      have halike : ∀ a b c d, Alike (sampleAt a b) (sampleAt c d) := fun _ _ _ _ _ _ => Iff.rfl
      have hin : InSeries exEqual (sampleAt w.1 w.2) (sampleAt 1000900000000 2) ∧
          InSecond (1000000 * 1000000) (1060000000000 / 1000000 * 1000000) (sampleAt 1000900000000 2) :=
        ⟨⟨⟨_, (sampleAt_shows _ _ _).2 rfl⟩, halike _ _ _ _⟩, by unfold InSecond secondOf; decide⟩
      have hmem : sampleAt 1000900000000 2 ∈ onlyA ([(990000000000, 1), (1000900000000, 2)].map fun x =>
          sampleAt x.1 x.2) (sampleAt w.1 w.2).sourceId := by
        show _ ∈ onlyA _ "a".toList
        decide
      rw [hpts]
      refine List.mem_filterMap.2 ⟨1000000, hT, ?_⟩
      cases hsw : shown 1000000 with
      | none =>
        rw [hsw] at hst
        exact absurd hin.2 (hst _ hmem hin.1).1
      | some y =>
        obtain ⟨y, v⟩ := y
        rw [hsw] at hst
        obtain ⟨hy, hor⟩ := hst
        rcases hor with ⟨pre, post, hsplit, hq, _⟩ | ⟨hno, _⟩
        · have hyl : y ∈ [sampleAt 990000000000 1, sampleAt 1000900000000 2] := by
            have : y ∈ onlyA ([(990000000000, 1), (1000900000000, 2)].map fun x => sampleAt x.1 x.2)
              (sampleAt w.1 w.2).sourceId := by rw [hsplit]; simp
            exact this
          simp only [List.mem_cons, List.not_mem_nil, or_false] at hyl
          rcases hyl with rfl | rfl
          · exfalso
            have := hq.2.1
            revert this
            unfold secondOf
            decide
          · rw [sampleAt_shows] at hy
            subst hy
            rfl
        · exact absurd hin (hno _ hmem)

/-- A walk of a query's reader through a real store. -/
example : ∃ tr, Run (newStore { maxPerSource := 10 }) (puts [("a", sampleAt 5 1), ("a", sampleAt 7 2)])
      (after { maxPerSource := 10 } [("a", sampleAt 5 1), ("a", sampleAt 7 2)]) ∧
    DistinctTs (puts [("a", sampleAt 5 1), ("a", sampleAt 7 2)]) ∧
    WalkRun dataReaderBackoff (dataReaderCfg (metricsAsked 0 20 "a".toList)) "a".toList
      (StoreReader (fun _ => none) (after { maxPerSource := 10 } [("a", sampleAt 5 1), ("a", sampleAt 7 2)]) 1000000000)
      (walkInit (dataReaderCfg (metricsAsked 0 20 "a".toList)) 0) tr none ∧
    delivered tr = [[sampleAt 5 1, sampleAt 7 2]] ∧ ∃ es now more v, tr.getLast? = some (.got es now more, v) :=
  ⟨[(.got [sampleAt 5 1, sampleAt 7 2] 2000000000 true, some [sampleAt 5 1, sampleAt 7 2]),
      (.got [] 2000000000 true, none)],
    run_after (by decide), distinct_puts (by decide),
    .step ⟨⟨0, rfl⟩, rfl, by decide⟩ rfl (.done ⟨⟨0, rfl⟩, rfl, by decide⟩ rfl), rfl, ⟨_, _, _, _, rfl⟩⟩

/-- The engine takes a range query from a time to the same time with step zero for an instant
query.  The handler of range queries has no case for what it then gets: whenever an instant
query for that time would be answered, the range query crashes the node. -/
theorem C134_zero_step_false (fl : FloatLib F) (rfc dur : Str → Option Int) (num : PVal → F) (ms : List Matcher)
    (read : Nat → ReadRequest → Option (List Envelope)) (order : Nat → List Matcher → List Str) (now : Int)
    (query start stop step : Str) (t : Int) (hne : start ≠ []) (ha : parseTime rfc start = some t)
    (hb : parseTime rfc stop = some t) (hd : parseStep dur step = some 0) (r : PResult F)
    (hi : (instantQuery fl rfc (fun _ t => some (plainInstant num ms t)) read order now query start).result =
      .answer r) :
    (rangeQuery fl rfc dur (fun _ a b d => some (plainRange num ms a b d)) read order query start stop step).result =
      .crash := by
  unfold instantQuery requestTime at hi
  rw [if_neg hne, ha] at hi
  unfold rangeQuery
  rw [hd, ha, hb]
  have hp : plainRange num ms t t 0 = plainInstant num ms t := by
    unfold plainRange plainInstant
    simp
  simp only [hp] at hi ⊢
  unfold plainInstant at hi ⊢
  rw [runEngine, runEngine] at hi ⊢
  simp only at hi ⊢
  unfold finishQuery at hi ⊢
  split at hi
  · exact nomatch hi
  · rename_i hc
    rw [if_neg hc]
    unfold instantValue at hi ⊢
    simp only at hi ⊢
    generalize selectorMatrix [timeMilliseconds t] _ = x at hi ⊢
    cases x with
    | none => exact nomatch hi
    | some m => rfl

/-- Such a query can be written: `start=1000&end=1000&step=0` crashes a node that stores a
sample. -/
example (fl : FloatLib F) (rfc dur : Str → Option Int) (num : PVal → F) (query : Str) :
    (rangeQuery fl rfc dur (fun _ a b d => some (plainRange num exEqual a b d))
      (fun _ => readerOf (onlyA [sampleAt 990000000000 1])) (fun _ ms => (selectArgs ms).ids) query "1000".toList
      "1000".toList "0".toList).result = .crash := by
  have h1000 : parseTime rfc "1000".toList = some 1000000000000 := by
    have h : (parseFloat "1000".toList).map (fun x => ((x.mul f64Billion).above63, (x.mul f64Billion).below63,
        (x.mul f64Billion).toInt64)) = some (false, false, 1000000000000) := by decide +kernel
    unfold parseTime
    cases hx : parseFloat "1000".toList with
    | none => rw [hx] at h; exact nomatch h
    | some x => rw [hx] at h; simp_all
  have h0 : parseStep dur "0".toList = some 0 := by
    have h : (parseFloat "0".toList).map (fun x => ((x.mul f64Billion).above63, (x.mul f64Billion).below63,
        (x.mul f64Billion).toInt64)) = some (false, false, 0) := by decide +kernel
    unfold parseStep
    cases hx : parseFloat "0".toList with
    | none => rw [hx] at h; exact nomatch h
    | some x => rw [hx] at h; simp_all
  obtain ⟨samples, h1, _⟩ := C133_instant_partial fl rfc num (onlyA [sampleAt 990000000000 1])
    (onlyA_stored [(990000000000, 1)] (by decide)) (onlyA_clear [(990000000000, 1)])
    (fun _ => readerOf _) exEqual (readerOf_answers _) (fun _ ms => (selectArgs ms).ids) namedOrder_valid
    exEqual_plain 0 query "1000".toList 1000000000000 (by rw [if_neg (by decide)]; exact h1000) (by decide) (by decide)
  exact C134_zero_step_false fl rfc dur num exEqual _ _ 0 query _ _ _ 1000000000000 (by decide) h1000 h1000
    h0 _ h1

/-- A step below a millisecond is refused, unless it is zero and the two times are the same. -/
theorem C134_short_step (fl : FloatLib F) (rfc dur : Str → Option Int) (num : PVal → F) (ms : List Matcher)
    (read : Nat → ReadRequest → Option (List Envelope)) (order : Nat → List Matcher → List Str)
    (query start stop step : Str) (a b d : Int) (ha : parseTime rfc start = some a)
    (hb : parseTime rfc stop = some b) (hd : parseStep dur step = some d) (h0 : 0 ≤ d) (h1 : d < 1000000)
    (hne : a ≠ b ∨ d ≠ 0) :
    (rangeQuery fl rfc dur (fun _ a b d => some (plainRange num ms a b d)) read order query start stop step).result =
      .error := by
  have htd : timeMilliseconds d = 0 := (Int.tdiv_eq_ediv_of_nonneg h0).trans (Int.ediv_eq_zero_of_lt h0 h1)
  unfold rangeQuery
  rw [hd, ha, hb]
  unfold plainRange
  simp only [runEngine, htd, if_true]
  rw [if_neg (fun h => hne.elim (fun hn => hn h.1) (fun hn => hn h.2))]
  unfold finishQuery
  split <;> rfl

/-- With a positive step the engine's loop goes through the steps, and ends. -/
theorem C134_steps {a b d : Int} (hd : 0 < d) (ha : -2 ^ 63 ≤ a) (hb : b + d < 2 ^ 63) {n : Nat}
    (hn : ((b - a) / d + 1).toNat < n) : stepLoop b d n a = some (stepTimes a b d) := by
  induction n generalizing a with
  | zero => exact absurd hn (Nat.not_lt_zero _)
  | succ n ih =>
    unfold stepLoop
    by_cases hlt : b < a
    · rw [if_pos hlt]
      unfold stepTimes
      have : (b - a) / d < 0 := Int.ediv_neg_of_neg_of_pos (by omega) hd
      rw [show ((b - a) / d + 1).toNat = 0 by omega]
      rfl
    · rw [if_neg hlt, wrap64_small (by omega) (by omega)]
      have hq : (b - (a + d)) / d + 1 = (b - a) / d := by
        rw [show b - (a + d) = (b - a) + (-1) * d by omega, Int.add_mul_ediv_right _ _ (by omega)]
        omega
      have h0 : 0 ≤ (b - a) / d := Int.ediv_nonneg (by omega) (by omega)
      rw [ih (by omega) (by rw [hq]; omega)]
      unfold stepTimes
      rw [hq, show ((b - a) / d + 1).toNat = ((b - a) / d).toNat + 1 by omega, List.range_succ_eq_map]
      simp only [Option.map_some, List.map_cons, List.map_map, Option.some.injEq, List.cons.injEq]
      refine ⟨by simp, List.map_congr_left fun k _ => ?_⟩
      simp only [Function.comp_apply, Nat.succ_eq_add_one, Int.natCast_add, Int.natCast_one, Int.mul_add, Int.mul_one]
      omega

/-- With a negative step it does not end before the time has run through all negative 64-bit
numbers. -/
theorem C134_negative_step_false {a b d : Int} (hd : d < 0) (hab : a ≤ b) (hb : b < 2 ^ 63) (n : Nat)
    (hn : -2 ^ 63 ≤ a + n * d) : stepLoop b d n a = none := by
  induction n generalizing a with
  | zero => rfl
  | succ n ih =>
    unfold stepLoop
    have hnd : (n : Int) * d ≤ 0 := Int.mul_nonpos_of_nonneg_of_nonpos (by omega) (by omega)
    have hn' : -2 ^ 63 ≤ a + d + n * d := by
      rw [show ((n + 1 : Nat) : Int) * d = n * d + d by rw [Int.natCast_add, Int.natCast_one, Int.add_mul, Int.one_mul]] at hn
      omega
    rw [if_neg (by omega), wrap64_small (by omega) (by omega), ih (by omega) hn']
    rfl

/-- A query with `start=1000&end=1000&step=-1` has not ended after nine quadrillion rounds. -/
example (rfc dur : Str → Option Int) :
    ∃ a b d, parseTime rfc "1000".toList = some a ∧ parseTime rfc "1000".toList = some b ∧
      parseStep dur "-1".toList = some d ∧
      stepLoop (timeMilliseconds b) (timeMilliseconds d) 9000000000000000 (timeMilliseconds a) = none := by
  have h1 : (parseFloat "1000".toList).map (fun x => (x.mul f64Billion).toInt64) = some 1000000000000 := by
    decide +kernel
  have h2 : (parseFloat "-1".toList).map (fun x => ((x.mul f64Billion).above63, (x.mul f64Billion).below63,
      (x.mul f64Billion).toInt64)) = some (false, false, -1000000000) := by decide +kernel
  have e1 : parseTime rfc "1000".toList = some 1000000000000 := by
    unfold parseTime
    cases hx : parseFloat "1000".toList with
    | none => rw [hx] at h1; exact nomatch h1
    | some x => rw [hx] at h1; simp_all
  have e2 : parseStep dur "-1".toList = some (-1000000000) := by
    unfold parseStep
    cases hx : parseFloat "-1".toList with
    | none => rw [hx] at h2; exact nomatch h2
    | some x => rw [hx] at h2; simp_all
  exact ⟨_, _, _, e1, e1, e2, C134_negative_step_false (by decide) (by decide) (by decide) _ (by decide)⟩

end LogCache
