import Verif.Proof.EngineRange
import Verif.Props.Engine

/-! # What a query that is a selector with a range returns (C137) -/

namespace LogCache
open Spec
variable {F : Type}

/-- The matrix of a selector with a range. -/
theorem range_matrix {log : Str → List Envelope} (hs : StoredLogs log) (hc : ClearLabels log)
    {read : ReadRequest → Option (List Envelope)} {ms : List Matcher} (hr : AnswersFrom ms log read)
    (hp : PlainSelector ms) {order : List Str} (ho : order.Perm (selectArgs ms).ids) {start t range : Int}
    (hz : t ≠ 0)
    (hf1 : FitsInt64 (start - 1000000000)) (hf2 : FitsInt64 (t * 1000000)) (hd : 0 ≤ range) (hlow : start + range * 1000000 ≤ t * 1000000) :
    (select 1000000000 start (t * 1000000) read order ms).isSome ∧
    ∃ m, matrixOf range t (select 1000000000 start (t * 1000000) read order ms) = some m ∧
      (∀ x ∈ m, x.2 ≠ [] ∧ (x.1.map Prod.fst).Nodup ∧ ∃ e ∈ log e.sourceId, (∃ v, Shows ms e v) ∧ CarriesLabels x.1 e ∧
        ∃ vals : List (Envelope × PVal),
          vals.map Prod.fst = AllWith (log e.sourceId) (fun x => InSeries ms e x ∧
            WithinRange (range * 1000000) (t * 1000000) x) ∧
          (∀ y ∈ vals, Shows ms y.1 y.2) ∧
          (x.2.map fun p => (p.t, p.v)) = vals.map fun y => (secondOf y.1 / 1000000, y.2)) ∧
      (∀ id, ∀ e ∈ log id, (∃ v, Shows ms e v) → WithinRange (range * 1000000) (t * 1000000) e →
        ∃ x ∈ m, CarriesLabels x.1 e) ∧
      m.Pairwise fun x y => ¬ SameLabels x.1 y.1 := by
  obtain ⟨out, hout, c1, c2, c3, c4⟩ := select_series hs hc hr hp ho start (t * 1000000) (by omega) hf1 hf2
  have hlt : ∀ s ∈ out, ∀ p ∈ s.points, p.t < t := by
    intro s hso p hpm
    obtain ⟨_, e, he, _, hsh, _, hpts⟩ := c2 s hso
    rw [hpts] at hpm
    obtain ⟨x, hx, hxp⟩ := List.mem_filterMap.1 hpm
    have hn : NamesSource ms x.sourceId := by rw [hs.own _ x hx]; exact hsh.choose_spec.1
    obtain ⟨_, _, h3, _, h5⟩ := pointIn_some hp hn hxp
    unfold secondOf at h3
    omega
  rw [hout]
  have hmat : matrixOf range t (some out) = some ((out.map fun s => (seriesLabels s,
      s.points.filter fun p => decide (t - range ≤ p.t))).filter fun x => !x.2.isEmpty) := by
    unfold matrixOf
    simp only
    rw [expandSet_all]
    exact evalMatrix_sorted hd out c1 hlt
  refine ⟨rfl, _, hmat, ?_⟩
  have hlab : ∀ s ∈ out, ∀ k, (seriesLabels s).lookup k = s.tags.lookup k := fun s hso k =>
    sorted_lookup (c2 s hso).1 _ k
  have hvals : ∀ s ∈ out, ∃ e ∈ log e.sourceId, (∃ v, Shows ms e v) ∧ CarriesLabels s.tags e ∧
      ∃ vals : List (Envelope × PVal),
        vals.map Prod.fst = AllWith (log e.sourceId) (fun x => InSeries ms e x ∧
          WithinRange (range * 1000000) (t * 1000000) x) ∧
        (∀ y ∈ vals, Shows ms y.1 y.2) ∧
        ((s.points.filter fun p => decide (t - range ≤ p.t)).map fun p => (p.t, p.v)) =
          vals.map fun y => (secondOf y.1 / 1000000, y.2) := by
    intro s hso
    obtain ⟨_, e, he, hw, hsh, hcl, hpts⟩ := c2 s hso
    have hn : ∀ x ∈ log e.sourceId, NamesSource ms x.sourceId := by
      intro x hx
      rw [hs.own _ x hx]
      exact hsh.choose_spec.1
    rw [hpts]
    exact ⟨e, he, hsh, hcl, range_envelopes hp hn hlow⟩
  refine ⟨?_, ?_, ?_⟩
  · intro x hx
    obtain ⟨hx, hne⟩ := List.mem_filter.1 hx
    obtain ⟨s, hso, rfl⟩ := List.mem_map.1 hx
    obtain ⟨e, he, hsh, hcl, vals, h1, h2, h3⟩ := hvals s hso
    refine ⟨by simpa using hne, ?_, e, he, hsh, carries_of_same (hlab s hso) hcl, vals, h1, h2, h3⟩
    exact ((List.mergeSort_perm s.tags _).map Prod.fst).nodup_iff.2 (c2 s hso).1
  · intro id e he hsh hwr
    have hw : inWindow (start - 1000000000) (t * 1000000) e = true := by
      unfold WithinRange secondOf at hwr
      unfold inWindow
      rw [Bool.and_eq_true, decide_eq_true_eq, decide_eq_true_eq]
      omega
    obtain ⟨s, hso, hcl⟩ := c3 id e he hw hsh
    obtain ⟨e', he', _, hcl', vals, h1, _, h3⟩ := hvals s hso
    refine ⟨(seriesLabels s, s.points.filter fun p => decide (t - range ≤ p.t)), ?_, carries_of_same (hlab s hso) hcl⟩
    rw [List.mem_filter]
    refine ⟨List.mem_map.2 ⟨s, hso, rfl⟩, ?_⟩
    have hal : Alike e e' := alike_of_carries hcl hcl'
    have hme : e ∈ log e'.sourceId := by rw [← alike_source hal, hs.own id e he]; exact he
    have hin : e ∈ vals.map Prod.fst := by
      rw [h1]
      unfold AllWith
      rw [List.mem_filter]
      exact ⟨hme, by simpa using ⟨⟨hsh, hal⟩, hwr⟩⟩
    cases hl : s.points.filter (fun p => decide (t - range ≤ p.t)) with
    | nil =>
      exfalso
      rw [hl] at h3
      have : vals = [] := by simpa using h3.symm
      rw [this] at hin
      cases hin
    | cons a l => rfl
  · apply List.Pairwise.filter
    rw [List.pairwise_map]
    refine List.Pairwise.imp_of_mem ?_ c4
    intro a b ha hb hab hsame
    apply hab
    intro k
    rw [← hlab a ha k, ← hlab b hb k]
    exact hsame k

/-- The times of an instant query with a range. -/
theorem range_times {rfc : Str → Option Int} {now : Int} {time : Str} {t : Int}
    (ht : if time = [] then t % 1000000000 = 0 ∧ t ≤ now ∧ now < t + 1000000000 else parseTime rfc time = some t)
    (h0 : 1000000 ≤ t) (h63 : t < 2 ^ 63) {range : Int} (hd : 0 ≤ range) (hd62 : range * 1000000 < 2 ^ 62) :
    requestTime rfc now time = some t ∧ timeMilliseconds t = t / 1000000 ∧
      wrap64 (fromTime (t - range * 1000000) * 1000000) = t / 1000000 * 1000000 - range * 1000000 ∧
      wrap64 (fromTime t * 1000000) = t / 1000000 * 1000000 := by
  refine ⟨?_, Int.tdiv_eq_ediv_of_nonneg (by omega), ?_, ?_⟩
  · unfold requestTime
    split
    · rename_i h
      rw [if_pos h] at ht
      rw [Option.some.injEq]
      omega
    · rename_i h
      rw [if_neg h] at ht
      exact ht
  · have : fromTime (t - range * 1000000) = t / 1000000 - range := by unfold fromTime; omega
    rw [this, wrap64_small (by omega) (by omega)]
    omega
  · unfold fromTime
    exact wrap64_small (by omega) (by omega)

/-- An instant query that is a plain selector with a range answers, for every combination
of labels, with all envelopes the selector asks for that are from before the query's time
and whose second began in the range before it: one point for each, in their order, with the
time of its second.  Missing from the full claim: envelopes of the query's time itself
(below), selectors with other matchers, and labels that collide. -/
theorem C137_range_partial (fl : FloatLib F) (rfc : Str → Option Int) (num : PVal → F)
    (log : Str → List Envelope) (hs : StoredLogs log) (hc : ClearLabels log)
    (read : Nat → ReadRequest → Option (List Envelope)) (ms : List Matcher) (hr : AnswersFrom ms log (read 0))
    (order : Nat → List Matcher → List Str) (ho : ValidOrder (order 0)) (hp : PlainSelector ms)
    (now : Int) (query time : Str) (t : Int)
    (ht : if time = [] then t % 1000000000 = 0 ∧ t ≤ now ∧ now < t + 1000000000 else parseTime rfc time = some t)
    (h0 : 1000000 ≤ t) (h63 : t < 2 ^ 63) (range : Int) (hd : 0 ≤ range) (hd62 : range * 1000000 < 2 ^ 62) :
    ∃ series, (instantQuery fl rfc (fun _ t => some (rangeInstant num ms range t)) read order now query time).result =
        .answer (.matrix series) ∧
      (∀ s ∈ series, s.points ≠ [] ∧ ∃ e ∈ log e.sourceId, (∃ v, Shows ms e v) ∧ CarriesLabels s.metric e ∧
        ∃ vals : List (Envelope × PVal),
          vals.map Prod.fst = AllWith (log e.sourceId) (fun x => InSeries ms e x ∧
            WithinRange (range * 1000000) (t / 1000000 * 1000000) x) ∧
          (∀ y ∈ vals, Shows ms y.1 y.2) ∧
          s.points = vals.map fun y => ⟨formatTime fl (secondOf y.1 / 1000000), num y.2⟩) ∧
      (∀ id, ∀ e ∈ log id, (∃ v, Shows ms e v) → WithinRange (range * 1000000) (t / 1000000 * 1000000) e →
        ∃ s ∈ series, CarriesLabels s.metric e) ∧
      series.Pairwise fun s s' => ¬ SameLabels s.metric s'.metric := by
  obtain ⟨hrt, htm, hw1, hw2⟩ := range_times ht h0 h63 hd hd62
  obtain ⟨hsome, m, hm, d1, d2, d3⟩ := range_matrix hs hc hr hp (validOrder_perm ho ms) (hz := by omega)
    (hf1 := by constructor <;> omega) (hf2 := by constructor <;> omega)
    (start := t / 1000000 * 1000000 - range * 1000000) (t := t / 1000000) hd (by omega)
  have hq : instantQuery fl rfc (fun _ t => some (rangeInstant num ms range t)) read order now query time =
      finishQuery (toInstant fl) (runEngine read order 0 (rangeInstant num ms range t)) := by
    unfold instantQuery
    rw [hrt]
  have hrun : runEngine read order 0 (rangeInstant num ms range t) =
      ([⟨t / 1000000 * 1000000 - range * 1000000, t / 1000000 * 1000000, ms,
        select 1000000000 (t / 1000000 * 1000000 - range * 1000000) (t / 1000000 * 1000000) (read 0) (order 0 ms) ms⟩],
        some (.matrix (m.map fun s => ⟨s.1, s.2.map fun p => (p.t, num p.v)⟩))) := by
    unfold rangeInstant
    rw [runEngine]
    simp only [hw1, hw2, htm]
    rw [runEngine, hm]
    rfl
  rw [hq, hrun]
  unfold finishQuery
  have hcl : ∀ a b c, closureErr [⟨a, b, c, select 1000000000 (t / 1000000 * 1000000 - range * 1000000)
      (t / 1000000 * 1000000) (read 0) (order 0 ms) ms⟩] = false := by
    intro a b c
    unfold closureErr
    obtain ⟨o, ho⟩ := Option.isSome_iff_exists.1 hsome
    rw [ho]
    rfl
  rw [if_neg (by rw [hcl]; simp)]
  refine ⟨_, rfl, ?_, ?_, ?_⟩
  · intro s hso
    rw [List.map_map] at hso
    obtain ⟨x, hx, rfl⟩ := List.mem_map.1 hso
    obtain ⟨g0, g1, e, he, hsh, g2, vals, g3, g4, g5⟩ := d1 x hx
    refine ⟨by simpa [toSeries] using g0, e, he, hsh, ?_, vals, g3, g4, ?_⟩
    · show CarriesLabels (labelMap x.1) e
      rw [labelMap_nodup _ g1]
      exact g2
    · show (x.2.map fun p => (p.t, num p.v)).map _ = _
      have : (x.2.map fun p => (p.t, num p.v)) = (x.2.map fun p => (p.t, p.v)).map fun y => (y.1, num y.2) := by
        rw [List.map_map]; rfl
      rw [this, g5, List.map_map, List.map_map]
      rfl
  · intro id e he hsh hre
    obtain ⟨x, hx, hcx⟩ := d2 id e he hsh hre
    refine ⟨toSeries fl ⟨x.1, x.2.map fun p => (p.t, num p.v)⟩, ?_, ?_⟩
    · exact List.mem_map.2 ⟨_, List.mem_map.2 ⟨x, hx, rfl⟩, rfl⟩
    · show CarriesLabels (labelMap x.1) e
      rw [labelMap_nodup _ (d1 x hx).2.1]
      exact hcx
  · rw [List.pairwise_map, List.pairwise_map]
    refine List.Pairwise.imp_of_mem ?_ d3
    intro a b ha hb hab hsame
    apply hab
    change SameLabels (labelMap a.1) (labelMap b.1) at hsame
    rw [labelMap_nodup _ (d1 a ha).2.1, labelMap_nodup _ (d1 b hb).2.1] at hsame
    exact hsame

theorem dropMetricName_none {ls : List (Str × Str)} (h : ls.lookup nameLabel = none) :
    dropMetricName ls = ls := by
  unfold dropMetricName
  generalize nameLabel = k at h
  rw [List.filter_eq_self]
  intro l hl
  rw [List.lookup_eq_none_iff] at h
  have := h l hl
  rw [bne_iff_ne] at this
  exact decide_eq_true (Ne.symm this)

/-- A function of a plain selector with a range gives, for every combination of labels, the
function's value for just these points.  `f` is any function of a list of times and values:
the number, the sum, the largest. -/
theorem C137_function_partial (fl : FloatLib F) (rfc : Str → Option Int) (num : PVal → F) (f : List (Int × F) → F)
    (log : Str → List Envelope) (hs : StoredLogs log) (hc : ClearLabels log)
    (hname : ∀ id, ∀ e ∈ log id, ∀ v, ¬ IsLabelOf e "__name__".toList v)
    (read : Nat → ReadRequest → Option (List Envelope)) (ms : List Matcher) (hr : AnswersFrom ms log (read 0))
    (order : Nat → List Matcher → List Str) (ho : ValidOrder (order 0)) (hp : PlainSelector ms)
    (now : Int) (query time : Str) (t : Int)
    (ht : if time = [] then t % 1000000000 = 0 ∧ t ≤ now ∧ now < t + 1000000000 else parseTime rfc time = some t)
    (h0 : 1000000 ≤ t) (h63 : t < 2 ^ 63) (range : Int) (hd : 0 ≤ range) (hd62 : range * 1000000 < 2 ^ 62) :
    ∃ samples, (instantQuery fl rfc (fun _ t => some (overTimeInstant num f ms range t)) read order now query time).result =
        .answer (.vector samples) ∧
      (∀ s ∈ samples, s.point.time = formatTime fl (t / 1000000) ∧
        ∃ e ∈ log e.sourceId, (∃ v, Shows ms e v) ∧ CarriesLabels s.metric e ∧
        ∃ vals : List (Envelope × PVal), vals ≠ [] ∧
          vals.map Prod.fst = AllWith (log e.sourceId) (fun x => InSeries ms e x ∧
            WithinRange (range * 1000000) (t / 1000000 * 1000000) x) ∧
          (∀ y ∈ vals, Shows ms y.1 y.2) ∧
          s.point.value = f (vals.map fun y => (secondOf y.1 / 1000000, num y.2))) ∧
      (∀ id, ∀ e ∈ log id, (∃ v, Shows ms e v) → WithinRange (range * 1000000) (t / 1000000 * 1000000) e →
        ∃ s ∈ samples, CarriesLabels s.metric e) ∧
      samples.Pairwise fun s s' => ¬ SameLabels s.metric s'.metric := by
  obtain ⟨hrt, htm, hw1, hw2⟩ := range_times ht h0 h63 hd hd62
  obtain ⟨hsome, m, hm, d1, d2, d3⟩ := range_matrix hs hc hr hp (validOrder_perm ho ms) (hz := by omega)
    (hf1 := by constructor <;> omega) (hf2 := by constructor <;> omega)
    (start := t / 1000000 * 1000000 - range * 1000000) (t := t / 1000000) hd (by omega)
  have hdrop : ∀ x ∈ m, labelMap (dropMetricName x.1) = x.1 := by
    intro x hx
    obtain ⟨_, g1, e, he, _, g2, _⟩ := d1 x hx
    rw [dropMetricName_none, labelMap_nodup _ g1]
    cases hl : x.1.lookup nameLabel with
    | none => rfl
    | some v => exact absurd ((g2 _ v).1 hl) (hname _ e he v)
  have hq : instantQuery fl rfc (fun _ t => some (overTimeInstant num f ms range t)) read order now query time =
      finishQuery (toInstant fl) (runEngine read order 0 (overTimeInstant num f ms range t)) := by
    unfold instantQuery
    rw [hrt]
  have hrun : runEngine read order 0 (overTimeInstant num f ms range t) =
      ([⟨t / 1000000 * 1000000 - range * 1000000, t / 1000000 * 1000000, ms,
        select 1000000000 (t / 1000000 * 1000000 - range * 1000000) (t / 1000000 * 1000000) (read 0) (order 0 ms) ms⟩],
        some (.vector (m.map fun s => ⟨dropMetricName s.1, t / 1000000, f (s.2.map fun p => (p.t, num p.v))⟩))) := by
    unfold overTimeInstant
    rw [runEngine]
    simp only [hw1, hw2, htm]
    rw [runEngine, hm]
    rfl
  rw [hq, hrun]
  unfold finishQuery
  have hcl : ∀ a b c, closureErr [⟨a, b, c, select 1000000000 (t / 1000000 * 1000000 - range * 1000000)
      (t / 1000000 * 1000000) (read 0) (order 0 ms) ms⟩] = false := by
    intro a b c
    unfold closureErr
    obtain ⟨o, ho⟩ := Option.isSome_iff_exists.1 hsome
    rw [ho]
    rfl
  rw [if_neg (by rw [hcl]; simp)]
  refine ⟨_, rfl, ?_, ?_, ?_⟩
  · intro s hso
    rw [List.map_map] at hso
    obtain ⟨x, hx, rfl⟩ := List.mem_map.1 hso
    obtain ⟨g0, g1, e, he, hsh, g2, vals, g3, g4, g5⟩ := d1 x hx
    refine ⟨rfl, e, he, hsh, ?_, vals, ?_, g3, g4, ?_⟩
    · show CarriesLabels (labelMap (dropMetricName x.1)) e
      rw [hdrop x hx]
      exact g2
    · rintro rfl
      exact g0 (by simpa using g5)
    · show f (x.2.map fun p => (p.t, num p.v)) = _
      have : (x.2.map fun p => (p.t, num p.v)) = (x.2.map fun p => (p.t, p.v)).map fun y => (y.1, num y.2) := by
        rw [List.map_map]; rfl
      rw [this, g5, List.map_map]
      rfl
  · intro id e he hsh hre
    obtain ⟨x, hx, hcx⟩ := d2 id e he hsh hre
    refine ⟨_, List.mem_map.2 ⟨_, List.mem_map.2 ⟨x, hx, rfl⟩, rfl⟩, ?_⟩
    show CarriesLabels (labelMap (dropMetricName x.1)) e
    rw [hdrop x hx]
    exact hcx
  · rw [List.pairwise_map, List.pairwise_map]
    refine List.Pairwise.imp_of_mem ?_ d3
    intro a b ha hb hab hsame
    apply hab
    change SameLabels (labelMap (dropMetricName a.1)) (labelMap (dropMetricName b.1)) at hsame
    rw [hdrop a ha, hdrop b hb] at hsame
    exact hsame

theorem sampleAt_nameless (xs : List (Int × Nat)) (id : Str) (e : Envelope)
    (he : e ∈ onlyA (xs.map fun x => sampleAt x.1 x.2) id) (v : Str) : ¬ IsLabelOf e "__name__".toList v := by
  unfold onlyA at he
  split at he
  · obtain ⟨x, _, rfl⟩ := List.mem_map.1 he
    intro h
    rcases sampleAt_label h with ⟨h, _⟩ | ⟨h, _⟩
    · revert h; decide
    · revert h; decide
  · cases he

/-- Only the samples in a list with a property count. -/
theorem allWith_onlyA (xs : List (Int × Nat)) (a : Int) (b : Nat) (range T : Int) :
    AllWith (onlyA (xs.map fun x => sampleAt x.1 x.2) "a".toList)
        (fun x => InSeries exEqual (sampleAt a b) x ∧ WithinRange range T x) =
      (xs.filter fun x => decide (T - range ≤ x.1 - x.1 % 1000000000 ∧ x.1 < T)).map fun x => sampleAt x.1 x.2 := by
  unfold AllWith onlyA
  rw [if_pos rfl, List.filter_map]
  congr 1
  apply List.filter_congr
  intro x _
  simp only [Function.comp]
  congr 1
  apply propext
  constructor
  · rintro ⟨_, h⟩; exact h
  · intro h
    exact ⟨⟨⟨_, (sampleAt_shows _ _ _).2 rfl⟩, fun _ _ => Iff.rfl⟩, h⟩

/-- The conditions of C137 are met by a source with some samples: of five, the query
`count_over_time(cpu{source_id="a", zone="z1"}[20s])` at 1000 s counts three, one is too old
and one is from the query's time. -/
example (fl : FloatLib F) (rfc : Str → Option Int) (num : PVal → F) (count : Nat → F) (query : Str) :
    let log := onlyA ([(979900000000, 1), (980000000000, 2), (990500000000, 3), (990600000000, 4),
      (1000000000000, 5)].map fun x => sampleAt x.1 x.2)
    ∃ samples s, (instantQuery fl rfc (fun _ t => some (overTimeInstant num (fun l => count l.length) exEqual 20000 t))
        (fun _ => readerOf log) (fun _ ms => (selectArgs ms).ids) 1000300000000 query []).result =
        .answer (.vector samples) ∧ s ∈ samples ∧ s.point.value = count 3 := by
  intro log
  obtain ⟨samples, h1, h2, h3, _⟩ := C137_function_partial fl rfc num (fun l => count l.length) log
    (onlyA_stored _ (by decide)) (onlyA_clear _) (sampleAt_nameless _)
    (fun _ => readerOf log) exEqual (readerOf_answers log) (fun _ ms => (selectArgs ms).ids) namedOrder_valid
    exEqual_plain 1000300000000 query [] 1000000000000 (by rw [if_pos rfl]; decide) (by decide) (by decide)
    20000 (by decide) (by decide)
  obtain ⟨s, hs, _⟩ := h3 "a".toList (sampleAt 990500000000 3) (by decide) ⟨_, (sampleAt_shows _ _ _).2 rfl⟩
    (by unfold WithinRange secondOf; decide)
  refine ⟨samples, s, h1, hs, ?_⟩
  obtain ⟨_, e, he, _, _, vals, _, hv, _, hval⟩ := h2 s hs
  obtain ⟨x, _, rfl⟩ := onlyA_mem he
  change vals.map Prod.fst = AllWith (onlyA _ "a".toList) _ at hv
  rw [allWith_onlyA] at hv
  have hlen : vals.length = 3 := by
    rw [← List.length_map (f := Prod.fst), hv]
    decide
  rw [hval, List.length_map, hlen]

/-- An envelope of exactly the query's time is not in its range: the only sample is from the
time of the query and the answer is empty. -/
theorem C137_end_false (fl : FloatLib F) (rfc : Str → Option Int) (num : PVal → F) (query : Str) (range : Int)
    (hd : 0 ≤ range) (hd62 : range * 1000000 < 2 ^ 62) :
    ∃ log e, StoredLogs log ∧ ClearLabels log ∧ e ∈ log "a".toList ∧ Shows exEqual e (.counter 1) ∧
      e.timestamp = 1000000000000 ∧
      ∀ now time, (if time = [] then now = 1000000000000 else parseTime rfc time = some 1000000000000) →
        (instantQuery fl rfc (fun _ t => some (rangeInstant num exEqual range t)) (fun _ => readerOf log)
          (fun _ ms => (selectArgs ms).ids) now query time).result = .answer (.matrix []) := by
  refine ⟨onlyA ([(1000000000000, 1)].map fun x => sampleAt x.1 x.2), sampleAt 1000000000000 1,
    onlyA_stored _ (by decide), onlyA_clear _, by decide, (sampleAt_shows _ _ _).2 rfl, rfl, ?_⟩
  intro now time htime
  obtain ⟨series, h1, h2, _, _⟩ := C137_range_partial fl rfc num
    (onlyA ([(1000000000000, 1)].map fun x => sampleAt x.1 x.2)) (onlyA_stored _ (by decide)) (onlyA_clear _)
    (fun _ => readerOf _) exEqual (readerOf_answers _) (fun _ ms => (selectArgs ms).ids) namedOrder_valid
    exEqual_plain now query time 1000000000000 (by
      split
      · rename_i h
        rw [if_pos h] at htime
        subst htime
        decide
      · rename_i h
        rw [if_neg h] at htime
        exact htime) (by decide) (by decide) range hd hd62
  cases series with
  | nil => exact h1
  | cons s series =>
    exfalso
    obtain ⟨hne, e, he, _, _, vals, hv, _, hpts⟩ := h2 s (List.mem_cons_self ..)
    obtain ⟨x, _, rfl⟩ := onlyA_mem he
    change vals.map Prod.fst = AllWith (onlyA _ "a".toList) _ at hv
    rw [allWith_onlyA] at hv
    have : vals = [] := by
      rw [← List.map_eq_nil_iff (f := Prod.fst), hv, List.map_eq_nil_iff, List.filter_eq_nil_iff]
      intro y hy
      rw [List.mem_singleton.1 hy]
      simp
    rw [this] at hpts
    exact hne hpts

end LogCache
