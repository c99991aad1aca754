import Verif.Proof.Series

/-!
# Property theorems about PromQL selectors and series (C53-C58, C60)
-/

namespace LogCache

open Spec

/-! ## C53 -/

private theorem isWord_iff {c : Char} : isWord c = true ↔ letter c ∨ digit c ∨ c = '_' := by
  unfold isWord letter digit
  simp only [Bool.or_eq_true, Bool.and_eq_true, decide_eq_true_eq]
  constructor
  · rintro (((h | h) | h) | h)
    · exact .inr (.inl h)
    · exact .inl (.inl h)
    · exact .inl (.inr h)
    · exact .inr (.inr h)
  · rintro ((h | h) | h | h)
    · exact .inl (.inl (.inr h))
    · exact .inl (.inr h)
    · exact .inl (.inl (.inl h))
    · exact .inr h

private theorem inAz_of_letter {c : Char} (h : letter c ∨ c = '_') : inAz c = true := by
  unfold inAz
  simp only [Bool.or_eq_true, Bool.and_eq_true, decide_eq_true_eq]
  rcases h with (h | h) | h
  · exact .inl ⟨h.1, Char.le_trans h.2 (by decide)⟩
  · exact .inl ⟨Char.le_trans (by decide) h.1, h.2⟩
  · exact .inr h

private theorem inAz_not_digit {c : Char} (h : inAz c = true) : ¬ digit c := by
  unfold inAz at h
  simp only [Bool.or_eq_true, Bool.and_eq_true, decide_eq_true_eq] at h
  rintro ⟨h1, h2⟩
  rcases h with ⟨h3, h4⟩ | rfl
  · exact absurd (Char.le_trans h3 h2) (by decide)
  · exact absurd h2 (by decide)

private theorem wu_repl (d : Char) :
    (letter (if inWUnderscore d then '_' else d) ∨ digit (if inWUnderscore d then '_' else d) ∨
      (if inWUnderscore d then '_' else d) = '_') ∧
    (isWord d = true → (if inWUnderscore d then '_' else d) = d) := by
  unfold inWUnderscore
  cases hw : isWord d with
  | false => simp
  | true =>
    by_cases hd : d = '_'
    · subst hd; simp
    · simp only [Bool.not_true, Bool.false_or, decide_eq_true_eq, if_neg hd]
      exact ⟨isWord_iff.1 hw, by simp [hd]⟩

/-- Sanitized names are valid metric names of the same length. -/
theorem C53_valid (s : Str) : ValidName (sanitize s) ∧ (sanitize s).length = s.length := by
  cases s with
  | nil => exact ⟨⟨by simp [sanitize], by simp [sanitize]⟩, rfl⟩
  | cons c cs =>
    refine ⟨⟨?_, ?_⟩, by simp [sanitize]⟩
    · intro d hd
      rw [sanitize] at hd
      rcases List.mem_cons.1 hd with rfl | hd
      · cases hz : inAz c with
        | false => simp
        | true => simpa [hz] using (wu_repl c).1
      · obtain ⟨x, _, rfl⟩ := List.mem_map.1 hd
        exact (wu_repl x).1
    · intro d hd
      rw [sanitize, List.head?_cons, Option.some.injEq] at hd
      subst hd
      cases hz : inAz c with
      | false => simp [digit]
      | true =>
        simp only [Bool.not_true, Bool.false_or]
        split
        · simp [digit]
        · exact inAz_not_digit hz

/-- Valid names are left alone. -/
theorem C53_identity (s : Str) (h : ValidName s) : sanitize s = s := by
  cases s with
  | nil => rfl
  | cons c cs =>
    rw [sanitize]
    congr 1
    · have hw := h.1 c (List.mem_cons_self ..)
      have hd := h.2 c rfl
      have hz : inAz c = true := by
        rcases hw with h1 | h1 | h1
        · exact inAz_of_letter (.inl h1)
        · exact absurd h1 hd
        · exact inAz_of_letter (.inr h1)
      simp only [hz, Bool.not_true, Bool.false_or]
      exact (wu_repl c).2 (isWord_iff.2 hw)
    · conv => rhs; rw [← List.map_id cs]
      apply List.map_congr_left
      intro d hd
      exact (wu_repl d).2 (isWord_iff.2 (h.1 d (List.mem_cons_of_mem _ hd)))

/-- Sanitizing twice is sanitizing once. -/
theorem C53_idempotent (s : Str) : sanitize (sanitize s) = sanitize s :=
  C53_identity _ (C53_valid s).1

/-- Every character that is not a letter, digit or underscore becomes an underscore
and every other one, except a leading digit, is kept. -/
theorem C53_pointwise (s : Str) (i : Nat) (c : Char) (hc : s[i]? = some c) :
    ((letter c ∨ digit c ∧ i ≠ 0) → (sanitize s)[i]? = some c) ∧
    (¬ (letter c ∨ digit c ∧ i ≠ 0) → (sanitize s)[i]? = some '_') := by
  cases s with
  | nil => simp at hc
  | cons a cs =>
    rw [sanitize]
    cases i with
    | zero =>
      simp only [List.getElem?_cons_zero, Option.some.injEq, ne_eq, not_true_eq_false, and_false,
        or_false] at hc ⊢
      subst hc
      constructor
      · intro hl
        rw [inAz_of_letter (.inl hl)]
        simp only [Bool.not_true, Bool.false_or]
        exact (wu_repl a).2 (isWord_iff.2 (.inl hl))
      · intro hl
        cases hz : inAz a with
        | false => simp
        | true =>
          simp only [Bool.not_true, Bool.false_or]
          unfold inWUnderscore
          cases hw : isWord a with
          | false => simp
          | true =>
            rcases isWord_iff.1 hw with h1 | h1 | h1
            · exact absurd h1 hl
            · exact absurd h1 (inAz_not_digit hz)
            · simp [h1]
    | succ i =>
      simp only [List.getElem?_cons_succ, List.getElem?_map] at hc ⊢
      rw [hc]
      simp only [Option.map_some, Option.some.injEq, ne_eq, Nat.add_eq_zero_iff,
        Nat.succ_ne_self, and_false, not_false_eq_true, and_true]
      constructor
      · rintro (h1 | h1)
        · exact (wu_repl c).2 (isWord_iff.2 (.inl h1))
        · exact (wu_repl c).2 (isWord_iff.2 (.inr (.inl h1)))
      · intro hn
        unfold inWUnderscore
        cases hw : isWord c with
        | false => simp
        | true =>
          rcases isWord_iff.1 hw with h1 | h1 | h1
          · exact absurd (.inl h1) hn
          · exact absurd (.inr h1) hn
          · simp [h1]

example : sanitize "http.2-total[x]".toList = "http_2_total_x_".toList ∧
    sanitize "9lives".toList = "_lives".toList ∧ sanitize "[x".toList = "_x".toList := by decide

/-! ## C54 -/

/-- Two points land in one series exactly when their labels are equal, provided no
label value contains a label name as a dash-delimited segment. -/
theorem C54_series_id_partial (ts : List (List (Str × Str))) (hun : Unambiguous ts)
    (hnd : ∀ t ∈ ts, (t.map Prod.fst).Nodup) (t u : List (Str × Str)) (ht : t ∈ ts) (hu : u ∈ ts) :
    seriesId t = seriesId u ↔ SameLabels t u :=
  ⟨seriesId_inj hun ht hu, seriesId_congr (hnd t ht) (hnd u hu)⟩

open Classical in
/-- The series built from any list of labelled points: every series holds exactly
the points with its labels, in order; every point is in a series; no two series
have the same labels.  Missing from the full claim: label values that contain a
label name between dashes. -/
theorem C54_series_partial (tps : List (List (Str × Str) × Point))
    (hun : Unambiguous (tps.map Prod.fst)) (hnd : ∀ tp ∈ tps, (tp.1.map Prod.fst).Nodup) :
    (∀ s ∈ (tps.foldl builderAdd []).map Prod.snd,
      s.points = (tps.filter fun tp => decide (SameLabels tp.1 s.tags)).map Prod.snd ∧ s.points ≠ []) ∧
    (∀ tp ∈ tps, ∃ s ∈ (tps.foldl builderAdd []).map Prod.snd, SameLabels tp.1 s.tags) ∧
    ((tps.foldl builderAdd []).map Prod.snd).Pairwise (fun s s' => ¬ SameLabels s.tags s'.tags) := by
  have hnd' : ∀ t ∈ tps.map Prod.fst, (t.map Prod.fst).Nodup := by
    intro t ht
    obtain ⟨tp, h, rfl⟩ := List.mem_map.1 ht
    exact hnd tp h
  have key := fun t u ht hu => C54_series_id_partial _ hun hnd' t u ht hu
  have htags : ∀ s ∈ (tps.foldl builderAdd []).map Prod.snd, s.tags ∈ tps.map Prod.fst := by
    intro s hs
    obtain ⟨tp, rest, hf, hs'⟩ := (builder_series tps s).1 hs
    have : tp ∈ tps.filter (fun x => decide (seriesId x.1 = seriesId s.tags)) := by rw [hf]; simp
    rw [hs']
    exact List.mem_map.2 ⟨tp, (List.mem_filter.1 this).1, rfl⟩
  refine ⟨?_, ?_, ?_⟩
  · intro s hs
    have hst := htags s hs
    obtain ⟨tp, rest, hf, hs'⟩ := (builder_series tps s).1 hs
    have hp : s.points = (tp :: rest).map Prod.snd := by rw [hs']
    have : (tps.filter fun tp => decide (SameLabels tp.1 s.tags)) =
        tps.filter (fun x => decide (seriesId x.1 = seriesId s.tags)) := by
      apply List.filter_congr
      intro x hx
      have := key x.1 s.tags (List.mem_map.2 ⟨x, hx, rfl⟩) hst
      simp only [decide_eq_decide]
      exact this.symm
    rw [this, hf, hp]
    exact ⟨rfl, by simp⟩
  · intro tp htp
    have : tp ∈ tps.filter (fun x => decide (seriesId x.1 = seriesId tp.1)) :=
      List.mem_filter.2 ⟨htp, by simp⟩
    cases hf : tps.filter (fun x => decide (seriesId x.1 = seriesId tp.1)) with
    | nil => rw [hf] at this; cases this
    | cons a rest =>
      have ha : a ∈ tps.filter (fun x => decide (seriesId x.1 = seriesId tp.1)) := by rw [hf]; simp
      have ha' : seriesId a.1 = seriesId tp.1 := by simpa using (List.mem_filter.1 ha).2
      refine ⟨⟨a.1, (a :: rest).map Prod.snd⟩, (builder_series tps _).2 ⟨a, rest, ?_, rfl⟩, ?_⟩
      · simp only [ha']; exact hf
      · exact (key tp.1 a.1 (List.mem_map.2 ⟨tp, htp, rfl⟩)
          (List.mem_map.2 ⟨a, (List.mem_filter.1 ha).1, rfl⟩)).1 ha'.symm
  · refine List.Pairwise.imp_of_mem ?_ (builder_distinct tps)
    intro a b ha hb hab hsame
    exact hab ((key a.tags b.tags (htags a ha) (htags b hb)).2 hsame)

/-- Without that condition different label sets share a series: the two points
below have different labels and end up in one series. -/
theorem C54_series_false :
    ∃ t u : List (Str × Str), (t.map Prod.fst).Nodup ∧ (u.map Prod.fst).Nodup ∧ ¬ SameLabels t u ∧
      ∀ p q : Point, ([(t, p), (u, q)].foldl builderAdd []).map Prod.snd = [⟨t, [p, q]⟩] := by
  refine ⟨[("a".toList, "b-c-d".toList)], [("a".toList, "b".toList), ("c".toList, "d".toList)],
    by decide, by decide, ?_, ?_⟩
  · intro h
    exact absurd (h "a".toList) (by decide)
  · intro p q
    have h1 : seriesId [("a".toList, "b-c-d".toList)] = "-a-b-c-d".toList := by
      unfold seriesId
      rw [List.mergeSort_of_pairwise (by decide)]
      decide
    have h2 : seriesId [("a".toList, "b".toList), ("c".toList, "d".toList)] = "-a-b-c-d".toList := by
      unfold seriesId
      rw [List.mergeSort_of_pairwise (by decide)]
      decide
    have e : "-a-b-c-d".toList == "-a-b-c-d".toList := by decide
    simp only [List.foldl_cons, List.foldl_nil, builderAdd, h1, h2]
    rfl

/-- A check that implies `Unambiguous`, to evaluate on examples. -/
theorem unambiguous_of_check (ts : List (List (Str × Str)))
    (h : (ts.all fun t => t.all fun p => !p.1.contains '-' &&
      ts.all fun u => u.all fun q => !(splitOn '-' p.2).contains q.1) = true) : Unambiguous ts := by
  simp only [List.all_eq_true, Bool.and_eq_true, Bool.not_eq_true', List.contains_eq_mem,
    decide_eq_false_iff_not] at h
  intro t ht p hp
  refine ⟨(h t ht p hp).1, ?_⟩
  intro u hu q hq
  have hd := (h u hu q hq).1
  have hn := (h t ht p hp).2 u hu q hq
  rintro ⟨pre, post, hv, hpost⟩
  apply hn
  rw [hv, List.append_assoc, List.cons_append, splitOn_append]
  apply List.mem_append_right
  rcases hpost with rfl | ⟨r, rfl⟩
  · rw [List.append_nil, splitOn_free hd]; simp
  · rw [splitOn_append, splitOn_free hd]; simp

/-- The condition is met by ordinary labels: GUIDs with dashes as values. -/
example : Unambiguous [[("source_id".toList, "2fe5-c0ba-17".toList), ("zone".toList, "z-1".toList)],
    [("source_id".toList, "2fe5-c0ba-18".toList)]] :=
  unambiguous_of_check _ (by decide)

/-! ## C55 -/

theorem fold_metric (ms : List Matcher) (a : SelectArgs) :
    (ms.foldl selectArg a).metric =
      (((ms.filter fun m => decide (m.name = "__name__".toList)).getLast?).map (·.value)).getD a.metric := by
  induction ms generalizing a with
  | nil => rfl
  | cons m ms ih =>
    rw [List.foldl_cons, ih]
    unfold selectArg
    by_cases h : m.name = nameLabel
    · have h' : m.name = "__name__".toList := h
      have hf : (m :: ms).filter (fun m => decide (m.name = "__name__".toList)) =
          m :: ms.filter (fun m => decide (m.name = "__name__".toList)) :=
        List.filter_cons_of_pos (decide_eq_true h')
      rw [if_pos h, hf, List.getLast?_cons]
      cases ((ms.filter fun m => decide (m.name = "__name__".toList)).getLast?) <;> rfl
    · have h' : ¬ m.name = "__name__".toList := h
      have hf : (m :: ms).filter (fun m => decide (m.name = "__name__".toList)) =
          ms.filter (fun m => decide (m.name = "__name__".toList)) :=
        List.filter_cons_of_neg (by rw [decide_eq_false h']; exact Bool.false_ne_true)
      rw [if_neg h, hf]
      split <;> rfl

private theorem fold_labels (ms : List Matcher) (a : SelectArgs) (l : Str × Str) :
    l ∈ (ms.foldl selectArg a).labels ↔ l ∈ a.labels ∨ ∃ m ∈ ms, Ordinary m ∧ l = (m.name, m.value) := by
  induction ms generalizing a with
  | nil => simp
  | cons m ms ih =>
    rw [List.foldl_cons, ih]
    simp only [List.mem_cons, exists_eq_or_imp]
    unfold selectArg Ordinary
    by_cases h : m.name = nameLabel
    · have h' : m.name = "__name__".toList := h
      rw [if_pos h]
      simp only [h', ne_eq, not_true_eq_false, false_and, false_or]
    · have h' : ¬ m.name = "__name__".toList := h
      rw [if_neg h]
      by_cases h2 : m.name = sourceIdLabel
      · have h2' : m.name = "source_id".toList := h2
        rw [if_pos h2]
        simp only [h2', ne_eq, not_true_eq_false, and_false, false_and, false_or]
      · have h2' : ¬ m.name = "source_id".toList := h2
        rw [if_neg h2]
        simp only [List.mem_append, List.mem_singleton, h', h2', ne_eq, not_false_eq_true, and_self,
          true_and, or_assoc]

theorem pointTags_label (e : Envelope) (k v : Str) : (pointTags e).lookup k = some v ↔ IsLabelOf e k v := by
  unfold pointTags IsLabelOf
  by_cases hi : e.instanceId = []
  · simp only [hi, if_true, mapSet_lookup, ne_eq, not_true_eq_false, and_false, if_false]
    by_cases hk : k = sourceIdLabel
    · have hk' : k = "source_id".toList := hk
      rw [if_pos hk, if_pos hk']; simp [eq_comm]
    · have hk' : ¬ k = "source_id".toList := hk
      rw [if_neg hk, if_neg hk']
  · simp only [ne_eq, hi, not_false_eq_true, and_true, if_false, mapSet_lookup]
    by_cases hk2 : k = instanceIdLabel
    · have hk2' : k = "instance_id".toList := hk2
      have hne : ¬ k = "source_id".toList := by rw [hk2']; decide
      rw [if_pos hk2, if_neg hne, if_pos hk2']; simp [eq_comm]
    · have hk2' : ¬ k = "instance_id".toList := hk2
      rw [if_neg hk2]
      by_cases hk : k = sourceIdLabel
      · have hk' : k = "source_id".toList := hk
        rw [if_pos hk, if_pos hk']; simp [eq_comm]
      · have hk' : ¬ k = "source_id".toList := hk
        rw [if_neg hk, if_neg hk', if_neg hk2']

private theorem findSanitized_some {metric : Str} {ms : List (Str × GaugeValue)} {v : GaugeValue}
    (h : findSanitized metric ms = some v) : ∃ p ∈ ms, sanitize p.1 = metric ∧ v = p.2 := by
  induction ms with
  | nil => cases h
  | cons p ms ih =>
    obtain ⟨k, g⟩ := p
    rw [findSanitized] at h
    by_cases hk : sanitize k = metric
    · rw [if_pos hk] at h; cases h; exact ⟨_, List.mem_cons_self .., hk, rfl⟩
    · rw [if_neg hk] at h
      obtain ⟨p, hp, h1⟩ := ih h
      exact ⟨p, List.mem_cons_of_mem _ hp, h1⟩

private theorem findSanitized_none {metric : Str} {ms : List (Str × GaugeValue)}
    (h : findSanitized metric ms = none) : ∀ p ∈ ms, sanitize p.1 ≠ metric := by
  induction ms with
  | nil => simp
  | cons p ms ih =>
    obtain ⟨k, g⟩ := p
    rw [findSanitized] at h
    by_cases hk : sanitize k = metric
    · rw [if_pos hk] at h; cases h
    · rw [if_neg hk] at h
      intro p hp
      rcases List.mem_cons.1 hp with rfl | hp
      · exact hk
      · exact ih h p hp

theorem as64_wrap (n : Int) : As64 n (wrap64 n) := by
  unfold As64 wrap64
  refine ⟨by omega, by omega, (n + 2 ^ 63) / 2 ^ 64, by omega⟩

/-- The name PromQL finds a metric under. -/
theorem cleaned_eq (n : Str) : cleaned n = sanitize n := by
  apply List.ext_getElem?
  intro i
  unfold cleaned
  rw [List.getElem?_mapIdx]
  cases h : n[i]? with
  | none =>
    have hl : (sanitize n).length = n.length := (C53_valid n).2
    rw [List.getElem?_eq_none_iff] at h
    rw [Option.map_none, eq_comm, List.getElem?_eq_none_iff]; omega
  | some c =>
    obtain ⟨h1, h2⟩ := C53_pointwise n i c h
    rw [Option.map_some]
    by_cases hc : letter c ∨ digit c ∧ i ≠ 0
    · rw [if_pos hc, h1 hc]
    · rw [if_neg hc, h2 hc]

theorem pointValue_some {metric : Str} {e : Envelope} {v : PVal} (h : pointValue metric e = some v) :
    HasValue metric e v := by
  unfold pointValue at h
  unfold HasValue
  cases hm : e.message with
  | none => rw [hm] at h; cases h
  | some m =>
    rw [hm] at h
    cases m with
    | log => cases h
    | event => cases h
    | counter n d t =>
      by_cases hs : sanitize n = metric
      · simp only [if_pos hs, Option.some.injEq] at h; exact ⟨(cleaned_eq n).trans hs, h.symm⟩
      · simp only [if_neg hs] at h; cases h
    | timer n a b =>
      by_cases hs : sanitize n = metric
      · simp only [if_pos hs, Option.some.injEq] at h; exact ⟨(cleaned_eq n).trans hs, _, h.symm, as64_wrap _⟩
      · simp only [if_neg hs] at h; cases h
    | gauge ms =>
      simp only [Option.map_eq_some_iff] at h
      obtain ⟨g, hg, rfl⟩ := h
      obtain ⟨p, hp, h1, rfl⟩ := findSanitized_some hg
      exact ⟨p, hp, (cleaned_eq p.1).trans h1, rfl⟩

theorem pointValue_none {metric : Str} {e : Envelope} (h : pointValue metric e = none) (v : PVal) :
    ¬ HasValue metric e v := by
  unfold pointValue at h
  unfold HasValue
  cases hm : e.message with
  | none => exact id
  | some m =>
    rw [hm] at h
    cases m with
    | log => exact id
    | event => exact id
    | counter n d t =>
      rintro ⟨hs, _⟩
      rw [cleaned_eq] at hs
      simp only [if_pos hs] at h; cases h
    | timer n a b =>
      rintro ⟨hs, _⟩
      rw [cleaned_eq] at hs
      simp only [if_pos hs] at h; cases h
    | gauge ms =>
      simp only [Option.map_eq_none_iff] at h
      rintro ⟨p, hp, hs, _⟩
      exact findSanitized_none h p hp ((cleaned_eq p.1).symm.trans hs)

theorem truncateTime_point (interval ts : Int) :
    PointTime interval ts ((truncateTime interval ts).tdiv 1000000) := by
  unfold PointTime truncateTime
  split
  · rfl
  · rename_i h
    have h1 := Int.mul_ediv_add_emod ts interval
    have h2 := Int.emod_nonneg ts (show interval ≠ 0 by omega)
    have h3 := Int.emod_lt_of_pos ts (show 0 < interval by omega)
    refine ⟨ts / interval, by omega, by rw [Int.mul_add]; omega, ?_⟩
    congr 1
    omega

/-- A selector whose matchers on ordinary labels are all equalities with a
non-empty value, none on `instance_id`, selects exactly the envelopes that have
the metric and satisfy every matcher; the point it yields has the envelope's
labels, a value of that metric, and the envelope's time rounded down to the interval.
Missing: the other
matchers, for which the claim is false (below). -/
theorem C55_selector_partial (re : Str → Str → Bool) (ms : List Matcher) (interval : Int) (e : Envelope)
    (heq : ∀ m ∈ ms, Ordinary m → m.type = .equal ∧ m.value ≠ [] ∧ m.name ≠ "instance_id".toList) :
    ((selectPoint (selectArgs ms) interval e).isSome ↔
      (∃ v, HasValue (metricOf ms) e v) ∧
        ∀ m ∈ ms, Ordinary m → Satisfies re m (pointTags e)) ∧
    ∀ tags p, selectPoint (selectArgs ms) interval e = some (tags, p) →
      (∀ k v, tags.lookup k = some v ↔ IsLabelOf e k v) ∧ HasValue (metricOf ms) e p.v ∧
      PointTime interval e.timestamp p.t := by
  have hmet : (selectArgs ms).metric = metricOf ms := fold_metric ms {}
  have hlab : hasLabels e.tags (selectArgs ms).labels = true ↔
      ∀ m ∈ ms, Ordinary m → Satisfies re m (pointTags e) := by
    have hsat : ∀ m ∈ ms, Ordinary m → (Satisfies re m (pointTags e) ↔ e.tags.lookup m.name = some m.value) := by
      intro m hm ho
      obtain ⟨h1, h2, h3⟩ := heq m hm ho
      unfold Satisfies
      simp only [h1]
      have hl := pointTags_label e m.name m.value
      have : IsLabelOf e m.name m.value ↔ e.tags.lookup m.name = some m.value := by
        unfold IsLabelOf
        rw [if_neg ho.2, if_neg (fun h => h3 h.1)]
      rw [← this, ← hl]
      cases (pointTags e).lookup m.name with
      | none => simp [h2.symm]
      | some w => simp
    unfold hasLabels
    rw [List.all_eq_true]
    constructor
    · intro h m hm ho
      rw [hsat m hm ho]
      have := h (m.name, m.value) ((fold_labels ms {} _).2 (.inr ⟨m, hm, ho, rfl⟩))
      simpa using this
    · intro h l hl
      rcases (fold_labels ms {} l).1 hl with h0 | ⟨m, hm, ho, rfl⟩
      · cases h0
      · have := (hsat m hm ho).1 (h m hm ho)
        simpa using this
  constructor
  · unfold selectPoint
    rw [hmet]
    by_cases hl : hasLabels e.tags (selectArgs ms).labels = true
    · rw [if_pos hl]
      cases hv : pointValue (metricOf ms) e with
      | none =>
        simp only [Option.map_none, Option.isSome_none, Bool.false_eq_true, false_iff]
        rintro ⟨⟨v, h⟩, _⟩
        exact pointValue_none hv v h
      | some v =>
        simp only [Option.map_some, Option.isSome_some, true_iff]
        exact ⟨⟨v, pointValue_some hv⟩, hlab.1 hl⟩
    · rw [if_neg hl]
      simp only [Option.isSome_none, Bool.false_eq_true, false_iff]
      rintro ⟨_, h⟩
      exact hl (hlab.2 h)
  · intro tags p h
    unfold selectPoint at h
    rw [hmet] at h
    by_cases hl : hasLabels e.tags (selectArgs ms).labels = true
    · rw [if_pos hl, Option.map_eq_some_iff] at h
      obtain ⟨v, hv, h⟩ := h
      cases h
      exact ⟨pointTags_label e, pointValue_some hv, truncateTime_point interval e.timestamp⟩
    · rw [if_neg hl] at h; cases h

/-- The selector `cpu{source_id="a", zone!="z1"}`. -/
def exNotEqual : List Matcher :=
  [⟨.equal, "__name__".toList, "cpu".toList⟩, ⟨.equal, "source_id".toList, "a".toList⟩,
   ⟨.notEqual, "zone".toList, "z1".toList⟩]
/-- The selector `cpu{source_id="a", instance_id="0"}`. -/
def exInstance : List Matcher :=
  [⟨.equal, "__name__".toList, "cpu".toList⟩, ⟨.equal, "source_id".toList, "a".toList⟩,
   ⟨.equal, "instance_id".toList, "0".toList⟩]
/-- The selector `cpu{source_id="a", zone="z1"}`. -/
def exEqual : List Matcher :=
  [⟨.equal, "__name__".toList, "cpu".toList⟩, ⟨.equal, "source_id".toList, "a".toList⟩,
   ⟨.equal, "zone".toList, "z1".toList⟩]
/-- A counter envelope of source `a` in a zone. -/
def exCounter (zone : Str) : Envelope :=
  { timestamp := 5, sourceId := "a".toList, instanceId := "0".toList, tags := [("zone".toList, zone)],
    message := some (.counter "cpu".toList 0 7) }

example : ∀ m ∈ exEqual, Ordinary m → m.type = .equal ∧ m.value ≠ [] ∧ m.name ≠ "instance_id".toList := by
  intro m hm
  simp only [exEqual, List.mem_cons, List.not_mem_nil, or_false] at hm
  rcases hm with rfl | rfl | rfl
  · intro h; exact absurd rfl h.1
  · intro h; exact absurd rfl h.2
  · intro _; decide
example : (selectPoint (selectArgs exEqual) 1000000000 (exCounter "z1".toList)).isSome = true ∧
    selectPoint (selectArgs exEqual) 1000000000 (exCounter "z2".toList) = none := by decide

/-- `!=` is treated as `=`: the selector `zone!="z1"` yields the point in zone `z1`
and not the one in zone `z2`. -/
theorem C55_not_equal_false (re : Str → Str → Bool) :
    (∃ m ∈ exNotEqual, Ordinary m ∧ ¬ Satisfies re m (pointTags (exCounter "z1".toList))) ∧
    (selectPoint (selectArgs exNotEqual) 1000000000 (exCounter "z1".toList)).isSome = true ∧
    (∀ m ∈ exNotEqual, Ordinary m → Satisfies re m (pointTags (exCounter "z2".toList))) ∧
    selectPoint (selectArgs exNotEqual) 1000000000 (exCounter "z2".toList) = none := by
  refine ⟨⟨⟨.notEqual, "zone".toList, "z1".toList⟩, by simp [exNotEqual], ?_, ?_⟩, by decide, ?_, by decide⟩
  · constructor <;> decide
  · show ¬ (((pointTags (exCounter "z1".toList)).lookup "zone".toList).getD [] ≠ "z1".toList)
    decide
  · intro m hm
    simp only [exNotEqual, List.mem_cons, List.not_mem_nil, or_false] at hm
    rcases hm with rfl | rfl | rfl
    · intro h; exact absurd rfl h.1
    · intro h; exact absurd rfl h.2
    · intro _
      show ((pointTags (exCounter "z2".toList)).lookup "zone".toList).getD [] ≠ "z1".toList
      decide

/-- Selecting on `instance_id` finds nothing although the points carry that label. -/
theorem C55_instance_id_false (re : Str → Str → Bool) :
    (∀ m ∈ exInstance, Ordinary m → m.type = .equal ∧ Satisfies re m (pointTags (exCounter "z1".toList))) ∧
    HasValue (metricOf exInstance) (exCounter "z1".toList) (.counter 7) ∧
    selectPoint (selectArgs exInstance) 1000000000 (exCounter "z1".toList) = none := by
  refine ⟨?_, ⟨by decide, rfl⟩, by decide⟩
  intro m hm
  simp only [exInstance, List.mem_cons, List.not_mem_nil, or_false] at hm
  rcases hm with rfl | rfl | rfl
  · intro h; exact absurd rfl h.1
  · intro h; exact absurd rfl h.2
  · intro _
    refine ⟨rfl, ?_⟩
    show ((pointTags (exCounter "z1".toList)).lookup "instance_id".toList).getD [] = "0".toList
    decide

/-- A selector's answer is built from exactly the points its sources yield: every
source it names is read once, and the series are those of the yielded points. -/
theorem C55_select_reads_all (interval start stop : Int) (read : ReadRequest → Option (List Envelope))
    (order : List Str) (ms : List Matcher) (out : List SeriesData)
    (h : select interval start stop read order ms = some out) :
    (∀ id ∈ order, (read (metricsAsked start stop id)).isSome) ∧
    out = ((order.flatMap fun id => ((read (metricsAsked start stop id)).getD []).filterMap
      (selectPoint (selectArgs ms) interval)).foldl builderAdd []).map Prod.snd := by
  unfold select at h
  simp only at h
  by_cases h0 : (selectArgs ms).ids = []
  · rw [if_pos h0] at h; cases h
  · rw [if_neg h0, Option.map_eq_some_iff] at h
    obtain ⟨b, hb, rfl⟩ := h
    obtain ⟨h1, h2⟩ := selectLoop_some _ _ _ _ _ _ _ _ hb
    exact ⟨h1, by rw [h2]; rfl⟩

/-! ## C59: determinism -/

/-- If no two metrics of a gauge have the same sanitized name, its value does not
depend on the map iteration order. -/
theorem C59_gauge_partial (metric : Str) (ms ms' : List (Str × GaugeValue)) (hp : ms.Perm ms')
    (hd : (ms.map fun p => sanitize p.1).Nodup) : findSanitized metric ms = findSanitized metric ms' := by
  have hex : ∀ ms : List (Str × GaugeValue), (ms.map fun p => sanitize p.1).Nodup →
      ∀ v, findSanitized metric ms = some v ↔ ∃ p ∈ ms, sanitize p.1 = metric ∧ v = p.2 := by
    intro ms hd v
    refine ⟨findSanitized_some, ?_⟩
    rintro ⟨p, hp, h1, rfl⟩
    cases hf : findSanitized metric ms with
    | none => exact absurd h1 (findSanitized_none hf p hp)
    | some w =>
      obtain ⟨q, hq, h2, rfl⟩ := findSanitized_some hf
      have : q = p := by
        clear hf
        induction ms with
        | nil => cases hp
        | cons a ms ih =>
          rw [List.map_cons, List.nodup_cons] at hd
          rcases List.mem_cons.1 hp with hp' | hp' <;> rcases List.mem_cons.1 hq with hq' | hq'
          · rw [hp', hq']
          · rw [← hp'] at hd
            exact absurd (List.mem_map.2 ⟨q, hq', h2.trans h1.symm⟩) hd.1
          · rw [← hq'] at hd
            exact absurd (List.mem_map.2 ⟨p, hp', h1.trans h2.symm⟩) hd.1
          · exact ih hd.2 hp' hq'
      rw [this]
  apply Option.ext
  intro v
  rw [hex ms hd, hex ms' ((hp.map _).nodup_iff.1 hd)]
  constructor
  · rintro ⟨p, h, r⟩; exact ⟨p, hp.mem_iff.1 h, r⟩
  · rintro ⟨p, h, r⟩; exact ⟨p, hp.mem_iff.2 h, r⟩

example : ((([("a.b".toList, ⟨[], 1⟩), ("c".toList, ⟨[], 2⟩)] : List (Str × GaugeValue)).map
    fun p => sanitize p.1)).Nodup := by decide

/-- Otherwise the same stored envelope answers the same query with different
values, depending on the iteration order. -/
theorem C59_gauge_false : ∃ (ms ms' : List (Str × GaugeValue)), ms.Perm ms' ∧ (ms.map Prod.fst).Nodup ∧
    ∀ e : Envelope, pointValue "a_b".toList { e with message := some (.gauge ms) } ≠
      pointValue "a_b".toList { e with message := some (.gauge ms') } := by
  refine ⟨[("a.b".toList, ⟨[], 1⟩), ("a_b".toList, ⟨[], 2⟩)], [("a_b".toList, ⟨[], 2⟩), ("a.b".toList, ⟨[], 1⟩)],
    List.Perm.swap .., by decide, ?_⟩
  intro e
  have h1 : findSanitized "a_b".toList [("a.b".toList, ⟨[], 1⟩), ("a_b".toList, ⟨[], 2⟩)] = some ⟨[], 1⟩ := by
    decide
  have h2 : findSanitized "a_b".toList [("a_b".toList, ⟨[], 2⟩), ("a.b".toList, ⟨[], 1⟩)] = some ⟨[], 2⟩ := by
    decide
  simp only [pointValue, h1, h2]
  decide

/-! ## C57 -/

/-- The ids extracted for authorization are exactly those some selector of the
query names. -/
theorem C57_extract (e : PExpr) (id : Str) : id ∈ extractSourceIds e ↔ QueryNames e id := by
  rw [extractSourceIds, mem_extractWalk]; simp

/-- Running a query reads no source outside the extracted ids: two readers that
agree on them give the engine the same answers. -/
theorem C57_reads_only (interval start stop : Int) (r1 r2 : ReadRequest → Option (List Envelope))
    (order : List Matcher → List Str) (ho : ValidOrder order) (e : PExpr)
    (h : ∀ req, req.sourceId ∈ extractSourceIds e → r1 req = r2 req) :
    queryInputs interval start stop r1 order e = queryInputs interval start stop r2 order e := by
  unfold queryInputs
  apply List.map_congr_left
  intro ms hms
  unfold select
  simp only
  rw [selectLoop_congr _ interval start stop r1 r2 (order ms)]
  intro id hid
  apply h
  have : id ∈ (selectArgs ms).ids := (validOrder_perm ho ms).mem_iff.1 hid
  rw [mem_selectIds] at this
  exact (C57_extract e id).2 ((queryNames_iff e id).2 ⟨ms, hms, this⟩)

/-- Running a query reads every extracted id: if reading it fails, a selector of
the query fails. -/
theorem C57_reads_all (interval start stop : Int) (r : ReadRequest → Option (List Envelope))
    (order : List Matcher → List Str) (ho : ValidOrder order) (e : PExpr) (id : Str)
    (hid : id ∈ extractSourceIds e) (h : ∀ req, req.sourceId = id → r req = none) :
    none ∈ queryInputs interval start stop r order e := by
  obtain ⟨ms, hms, hn⟩ := (queryNames_iff e id).1 ((C57_extract e id).1 hid)
  refine List.mem_map.2 ⟨ms, hms, ?_⟩
  have hm : id ∈ order ms := (validOrder_perm ho ms).mem_iff.2 ((mem_selectIds ms id).2 hn)
  unfold select
  simp only
  rw [selectLoop_none _ interval start stop r (order ms) id hm (h _ rfl)]
  split <;> rfl

/-- The query `rate(cpu{source_id=~"a|b"}[1m]) + mem{source_id="c"}`. -/
def exQuery : PExpr :=
  .node "+".toList [
    .node "rate".toList [.matrix [⟨.equal, "__name__".toList, "cpu".toList⟩,
      ⟨.regexp, "source_id".toList, "a|b".toList⟩]],
    .vector [⟨.equal, "__name__".toList, "mem".toList⟩, ⟨.equal, "source_id".toList, "c".toList⟩]]

example : extractSourceIds exQuery = ["a".toList, "b".toList, "c".toList] := by decide
example : ValidOrder fun ms => (selectArgs ms).ids := idsOrder_valid

/-! ## C58 -/

/-- Replacing source ids by their expansions: the new query names exactly the
expansions of the ids the old one named, provided every named id has a non-empty
expansion free of `|`. -/
theorem C58_expansion (ex : Expansions) (e : PExpr)
    (hex : ∀ id, QueryNames e id → ∃ xs, ex id = some xs ∧ xs ≠ [] ∧ ∀ x ∈ xs, '|' ∉ x) (y : Str) :
    QueryNames (replaceSets ex e) y ↔ ∃ id xs, QueryNames e id ∧ ex id = some xs ∧ y ∈ xs :=
  replaceSets_names ex e hex y

/-- So does each selector of it: the new one names exactly the expansions of the ids the old one
in its place named. -/
theorem C58_each_selector (ex : Expansions) (e : PExpr)
    (hex : ∀ id, QueryNames e id → ∃ xs, ex id = some xs ∧ xs ≠ [] ∧ ∀ x ∈ xs, '|' ∉ x) :
    (selectorsOf (replaceSets ex e)).length = (selectorsOf e).length ∧
    ∀ (i : Nat) (ms ms' : List Matcher), (selectorsOf e)[i]? = some ms → (selectorsOf (replaceSets ex e))[i]? = some ms' →
      ∀ y, NamesSource ms' y ↔ ∃ id xs, NamesSource ms id ∧ ex id = some xs ∧ y ∈ xs := by
  rw [selectorsOf_replace]
  refine ⟨List.length_map .., fun i ms ms' h h' y => ?_⟩
  rw [List.getElem?_map, h] at h'
  cases h'
  exact replaceMatchers_names ex ms
    (fun id hn => hex id ((queryNames_iff e id).2 ⟨ms, List.mem_of_getElem? h, hn⟩)) y

/-- Nothing else about the query changes: its shape, operators, literals, metric names, and
matchers on other labels. -/
theorem C58_rest_unchanged (ex : Expansions) (e : PExpr) :
    blankSources (replaceSets ex e) = blankSources e := blank_replace ex e

example : extractSourceIds (replaceSets (fun id => some (if id = "a".toList then ["g1".toList, "g2".toList]
    else [id])) exQuery) = ["g1".toList, "g2".toList, "b".toList, "c".toList] := by decide

/-! ## C56, C60: iterators -/

theorem searchLoop_spec (f : Nat → Bool) (n : Nat)
    (hm : ∀ i j, i ≤ j → j < n → f i = true → f j = true) :
    ∀ fuel i j, j ≤ n → i ≤ j → j - i ≤ fuel → (∀ k, k < i → f k = false) → (∀ k, j ≤ k → k < n → f k = true) →
      searchLoop f fuel i j ≤ n ∧ (∀ k, k < searchLoop f fuel i j → f k = false) ∧
      (∀ k, searchLoop f fuel i j ≤ k → k < n → f k = true)
  | 0, i, j, hj, hij, hf, h1, h2 => by
    have : i = j := by omega
    subst this
    exact ⟨hj, h1, h2⟩
  | fuel + 1, i, j, hj, hij, hf, h1, h2 => by
    rw [searchLoop]
    by_cases hlt : i < j
    · rw [if_pos hlt]
      simp only
      cases hh : f ((i + j) / 2) with
      | true =>
        rw [if_pos rfl]
        exact searchLoop_spec f n hm fuel i _ (by omega) (by omega) (by omega) h1
          (fun k hk hk' => hm _ k hk hk' hh)
      | false =>
        rw [if_neg (by simp)]
        refine searchLoop_spec f n hm fuel _ j hj (by omega) (by omega) ?_ h2
        intro k hk
        cases hfk : f k with
        | false => rfl
        | true => exact absurd (hm k ((i + j) / 2) (by omega) (by omega) hfk) (by simp [hh])
    · rw [if_neg hlt]
      have : i = j := by omega
      subst this
      exact ⟨hj, h1, h2⟩

/-- On a series in order of time, `Seek t` positions the iterator at the first
point not before `t` and answers whether there is one; `At` then returns it. -/
theorem C56_seek (it : SeriesIter) (t : Int) (hs : it.points.Pairwise fun p q => p.t ≤ q.t) :
    (it.seek t).1.at = it.points.find? (fun p => decide (t ≤ p.t)) ∧
    (it.seek t).2 = (it.points.find? fun p => decide (t ≤ p.t)).isSome := by
  let f : Nat → Bool := fun n => decide (((it.points[n]?).map (·.t)).getD 0 ≥ t)
  have hval : ∀ (k : Nat) (hk : k < it.points.length), f k = decide (t ≤ (it.points[k]).t) := by
    intro k hk
    show decide (((it.points[k]?).map (·.t)).getD 0 ≥ t) = _
    rw [List.getElem?_eq_getElem hk]; rfl
  have hm : ∀ i j, i ≤ j → j < it.points.length → f i = true → f j = true := by
    intro i j hij hj h
    rw [hval i (by omega), decide_eq_true_eq] at h
    rw [hval j hj, decide_eq_true_eq]
    rcases Nat.lt_or_eq_of_le hij with hlt | rfl
    · exact Int.le_trans h (List.pairwise_iff_getElem.1 hs i j (by omega) hj hlt)
    · exact h
  obtain ⟨h1, h2, h3⟩ := searchLoop_spec f it.points.length hm it.points.length 0 it.points.length
    (Nat.le_refl _) (Nat.zero_le _) (by omega) (by omega) (by omega)
  have hcur : (it.seek t).1 = { it with cur := (searchLoop f it.points.length 0 it.points.length : Nat) } := rfl
  have hok : (it.seek t).2 = decide (searchLoop f it.points.length 0 it.points.length < it.points.length) := rfl
  generalize searchLoop f it.points.length 0 it.points.length = c at *
  have hat : (it.seek t).1.at = it.points[c]? := by
    rw [hcur]
    unfold SeriesIter.at
    rw [if_neg (by show ¬ ((c : Int) < 0); omega)]
    simp
  rw [hat, hok]
  by_cases hc : c < it.points.length
  · have : it.points.find? (fun p => decide (t ≤ p.t)) = some it.points[c] := by
      rw [List.find?_eq_some_iff_getElem]
      refine ⟨?_, c, hc, rfl, ?_⟩
      · rw [← hval c hc]; exact h3 c (Nat.le_refl _) hc
      · intro j hj
        rw [← hval j (by omega), h2 j hj]; rfl
    rw [this, List.getElem?_eq_getElem hc]
    simp [hc]
  · have : it.points.find? (fun p => decide (t ≤ p.t)) = none := by
      rw [List.find?_eq_none]
      intro p hp
      obtain ⟨k, hk, rfl⟩ := List.getElem_of_mem hp
      rw [← hval k hk, h2 k (by omega)]
      simp
    rw [this, List.getElem?_eq_none (by omega)]
    simp [hc]

example : ((⟨-1, [⟨1, .counter 1⟩, ⟨3, .counter 2⟩, ⟨3, .counter 3⟩, ⟨7, .counter 4⟩]⟩ : SeriesIter).seek 2).1.at
    = some ⟨3, .counter 2⟩ := by decide

/-- The iterator after `n` calls of `Next`. -/
def nextN : Nat → SeriesIter → SeriesIter
  | 0, it => it
  | n + 1, it => nextN n it.next.1

/-- A fresh iterator visits every point once, in order: the `(n+1)`-st `Next`
answers whether there is an `n`-th point and `At` then returns it. -/
theorem C60_next (points : List Point) (n : Nat) :
    (nextN n { points := points }).next.2 = decide (n < points.length) ∧
    (nextN n { points := points }).next.1.at = points[n]? := by
  have h : ∀ (n : Nat) (c : Int), nextN n ⟨c, points⟩ = ⟨c + n, points⟩ := by
    intro n
    induction n with
    | zero => intro c; simp [nextN]
    | succ n ih =>
      intro c
      rw [nextN]
      show nextN n ⟨c + 1, points⟩ = _
      rw [ih]
      congr 1
      omega
  rw [h]
  unfold SeriesIter.next SeriesIter.at
  simp only
  constructor
  · congr 1
    apply propext
    omega
  · rw [if_neg (by omega)]
    congr 1
    omega

theorem truncate_mono {interval a b : Int} (h : a ≤ b) : truncateTime interval a ≤ truncateTime interval b := by
  unfold truncateTime
  split
  · exact h
  · rename_i hi
    have hi : 0 < interval := by omega
    have ha := Int.mul_ediv_add_emod a interval
    have hb := Int.mul_ediv_add_emod b interval
    have : a / interval ≤ b / interval := Int.ediv_le_ediv hi h
    have := Int.mul_le_mul_of_nonneg_left this (Int.le_of_lt hi)
    omega

theorem point_time_mono {a : SelectArgs} {interval : Int} {e e' : Envelope} {x y : List (Str × Str) × Point}
    (h : e.timestamp ≤ e'.timestamp) (hx : selectPoint a interval e = some x)
    (hy : selectPoint a interval e' = some y) : x.2.t ≤ y.2.t := by
  have ht : ∀ e (x : List (Str × Str) × Point), selectPoint a interval e = some x →
      x.2.t = (truncateTime interval e.timestamp).tdiv 1000000 := by
    intro e x h
    unfold selectPoint at h
    split at h
    · rw [Option.map_eq_some_iff] at h
      obtain ⟨v, _, rfl⟩ := h
      rfl
    · cases h
  rw [ht e x hx, ht e' y hy]
  exact Int.tdiv_le_tdiv (by omega) (truncate_mono h)

/-- Every series a selector returns is in order of time, so `Seek` works on it: for
readers that answer each source's own envelopes in order of time, and labels that
do not collide.  Missing: labels that collide, for which it is false (`C56_order_false`). -/
theorem C56_series_ordered_partial (interval start stop : Int) (read : ReadRequest → Option (List Envelope))
    (hread : ∀ req es, read req = some es → ByTime es ∧ ∀ e ∈ es, e.sourceId = req.sourceId)
    (order : List Str) (hnd : order.Nodup) (ms : List Matcher) (out : List SeriesData)
    (hun : Unambiguous ((order.flatMap fun id =>
      (read (metricsAsked start stop id)).getD []).map pointTags))
    (h : select interval start stop read order ms = some out) :
    ∀ s ∈ out, s.points.Pairwise fun p q => p.t ≤ q.t := by
  obtain ⟨hok, rfl⟩ := C55_select_reads_all interval start stop read order ms out h
  intro s hs
  obtain ⟨tp, rest, hf, hs'⟩ := (builder_series _ s).1 hs
  have hp : s.points = (tp :: rest).map Prod.snd := by rw [hs']
  rw [hp, ← hf, List.pairwise_map]
  have key : (order.flatMap fun id => ((read (metricsAsked start stop id)).getD []).filterMap
      (selectPoint (selectArgs ms) interval)).Pairwise
      (fun x y => seriesId x.1 = seriesId y.1 → x.2.t ≤ y.2.t) := by
    rw [List.pairwise_flatMap]
    constructor
    · intro id hid
      obtain ⟨es, hes⟩ := Option.isSome_iff_exists.1 (hok id hid)
      rw [hes, Option.getD_some, List.pairwise_filterMap]
      refine List.Pairwise.imp ?_ (hread _ _ hes).1
      intro e e' hle x hx y hy _
      exact point_time_mono hle hx hy
    · refine List.Pairwise.imp_of_mem ?_ hnd
      intro id id' hid hid' hne x hx y hy hxy
      exfalso
      obtain ⟨es, hes⟩ := Option.isSome_iff_exists.1 (hok id hid)
      obtain ⟨es', hes'⟩ := Option.isSome_iff_exists.1 (hok id' hid')
      rw [hes, Option.getD_some, List.mem_filterMap] at hx
      rw [hes', Option.getD_some, List.mem_filterMap] at hy
      obtain ⟨e, he, hx⟩ := hx
      obtain ⟨e', he', hy⟩ := hy
      have htag : ∀ e (x : List (Str × Str) × Point), selectPoint (selectArgs ms) interval e = some x →
          x.1 = pointTags e := by
        intro e x h
        unfold selectPoint at h
        split at h
        · rw [Option.map_eq_some_iff] at h
          obtain ⟨v, _, rfl⟩ := h
          rfl
        · cases h
      rw [htag e x hx, htag e' y hy] at hxy
      have hmem : ∀ id ∈ order, ∀ es, read (metricsAsked start stop id) = some es → ∀ e ∈ es,
          pointTags e ∈ ((order.flatMap fun id => (read (metricsAsked start stop id)).getD []).map pointTags) := by
        intro id hid es hes e he
        exact List.mem_map.2 ⟨e, List.mem_flatMap.2 ⟨id, hid, by rw [hes]; exact he⟩, rfl⟩
      have hsame := seriesId_inj hun (hmem id hid es hes e he) (hmem id' hid' es' hes' e' he') hxy
      have h1 : (pointTags e).lookup "source_id".toList = some e.sourceId :=
        (pointTags_label e _ _).2 (by unfold IsLabelOf; rw [if_pos rfl])
      have h2 : (pointTags e').lookup "source_id".toList = some e'.sourceId :=
        (pointTags_label e' _ _).2 (by unfold IsLabelOf; rw [if_pos rfl])
      rw [hsame, h2] at h1
      have e1 := (hread _ _ hes).2 e he
      have e2 := (hread _ _ hes').2 e' he'
      rw [Option.some.injEq, e1, e2] at h1
      exact hne h1.symm
  have := List.Pairwise.filter (fun x => decide (seriesId x.1 = seriesId s.tags)) key
  refine List.Pairwise.imp_of_mem ?_ this
  intro x y hx hy hxy
  apply hxy
  rw [of_decide_eq_true (List.mem_filter.1 hx).2, of_decide_eq_true (List.mem_filter.1 hy).2]

/-- A reader with two counters of source `a` and nothing else. -/
def exReader (req : ReadRequest) : Option (List Envelope) :=
  some (if req.sourceId = "a".toList then [exCounter "z-1".toList, exCounter "z-2".toList] else [])

example : (∀ req es, exReader req = some es → ByTime es ∧ ∀ e ∈ es, e.sourceId = req.sourceId) ∧
    Unambiguous ((["a".toList, "b".toList].flatMap fun id =>
      (exReader (metricsAsked 0 100 id)).getD []).map pointTags) ∧
    ((select 1000000000 0 100 exReader ["a".toList]
      [⟨.equal, "__name__".toList, "cpu".toList⟩, ⟨.equal, "source_id".toList, "a".toList⟩]).isSome = true) := by
  refine ⟨?_, unambiguous_of_check _ (by decide), ?_⟩
  · intro req es h
    unfold exReader at h
    by_cases hr : req.sourceId = "a".toList
    · rw [if_pos hr] at h
      cases h
      refine ⟨by unfold ByTime; decide, ?_⟩
      rw [hr]
      decide
    · rw [if_neg hr] at h
      cases h
      exact ⟨List.Pairwise.nil, by simp⟩
  · rfl

/-- The counter of one source whose id contains a label name, and one of another. -/
def exCollide (id : Str) : Option Envelope :=
  if id = "t".toList then
    some { timestamp := 10000000000, sourceId := id, tags := [("a".toList, "1-source_id-s".toList)],
           message := some (.counter "cpu".toList 0 7) }
  else if id = "s-source_id-t".toList then
    some { timestamp := 5000000000, sourceId := id, tags := [("a".toList, "1".toList)],
           message := some (.counter "cpu".toList 0 8) }
  else none

/-- Two sources whose labels collide end up in one series, one after the other: its points
are not in order of time, and seeking second 7 reports that there is no such point although
there is one. -/
theorem C56_order_false : ∃ (read : ReadRequest → Option (List Envelope)) (order : List Str) (ms : List Matcher)
    (s : SeriesData),
    (∀ req es, read req = some es → ByTime es ∧ ∀ e ∈ es, e.sourceId = req.sourceId) ∧ order.Nodup ∧
    select 1000000000 0 100000000000 read order ms = some [s] ∧ s.points.map Point.t = [10000, 5000] ∧
    ((SeriesIter.seek { points := s.points } 7000).2 = false) ∧ ∃ p ∈ s.points, 7000 ≤ p.t := by
  have h1 : seriesId [("a".toList, "1-source_id-s".toList), ("source_id".toList, "t".toList)] =
      "-a-1-source_id-s-source_id-t".toList := by
    unfold seriesId
    rw [List.mergeSort_of_pairwise (by decide)]
    decide
  have h2 : seriesId [("a".toList, "1".toList), ("source_id".toList, "s-source_id-t".toList)] =
      "-a-1-source_id-s-source_id-t".toList := by
    unfold seriesId
    rw [List.mergeSort_of_pairwise (by decide)]
    decide
  refine ⟨fun req => some (exCollide req.sourceId).toList, ["t".toList, "s-source_id-t".toList],
    [⟨.equal, "__name__".toList, "cpu".toList⟩,
     ⟨.regexp, "source_id".toList, "t|s-source_id-t".toList⟩],
    ⟨[("a".toList, "1-source_id-s".toList), ("source_id".toList, "t".toList)],
      [⟨10000, .counter 7⟩, ⟨5000, .counter 8⟩]⟩, ?_, by decide, ?_, rfl, by decide,
    ⟨_, List.mem_cons_self .., by decide⟩⟩
  · intro req es h
    simp only [Option.some.injEq] at h
    subst h
    unfold exCollide
    split
    · exact ⟨List.pairwise_singleton _ _, by simp⟩
    · split
      · exact ⟨List.pairwise_singleton _ _, by simp⟩
      · exact ⟨List.Pairwise.nil, by simp⟩
  · have hsel : select 1000000000 0 100000000000 (fun req => some (exCollide req.sourceId).toList)
        ["t".toList, "s-source_id-t".toList]
        [⟨.equal, "__name__".toList, "cpu".toList⟩, ⟨.regexp, "source_id".toList, "t|s-source_id-t".toList⟩] =
      some (([([("a".toList, "1-source_id-s".toList), ("source_id".toList, "t".toList)], ⟨10000, .counter 7⟩),
        ([("a".toList, "1".toList), ("source_id".toList, "s-source_id-t".toList)],
          ⟨5000, .counter 8⟩)].foldl builderAdd []).map Prod.snd) := by
      rfl
    rw [hsel]
    have e : "-a-1-source_id-s-source_id-t".toList == "-a-1-source_id-s-source_id-t".toList := by decide
    simp only [List.foldl, builderAdd, h1, h2, List.lookup, Option.getD_none, mapSet, e, Option.getD_some,
      if_true, List.map_cons, List.map_nil, List.nil_append, List.cons_append]

/-- The value of a timer is how long it took, if that fits in 64 bits. -/
theorem C55_timer_partial {metric : Str} {e : Envelope} {n : Str} {a b : Int} (hm : e.message = some (.timer n a b))
    (hs : cleaned n = metric) (h1 : -2 ^ 63 ≤ b - a) (h2 : b - a < 2 ^ 63) (v : PVal) :
    HasValue metric e v ↔ v = .timer (b - a) := by
  unfold HasValue
  rw [hm]
  constructor
  · rintro ⟨-, d, rfl, h3, h4, k, h5⟩
    congr 1
    omega
  · rintro rfl
    exact ⟨hs, _, rfl, h1, h2, 0, by omega⟩

/-- A timer that began in 1677 and ended in 2262, as far as 64 bits reach: its value is
-1 nanosecond. -/
theorem C55_timer_false (interval : Int) : ∃ (e : Envelope) (n : Str) (a b : Int), e.message = some (.timer n a b) ∧
    -2 ^ 63 ≤ a ∧ a < b ∧ b < 2 ^ 63 ∧
    (selectPoint (selectArgs [⟨.equal, "__name__".toList, n⟩]) interval e).map (fun x => x.2.v) = some (.timer (-1)) :=
  ⟨{ timestamp := 0, message := some (.timer "t".toList (-2 ^ 63) (2 ^ 63 - 1)) }, "t".toList, -2 ^ 63, 2 ^ 63 - 1, rfl, by decide, by decide,
    by decide, by
    have hv : pointValue (selectArgs [⟨.equal, "__name__".toList, "t".toList⟩]).metric
        ({ timestamp := 0, message := some (.timer "t".toList (-2 ^ 63) (2 ^ 63 - 1)) } : Envelope) =
        some (.timer (-1)) := by decide +kernel
    unfold selectPoint
    rw [if_pos (by decide +kernel), hv]
    rfl⟩

end LogCache
