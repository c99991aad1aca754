import Verif.Spec.Determined
import Verif.Props.Promql
import Verif.Proof.EngineSelect
/-!
# The series of a selector do not depend on the order of maps (C59)
-/
namespace LogCache
open Spec

theorem assoc_iff {β : Type} : ∀ {l : List (Str × β)}, (l.map Prod.fst).Nodup → ∀ k v, l.lookup k = some v ↔ (k, v) ∈ l
  | [], _, k, v => by simp
  | (a, w) :: t, hn, k, v => by
    rw [List.map_cons, List.nodup_cons] at hn
    by_cases h : k = a
    · subst h
      simp only [List.lookup_cons_self, Option.some.injEq, List.mem_cons, Prod.mk.injEq, true_and]
      constructor
      · intro h; exact Or.inl h.symm
      · rintro (h | h)
        · exact h.symm
        · exact absurd (List.mem_map.2 ⟨_, h, rfl⟩) hn.1
    · have : (k == a) = false := by simpa using h
      simp only [List.lookup, this, List.mem_cons, Prod.mk.injEq, h, false_and, false_or]
      exact assoc_iff hn.2 k v

theorem assoc_perm {β : Type} {l l' : List (Str × β)} (hp : l.Perm l') (hn : (l.map Prod.fst).Nodup) (k : Str) :
    l.lookup k = l'.lookup k := by
  apply Option.ext
  intro v
  rw [assoc_iff hn, assoc_iff ((hp.map _).nodup_iff.1 hn), hp.mem_iff]

theorem findSanitized_one (metric : Str) (ms ms' : List (Str × GaugeValue)) (hp : ms.Perm ms')
    (hd : ∀ p ∈ ms, ∀ q ∈ ms, cleaned p.1 = metric → cleaned q.1 = metric → p = q) :
    findSanitized metric ms = findSanitized metric ms' := by
  have hex : ∀ ms : List (Str × GaugeValue),
      (∀ p ∈ ms, ∀ q ∈ ms, cleaned p.1 = metric → cleaned q.1 = metric → p = q) →
      ∀ v, findSanitized metric ms = some v ↔ ∃ p ∈ ms, cleaned p.1 = metric ∧ v = p.2 := by
    intro ms
    induction ms with
    | nil => intro _ v; simp [findSanitized]
    | cons a t ih =>
      intro hd v
      obtain ⟨k, w⟩ := a
      rw [findSanitized]
      by_cases h : sanitize k = metric
      · rw [if_pos h]
        constructor
        · intro hv
          exact ⟨(k, w), List.mem_cons_self .., by rw [cleaned_eq]; exact h, (Option.some.inj hv).symm⟩
        · rintro ⟨p, hm, h1, rfl⟩
          rw [← hd (k, w) (List.mem_cons_self ..) p hm (by rw [cleaned_eq]; exact h) h1]
      · rw [if_neg h, ih (fun p hp q hq => hd p (List.mem_cons_of_mem _ hp) q (List.mem_cons_of_mem _ hq))]
        constructor
        · rintro ⟨p, hm, r⟩; exact ⟨p, List.mem_cons_of_mem _ hm, r⟩
        · rintro ⟨p, hm, h1, r⟩
          rcases List.mem_cons.1 hm with rfl | hm
          · rw [cleaned_eq] at h1; exact absurd h1 h
          · exact ⟨p, hm, h1, r⟩
  apply Option.ext
  intro v
  rw [hex ms hd, hex ms' (fun p h1 q h2 => hd p (hp.mem_iff.2 h1) q (hp.mem_iff.2 h2))]
  constructor
  · rintro ⟨p, h, r⟩; exact ⟨p, hp.mem_iff.1 h, r⟩
  · rintro ⟨p, h, r⟩; exact ⟨p, hp.mem_iff.2 h, r⟩

theorem pointValue_same {metric : Str} {e e' : Envelope} (h : EnvelopeAnyOrder e e') (h1 : OneOfName metric e) :
    pointValue metric e = pointValue metric e' := by
  obtain ⟨-, -, -, -, -, hm⟩ := h
  unfold OneOfName at h1
  unfold pointValue
  generalize e.message = m at *
  generalize e'.message = m' at *
  unfold MessageAnyOrder at hm
  split at hm
  · rename_i ms ms'
    simp only
    rw [findSanitized_one metric _ _ hm (h1 ms rfl)]
  · rw [hm]

theorem pointTags_same {e e' : Envelope} (h : EnvelopeAnyOrder e e') (hn : (e.tags.map Prod.fst).Nodup) :
    SameLabels (pointTags e) (pointTags e') := by
  obtain ⟨-, h2, h3, -, h4, -⟩ := h
  intro k
  apply Option.ext
  intro v
  rw [pointTags_label, pointTags_label]
  unfold IsLabelOf
  rw [h2, h3, assoc_perm h4 hn]

/-- Two points with the same labels and values, or none twice. -/
def SamePoint : Option (List (Str × Str) × Point) → Option (List (Str × Str) × Point) → Prop
  | none, none => True
  | some a, some b => SameLabels a.1 b.1 ∧ a.2 = b.2
  | _, _ => False

theorem selectPoint_same {a : SelectArgs} {interval : Int} {e e' : Envelope} (h : EnvelopeAnyOrder e e')
    (hn : (e.tags.map Prod.fst).Nodup) (h1 : OneOfName a.metric e) :
    SamePoint (selectPoint a interval e) (selectPoint a interval e') := by
  have hv := pointValue_same h h1
  have ht := pointTags_same h hn
  have hl : hasLabels e.tags a.labels = hasLabels e'.tags a.labels := by
    unfold hasLabels
    obtain ⟨-, -, -, -, h4, -⟩ := h
    congr 1
    funext l
    rw [assoc_perm h4 hn]
  unfold selectPoint
  rw [hl, hv]
  by_cases hb : hasLabels e'.tags a.labels = true
  · rw [if_pos hb, if_pos hb]
    cases pointValue a.metric e' with
    | none => exact True.intro
    | some v => exact ⟨ht, by simp only; rw [h.1]⟩
  · rw [if_neg hb, if_neg hb]
    exact True.intro

open Classical in
theorem points_same {a : SelectArgs} {interval : Int} {es es' : List Envelope} (h : SameAnswer es es')
    (hn : ∀ e ∈ es, (e.tags.map Prod.fst).Nodup) (h1 : ∀ e ∈ es, OneOfName a.metric e) (L L' : List (Str × Str))
    (hL : SameLabels L L') :
    ((es.filterMap (selectPoint a interval)).filter fun tp => decide (SameLabels tp.1 L)).map Prod.snd =
    ((es'.filterMap (selectPoint a interval)).filter fun tp => decide (SameLabels tp.1 L')).map Prod.snd := by
  induction h with
  | nil => rfl
  | @cons e e' t t' he _ ih =>
    have ih := ih (fun x hx => hn x (List.mem_cons_of_mem _ hx)) (fun x hx => h1 x (List.mem_cons_of_mem _ hx))
    have hp := selectPoint_same (interval := interval) he (hn e (List.mem_cons_self ..)) (h1 e (List.mem_cons_self ..))
    rw [List.filterMap_cons, List.filterMap_cons]
    generalize selectPoint a interval e = p at hp
    generalize selectPoint a interval e' = p' at hp
    cases p with
    | none =>
      cases p' with
      | none => exact ih
      | some b => exact hp.elim
    | some b =>
      cases p' with
      | none => exact hp.elim
      | some b' =>
        obtain ⟨g1, g2⟩ := hp
        simp only [List.filter_cons]
        have : SameLabels b.1 L ↔ SameLabels b'.1 L' := by
          constructor
          · intro h k; rw [← g1 k, h k, hL k]
          · intro h k; rw [g1 k, h k, hL k]
        by_cases hb : SameLabels b.1 L
        · simp only [hb, this.1 hb, decide_true, if_true, List.map_cons, ih, g2]
        · have hb' : ¬ SameLabels b'.1 L' := fun h => hb (this.2 h)
          simp only [hb, hb', decide_false, Bool.false_eq_true, if_false, ih]

theorem flatMap_only {β : Type} {f : Str → List β} {id : Str} : ∀ {order : List Str}, order.Nodup → id ∈ order →
    (∀ x ∈ order, x ≠ id → f x = []) → order.flatMap f = f id
  | [], _, h, _ => by cases h
  | a :: t, hn, h, hf => by
    rw [List.nodup_cons] at hn
    rw [List.flatMap_cons]
    by_cases ha : a = id
    · subst ha
      have : t.flatMap f = [] := by
        rw [List.flatMap_eq_nil_iff]
        intro x hx
        exact hf x (List.mem_cons_of_mem _ hx) (fun h => hn.1 (h ▸ hx))
      rw [this, List.append_nil]
    · have hm : id ∈ t := by
        rcases List.mem_cons.1 h with h | h
        · exact absurd h.symm ha
        · exact h
      rw [hf a (List.mem_cons_self ..) ha, List.nil_append]
      exact flatMap_only hn.2 hm (fun x hx => hf x (List.mem_cons_of_mem _ hx))

theorem sameAnswer_mem {es es' : List Envelope} (h : SameAnswer es es') :
    (∀ e ∈ es, ∃ e' ∈ es', EnvelopeAnyOrder e e') ∧ (∀ e' ∈ es', ∃ e ∈ es, EnvelopeAnyOrder e e') := by
  induction h with
  | nil => exact ⟨(by intro e h; cases h), (by intro e h; cases h)⟩
  | cons h _ ih =>
    constructor
    · intro x hx
      rcases List.mem_cons.1 hx with rfl | hx
      · exact ⟨_, List.mem_cons_self .., h⟩
      · obtain ⟨y, hy, r⟩ := ih.1 x hx
        exact ⟨y, List.mem_cons_of_mem _ hy, r⟩
    · intro x hx
      rcases List.mem_cons.1 hx with rfl | hx
      · exact ⟨_, List.mem_cons_self .., h⟩
      · obtain ⟨y, hy, r⟩ := ih.2 x hx
        exact ⟨y, List.mem_cons_of_mem _ hy, r⟩

theorem messageAnyOrder_symm {m m' : Option Message} (h : MessageAnyOrder m m') : MessageAnyOrder m' m := by
  unfold MessageAnyOrder at h
  split at h
  · exact h.symm
  · subst h
    unfold MessageAnyOrder
    split
    · exact List.Perm.refl _
    · rfl

theorem envelopeAnyOrder_symm {e e' : Envelope} (h : EnvelopeAnyOrder e e') : EnvelopeAnyOrder e' e :=
  ⟨h.1.symm, h.2.1.symm, h.2.2.1.symm, h.2.2.2.1.symm, h.2.2.2.2.1.symm, messageAnyOrder_symm h.2.2.2.2.2⟩

theorem sameAnswer_symm {es es' : List Envelope} (h : SameAnswer es es') : SameAnswer es' es := by
  induction h with
  | nil => exact .nil
  | cons h _ ih => exact .cons (envelopeAnyOrder_symm h) ih

theorem sameReads_symm {r r' : ReadRequest → Option (List Envelope)} (h : SameReads r r') : SameReads r' r := by
  intro req
  rcases h req with ⟨h1, h2⟩ | ⟨es, es', h1, h2, h3⟩
  · exact Or.inl ⟨h2, h1⟩
  · exact Or.inr ⟨es', es, h2, h1, sameAnswer_symm h3⟩

theorem oneOfName_same {metric : Str} {e e' : Envelope} (h : EnvelopeAnyOrder e e') (h1 : OneOfName metric e) :
    OneOfName metric e' := by
  obtain ⟨-, -, -, -, -, hm⟩ := h
  intro ms hms p hp q hq
  rw [hms] at hm
  unfold MessageAnyOrder at hm
  split at hm
  · rename_i ms0 ms1 he he'
    cases he'
    exact h1 ms0 he p (hm.mem_iff.2 hp) q (hm.mem_iff.2 hq)
  · exact h1 ms hm p hp q hq

theorem selectPoint_tags {a : SelectArgs} {interval : Int} {e : Envelope} {x : List (Str × Str) × Point}
    (h : selectPoint a interval e = some x) : x.1 = pointTags e := by
  unfold selectPoint at h
  split at h
  · rw [Option.map_eq_some_iff] at h
    obtain ⟨v, _, rfl⟩ := h
    rfl
  · cases h

theorem selectLoop_succeeds (a : SelectArgs) (interval start stop : Int)
    (read : ReadRequest → Option (List Envelope)) : ∀ (ids : List Str) (b : List (Str × SeriesData)),
    (∀ id ∈ ids, (read (selectRequest start stop id)).isSome) →
    ∃ out, selectLoop a interval start stop read ids b = some out
  | [], b, _ => ⟨b, rfl⟩
  | id :: ids, b, h => by
    obtain ⟨es, hes⟩ := Option.isSome_iff_exists.1 (h id (List.mem_cons_self ..))
    rw [selectLoop, hes]
    exact selectLoop_succeeds a interval start stop read ids _ (fun x hx => h x (List.mem_cons_of_mem _ hx))

/-- The labels of all envelopes that a selector is given. -/
def labelsRead (start stop : Int) (read : ReadRequest → Option (List Envelope)) (order : List Str) :
    List (List (Str × Str)) :=
  (order.flatMap fun id => (read (metricsAsked start stop id)).getD []).map pointTags

theorem series_half (interval start stop : Int) {read read' : ReadRequest → Option (List Envelope)}
    (hsame : SameReads read read') {order order' : List Str} (hnd : order.Nodup) (hp : order.Perm order')
    (ms : List Matcher)
    (hown : ∀ req es, read req = some es → ∀ e ∈ es, e.sourceId = req.sourceId ∧ (e.tags.map Prod.fst).Nodup ∧
      OneOfName (selectArgs ms).metric e)
    (hun : Unambiguous (labelsRead start stop read order)) (hun' : Unambiguous (labelsRead start stop read' order'))
    {out out' : List SeriesData} (h : select interval start stop read order ms = some out)
    (h' : select interval start stop read' order' ms = some out') :
    ∀ s ∈ out, ∃ s' ∈ out', SeriesAlike s s' := by
  obtain ⟨hok, rfl⟩ := C55_select_reads_all interval start stop read order ms out h
  obtain ⟨hok', rfl⟩ := C55_select_reads_all interval start stop read' order' ms out' h'
  -- what the readers answer for one source
  have hans : ∀ id ∈ order, ∃ es es', read (metricsAsked start stop id) = some es ∧
      read' (metricsAsked start stop id) = some es' ∧ SameAnswer es es' := by
    intro id hid
    rcases hsame (metricsAsked start stop id) with ⟨h1, -⟩ | h1
    · have := hok id hid; rw [h1] at this; cases this
    · exact h1
  generalize htps : (order.flatMap fun id => ((read (metricsAsked start stop id)).getD []).filterMap
      (selectPoint (selectArgs ms) interval)) = tps
  generalize htps' : (order'.flatMap fun id => ((read' (metricsAsked start stop id)).getD []).filterMap
      (selectPoint (selectArgs ms) interval)) = tps'
  have hnames : ∀ e' , ∀ id ∈ order, ∀ es es', read (metricsAsked start stop id) = some es →
      SameAnswer es es' → e' ∈ es' → (e'.tags.map Prod.fst).Nodup ∧ e'.sourceId = id := by
    intro e' id hid es es' he hsa hm
    obtain ⟨e, hem, hse⟩ := (sameAnswer_mem hsa).2 e' hm
    obtain ⟨o1, o2, -⟩ := hown _ _ he e hem
    exact ⟨((hse.2.2.2.2.1.map Prod.fst).nodup_iff).1 o2, hse.2.1.symm.trans o1⟩
  -- points come from envelopes
  have hsrc : ∀ tp ∈ tps, ∃ id ∈ order, ∃ es, read (metricsAsked start stop id) = some es ∧
      ∃ e ∈ es, selectPoint (selectArgs ms) interval e = some tp := by
    intro tp htp
    rw [← htps] at htp
    obtain ⟨id, hid, hm⟩ := List.mem_flatMap.1 htp
    obtain ⟨es, es', he, -, -⟩ := hans id hid
    rw [he, Option.getD_some] at hm
    obtain ⟨e, hem, hsp⟩ := List.mem_filterMap.1 hm
    exact ⟨id, hid, es, he, e, hem, hsp⟩
  have hsrc' : ∀ tp ∈ tps', ∃ id ∈ order, ∃ es es', read (metricsAsked start stop id) = some es ∧
      read' (metricsAsked start stop id) = some es' ∧ SameAnswer es es' ∧
      ∃ e' ∈ es', selectPoint (selectArgs ms) interval e' = some tp := by
    intro tp htp
    rw [← htps'] at htp
    obtain ⟨id, hid, hm⟩ := List.mem_flatMap.1 htp
    have hid := hp.mem_iff.2 hid
    obtain ⟨es, es', he, he', hsa⟩ := hans id hid
    rw [he', Option.getD_some] at hm
    obtain ⟨e, hem, hsp⟩ := List.mem_filterMap.1 hm
    exact ⟨id, hid, es, es', he, he', hsa, e, hem, hsp⟩
  have hunT : Unambiguous (tps.map Prod.fst) := by
    have hsub : ∀ t ∈ tps.map Prod.fst, t ∈ labelsRead start stop read order := by
      intro t ht
      obtain ⟨tp, htp, rfl⟩ := List.mem_map.1 ht
      obtain ⟨id, hid, es, he, e, hem, hsp⟩ := hsrc tp htp
      rw [selectPoint_tags hsp]
      exact List.mem_map.2 ⟨e, List.mem_flatMap.2 ⟨id, hid, by rw [he]; exact hem⟩, rfl⟩
    intro t ht p hpt
    obtain ⟨u1, u2⟩ := hun t (hsub t ht) p hpt
    exact ⟨u1, fun u hu => u2 u (hsub u hu)⟩
  have hunT' : Unambiguous (tps'.map Prod.fst) := by
    have hsub : ∀ t ∈ tps'.map Prod.fst, t ∈ labelsRead start stop read' order' := by
      intro t ht
      obtain ⟨tp, htp, rfl⟩ := List.mem_map.1 ht
      obtain ⟨id, hid, es, es', -, he, -, e, hem, hsp⟩ := hsrc' tp htp
      rw [selectPoint_tags hsp]
      exact List.mem_map.2 ⟨e, List.mem_flatMap.2 ⟨id, hp.mem_iff.1 hid, by rw [he]; exact hem⟩, rfl⟩
    intro t ht p hpt
    obtain ⟨u1, u2⟩ := hun' t (hsub t ht) p hpt
    exact ⟨u1, fun u hu => u2 u (hsub u hu)⟩
  have hkeys : ∀ tp ∈ tps, (tp.1.map Prod.fst).Nodup := by
    intro tp htp
    obtain ⟨id, hid, es, he, e, hem, hsp⟩ := hsrc tp htp
    rw [selectPoint_tags hsp]
    exact pointTags_keys (hown _ _ he e hem).2.1
  have hkeys' : ∀ tp ∈ tps', (tp.1.map Prod.fst).Nodup := by
    intro tp htp
    obtain ⟨id, hid, es, es', he, -, hsa, e, hem, hsp⟩ := hsrc' tp htp
    rw [selectPoint_tags hsp]
    exact pointTags_keys (hnames e id hid es es' he hsa hem).1
  obtain ⟨a1, -, -⟩ := C54_series_partial tps hunT hkeys
  obtain ⟨b1, b2, -⟩ := C54_series_partial tps' hunT' hkeys'
  intro s hs
  obtain ⟨c1, c2⟩ := a1 s hs
  -- a point of the series and where it comes from
  have hex : ∃ tp ∈ tps, SameLabels tp.1 s.tags := by
    rw [c1] at c2
    obtain ⟨x, hx⟩ := List.exists_mem_of_ne_nil _ c2
    obtain ⟨tp, htp, -⟩ := List.mem_map.1 hx
    obtain ⟨h1, h2⟩ := List.mem_filter.1 htp
    exact ⟨tp, h1, by simpa using h2⟩
  obtain ⟨tp, htp, hlab⟩ := hex
  obtain ⟨id, hid, es, he, e, hem, hsp⟩ := hsrc tp htp
  obtain ⟨es0, es', he0, he', hsa⟩ := hans id hid
  rw [he] at he0
  cases he0
  obtain ⟨e', hem', hse⟩ := (sameAnswer_mem hsa).1 e hem
  obtain ⟨o1, o2, o3⟩ := hown _ _ he e hem
  have hpt := selectPoint_same (a := selectArgs ms) (interval := interval) hse o2 o3
  rw [hsp] at hpt
  cases hsp' : selectPoint (selectArgs ms) interval e' with
  | none => rw [hsp'] at hpt; exact hpt.elim
  | some tp' =>
    rw [hsp'] at hpt
    obtain ⟨q1, -⟩ := hpt
    have htp' : tp' ∈ tps' := by
      rw [← htps']
      exact List.mem_flatMap.2 ⟨id, hp.mem_iff.1 hid, by
        rw [he', Option.getD_some]; exact List.mem_filterMap.2 ⟨e', hem', hsp'⟩⟩
    obtain ⟨s', hs', hlab'⟩ := b2 tp' htp'
    have hSS : SameLabels s.tags s'.tags := by
      intro k; rw [← hlab k, q1 k, hlab' k]
    refine ⟨s', hs', hSS, ?_⟩
    rw [c1, (b1 s' hs').1]
    have hidL : s.tags.lookup "source_id".toList = some id := by
      rw [← hlab, selectPoint_tags hsp]
      refine (pointTags_label e _ _).2 ?_
      unfold IsLabelOf
      rw [if_pos rfl]
      exact o1.symm
    have hsrcid : ∀ (x : List (Str × Str) × Point) (d : Envelope), selectPoint (selectArgs ms) interval d = some x →
        ∀ L, L.lookup "source_id".toList = some id → SameLabels x.1 L → d.sourceId = id := by
      intro x d hx L hL hxL
      have h1 : (pointTags d).lookup "source_id".toList = some d.sourceId :=
        (pointTags_label d _ _).2 (by unfold IsLabelOf; rw [if_pos rfl])
      rw [← selectPoint_tags hx, hxL, hL] at h1
      exact (Option.some.inj h1).symm
    rw [← htps, ← htps', List.filter_flatMap, List.filter_flatMap,
      flatMap_only (id := id) hnd hid, flatMap_only (id := id) (hp.nodup_iff.1 hnd) (hp.mem_iff.1 hid)]
    · simp only [he, he', Option.getD_some]
      exact points_same hsa (fun e hem => (hown _ _ he e hem).2.1) (fun e hem => (hown _ _ he e hem).2.2) _ _ hSS
    · intro x hx hxid
      have hx := hp.mem_iff.2 hx
      obtain ⟨fs, fs', hf, hf', hsf⟩ := hans x hx
      rw [hf', Option.getD_some, List.filter_eq_nil_iff]
      intro y hy hyl
      obtain ⟨d, hd, hdy⟩ := List.mem_filterMap.1 hy
      have := hsrcid y d hdy s'.tags (by rw [← hSS]; exact hidL) (by simpa using hyl)
      exact hxid ((hnames d x hx fs fs' hf hsf hd).2.symm.trans this)
    · intro x hx hxid
      obtain ⟨fs, fs', hf, hf', hsf⟩ := hans x hx
      rw [hf, Option.getD_some, List.filter_eq_nil_iff]
      intro y hy hyl
      obtain ⟨d, hd, hdy⟩ := List.mem_filterMap.1 hy
      have := hsrcid y d hdy s.tags hidL (by simpa using hyl)
      exact hxid ((hown _ _ hf d hd).1.symm.trans this)

/-- **A selector's answer is a function of the stored data**: whatever order Go gives the
entries of the envelopes' tags and gauges, and the selector's source ids, in, the selector
fails or answers with the same series: the same labels with the same points in the same
order. For readers that answer with envelopes of the source asked for, labels that do not
collide (C54), and envelopes with at most one metric of the selected name. Missing:
envelopes with several, for which it is false (`C59_gauge_false`). -/
theorem C59_select_partial (interval start stop : Int) {read read' : ReadRequest → Option (List Envelope)}
    (hsame : SameReads read read') {order order' : List Str} (hnd : order.Nodup) (hp : order.Perm order')
    (ms : List Matcher)
    (hown : ∀ req es, read req = some es → ∀ e ∈ es, e.sourceId = req.sourceId ∧ (e.tags.map Prod.fst).Nodup ∧
      OneOfName (metricOf ms) e)
    (hun : Unambiguous ((order.flatMap fun id => (read (metricsAsked start stop id)).getD []).map pointTags)) :
    (select interval start stop read order ms = none ↔ select interval start stop read' order' ms = none) ∧
    ∀ out out', select interval start stop read order ms = some out →
      select interval start stop read' order' ms = some out' →
      (∀ s ∈ out, ∃ s' ∈ out', SeriesAlike s s') ∧ (∀ s' ∈ out', ∃ s ∈ out, SeriesAlike s s') := by
  have hmet : (selectArgs ms).metric = metricOf ms := fold_metric ms {}
  rw [← hmet] at hown
  have some_of : ∀ {r r' : ReadRequest → Option (List Envelope)} {o o' : List Str}, SameReads r r' → o.Perm o' →
      ∀ out, select interval start stop r o ms = some out → ∃ out', select interval start stop r' o' ms = some out' := by
    intro r r' o o' hrr hoo out h
    have hids : ¬ (selectArgs ms).ids = [] := by
      intro h0
      unfold select at h
      simp only at h
      rw [if_pos h0] at h; cases h
    obtain ⟨hok, -⟩ := C55_select_reads_all interval start stop r o ms out h
    obtain ⟨b, hb⟩ := selectLoop_succeeds (selectArgs ms) interval start stop r' o' [] (by
      intro id hid
      have := hok id (hoo.mem_iff.2 hid)
      rcases hrr (metricsAsked start stop id) with ⟨h1, -⟩ | ⟨es, es', -, h2, -⟩
      · rw [h1] at this; cases this
      · have h3 : r' (selectRequest start stop id) = some es' := h2
        rw [h3]; rfl)
    refine ⟨b.map Prod.snd, ?_⟩
    unfold select
    simp only
    rw [if_neg hids, hb]; rfl
  constructor
  · constructor
    · intro h
      cases h' : select interval start stop read' order' ms with
      | none => rfl
      | some out =>
        obtain ⟨o, ho⟩ := some_of (sameReads_symm hsame) hp.symm out h'
        rw [h] at ho; cases ho
    · intro h
      cases h' : select interval start stop read order ms with
      | none => rfl
      | some out =>
        obtain ⟨o, ho⟩ := some_of hsame hp out h'
        rw [h] at ho; cases ho
  · intro out out' h h'
    have hok := (C55_select_reads_all interval start stop read order ms out h).1
    have hown' : ∀ req es', read' req = some es' → ∀ e' ∈ es', e'.sourceId = req.sourceId ∧
        (e'.tags.map Prod.fst).Nodup ∧ OneOfName (selectArgs ms).metric e' := by
      intro req es' he' e' hm
      rcases hsame req with ⟨-, h2⟩ | ⟨es, es2, h1, h2, h3⟩
      · rw [he'] at h2; cases h2
      · rw [he'] at h2
        cases h2
        obtain ⟨e, hem, hse⟩ := (sameAnswer_mem h3).2 e' hm
        obtain ⟨o1, o2, o3⟩ := hown _ _ h1 e hem
        exact ⟨hse.2.1.symm.trans o1, ((hse.2.2.2.2.1.map Prod.fst).nodup_iff).1 o2, oneOfName_same hse o3⟩
    have hback : ∀ t' ∈ labelsRead start stop read' order', ∃ t ∈ labelsRead start stop read order,
        ∀ p, p ∈ t' → p ∈ t := by
      intro t' ht'
      obtain ⟨e', hm, rfl⟩ := List.mem_map.1 ht'
      obtain ⟨id, hid, hm⟩ := List.mem_flatMap.1 hm
      rcases hsame (metricsAsked start stop id) with ⟨h1, -⟩ | ⟨es, es', h1, h2, h3⟩
      · have := hok id (hp.mem_iff.2 hid); rw [h1] at this; cases this
      · rw [h2, Option.getD_some] at hm
        obtain ⟨e, hem, hse⟩ := (sameAnswer_mem h3).2 e' hm
        refine ⟨pointTags e, List.mem_map.2 ⟨e, List.mem_flatMap.2 ⟨id, hp.mem_iff.2 hid, by
          rw [h1]; exact hem⟩, rfl⟩, ?_⟩
        intro p hpm
        obtain ⟨k, v⟩ := p
        have hk' := pointTags_keys (hown' _ _ h2 e' hm).2.1
        have hk := pointTags_keys (hown _ _ h1 e hem).2.1
        rw [← assoc_iff hk]
        rw [← assoc_iff hk'] at hpm
        rw [pointTags_same hse (hown _ _ h1 e hem).2.1 k]
        exact hpm
    have hun' : Unambiguous (labelsRead start stop read' order') := by
      intro t' ht' p hpt
      obtain ⟨t, ht, hsub⟩ := hback t' ht'
      obtain ⟨u1, u2⟩ := hun t ht p (hsub p hpt)
      refine ⟨u1, fun u' hu' q hq => ?_⟩
      obtain ⟨u, hu, hsub2⟩ := hback u' hu'
      exact u2 u hu q (hsub2 q hq)
    refine ⟨series_half interval start stop hsame hnd hp ms hown hun hun' h h', ?_⟩
    intro s' hs'
    obtain ⟨s, hs, h1, h2⟩ := series_half interval start stop (sameReads_symm hsame) (hp.nodup_iff.1 hnd) hp.symm ms
      hown' hun' hun h' h s' hs'
    exact ⟨s, hs, fun k => (h1 k).symm, h2.symm⟩

/-- Two sources, one with a gauge of two metrics, given in two orders. -/
def orderedGauge (flip : Bool) (src : String) : Envelope :=
  { timestamp := 5000000000, sourceId := src.toList,
    tags := if flip then [("b".toList, "y".toList), ("a".toList, "x".toList)]
      else [("a".toList, "x".toList), ("b".toList, "y".toList)],
    message := some (.gauge (if flip then [("mem".toList, ⟨[], 2⟩), ("cpu".toList, ⟨[], 1⟩)]
      else [("cpu".toList, ⟨[], 1⟩), ("mem".toList, ⟨[], 2⟩)])) }

def orderedReader (flip : Bool) (req : ReadRequest) : Option (List Envelope) :=
  if req.sourceId = "s".toList ∨ req.sourceId = "t".toList then some [{ orderedGauge flip "s" with sourceId := req.sourceId }]
  else some []

example :
    SameReads (orderedReader false) (orderedReader true) ∧ ["s".toList, "t".toList].Nodup ∧
    ["s".toList, "t".toList].Perm ["t".toList, "s".toList] ∧
    (∀ req es, orderedReader false req = some es → ∀ e ∈ es, e.sourceId = req.sourceId ∧ (e.tags.map Prod.fst).Nodup ∧
      OneOfName (metricOf [⟨.equal, "__name__".toList, "cpu".toList⟩]) e) ∧
    Unambiguous ((["s".toList, "t".toList].flatMap fun id =>
      (orderedReader false (metricsAsked 0 10000000000 id)).getD []).map pointTags) := by
  refine ⟨?_, by decide, List.Perm.swap .., ?_, ?_⟩
  · intro req
    right
    unfold orderedReader
    by_cases h : req.sourceId = "s".toList ∨ req.sourceId = "t".toList
    · rw [if_pos h, if_pos h]
      exact ⟨_, _, rfl, rfl, .cons ⟨rfl, rfl, rfl, List.Perm.refl _, List.Perm.swap .., List.Perm.swap ..⟩ .nil⟩
    · rw [if_neg h, if_neg h]
      exact ⟨_, _, rfl, rfl, .nil⟩
  · intro req es h e he
    unfold orderedReader at h
    split at h
    · cases h
      simp at he
      subst he
      refine ⟨rfl, by simp [orderedGauge], ?_⟩
      intro ms hms
      simp [orderedGauge] at hms
      subst hms
      decide
    · cases h; cases he
  · have hlist : ((["s".toList, "t".toList].flatMap fun id =>
        (orderedReader false (metricsAsked 0 10000000000 id)).getD []).map pointTags) =
        [[("a".toList, "x".toList), ("b".toList, "y".toList), ("source_id".toList, "s".toList)],
         [("a".toList, "x".toList), ("b".toList, "y".toList), ("source_id".toList, "t".toList)]] := by decide
    rw [hlist]
    have hno : ∀ t ∈ [[("a".toList, "x".toList), ("b".toList, "y".toList), ("source_id".toList, "s".toList)],
         [("a".toList, "x".toList), ("b".toList, "y".toList), ("source_id".toList, "t".toList)]],
         ∀ p ∈ t, '-' ∉ p.1 ∧ '-' ∉ p.2 := by decide
    intro t ht p hp
    refine ⟨(hno t ht p hp).1, ?_⟩
    rintro u - q - ⟨pre, post, hv, -⟩
    exact (hno t ht p hp).2 (by rw [hv]; simp)

end LogCache
