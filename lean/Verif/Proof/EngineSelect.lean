import Verif.Proof.Engine
import Verif.Spec.Engine
import Verif.Props.Query

/-! # The series of a plain selector in terms of the stored envelopes -/

namespace LogCache
open Spec

theorem pointTags_keys {e : Envelope} (h : (e.tags.map Prod.fst).Nodup) : ((pointTags e).map Prod.fst).Nodup := by
  unfold pointTags
  simp only
  split
  · exact (mapSet_keys _ _ _ h).1
  · exact (mapSet_keys _ _ _ (mapSet_keys _ _ _ h).1).1

/-- What one stored envelope becomes. -/
theorem selectPoint_shows {ms : List Matcher} (hp : PlainSelector ms) (e : Envelope) (hn : NamesSource ms e.sourceId) :
    ((∃ v, Shows ms e v) ↔ (selectPoint (selectArgs ms) 1000000000 e).isSome) ∧
    ∀ tags p, selectPoint (selectArgs ms) 1000000000 e = some (tags, p) →
      tags = pointTags e ∧ Shows ms e p.v ∧ p.t * 1000000 = secondOf e := by
  obtain ⟨h1, h2⟩ := C55_selector_partial (fun _ _ => true) ms 1000000000 e hp.2
  have hlab : (∀ m ∈ ms, Ordinary m → Satisfies (fun _ _ => true) m (pointTags e)) ↔
      ∀ m ∈ ms, Ordinary m → IsLabelOf e m.name m.value := by
    refine forall_congr' fun m => forall_congr' fun hm => forall_congr' fun ho => ?_
    obtain ⟨he, hv, _⟩ := hp.2 m hm ho
    rw [← pointTags_label]
    unfold Satisfies
    simp only [he]
    cases (pointTags e).lookup m.name with
    | none => simp [hv.symm]
    | some w => simp
  rw [hlab] at h1
  refine ⟨?_, ?_⟩
  · rw [h1]
    constructor
    · rintro ⟨v, _, hv, hl⟩; exact ⟨⟨v, hv⟩, hl⟩
    · rintro ⟨⟨v, hv⟩, hl⟩; exact ⟨v, hn, hv, hl⟩
  · intro tags p hsel
    obtain ⟨_, hv, ht⟩ := h2 tags p hsel
    have hl := (h1.1 (by rw [hsel]; rfl)).2
    refine ⟨?_, ⟨hn, hv, hl⟩, ?_⟩
    · unfold selectPoint at hsel
      split at hsel
      · rw [Option.map_eq_some_iff] at hsel
        obtain ⟨v, _, h⟩ := hsel
        exact (congrArg Prod.fst h).symm
      · cases hsel
    · unfold PointTime at ht
      rw [if_neg (by omega)] at ht
      obtain ⟨k, hk1, hk2, hk3⟩ := ht
      have : (1000000000 * k).tdiv 1000000 = 1000 * k := by
        rw [show (1000000000 * k : Int) = 1000000 * (1000 * k) by omega]
        exact Int.mul_tdiv_cancel_left _ (by omega)
      rw [hk3, this]
      unfold secondOf
      omega

theorem unambiguous_of_clear {log : Str → List Envelope} (ht : ∀ id, ∀ e ∈ log id, (e.tags.map Prod.fst).Nodup) (hc : ClearLabels log)
    {es : List Envelope} (hes : ∀ e ∈ es, ∃ id, e ∈ log id) : Unambiguous (es.map pointTags) := by
  have hmem : ∀ e ∈ es, ∀ p ∈ pointTags e, IsLabelOf e p.1 p.2 := by
    intro e he p hp
    obtain ⟨id, hid⟩ := hes e he
    rw [← pointTags_label]
    exact mem_lookup (pointTags_keys (ht id e hid)) hp
  intro t ht p hp
  obtain ⟨e, he, rfl⟩ := List.mem_map.1 ht
  obtain ⟨id, hid⟩ := hes e he
  obtain ⟨h1, h2⟩ := hc id e hid p.1 p.2 (hmem e he p hp)
  refine ⟨h1, ?_⟩
  intro u hu q hq
  obtain ⟨e', he', rfl⟩ := List.mem_map.1 hu
  obtain ⟨id', hid'⟩ := hes e' he'
  exact h2 id' e' hid' q.1 q.2 (hmem e' he' q hq)

theorem alike_iff {x e : Envelope} : Alike x e ↔ SameLabels (pointTags x) (pointTags e) := by
  unfold Alike SameLabels
  constructor
  · intro h k
    apply Option.ext
    intro v
    rw [pointTags_label, pointTags_label]
    exact h k v
  · intro h k v
    rw [← pointTags_label, ← pointTags_label, h k]

theorem alike_source {x e : Envelope} (h : Alike x e) : x.sourceId = e.sourceId := by
  have : IsLabelOf e "source_id".toList x.sourceId := (h _ _).1 (by unfold IsLabelOf; rw [if_pos rfl])
  unfold IsLabelOf at this
  rw [if_pos rfl] at this
  exact this

open Classical in
/-- The point an envelope contributes to the series of `e`. -/
noncomputable def pointIn (ms : List Matcher) (start stop : Int) (e x : Envelope) : Option Point :=
  if inWindow (start - 1000000000) stop x = true ∧ Alike x e then
    (selectPoint (selectArgs ms) 1000000000 x).map Prod.snd
  else none

theorem answer_metrics (a b : Int) (es : List Envelope) :
    answer a b (some [.gauge, .counter, .timer]) none es =
      es.filter fun x => inWindow a b x && typeOk (some [.gauge, .counter, .timer]) x := by
  unfold answer
  have : ∀ l : List Envelope, l.filterMap (project none) = l := by
    intro l
    induction l with
    | nil => rfl
    | cons x l ih => rw [List.filterMap_cons]; simp [project, ih]
  rw [this, List.filter_filter]
  apply List.filter_congr
  intro x _
  rw [Bool.and_comm]

theorem hasValue_type {m : Str} {x : Envelope} {v : PVal} (h : HasValue m x v) :
    typeOk (some [.gauge, .counter, .timer]) x = true := by
  unfold HasValue at h
  unfold typeOk kind
  cases hm : x.message with
  | none => rw [hm] at h; exact h.elim
  | some y =>
    rw [hm] at h
    cases y <;> first | exact h.elim | simp

theorem filterMap_filter_eq {α β : Type} (p : α → Bool) (f g : α → Option β) (l : List α)
    (h : ∀ x ∈ l, (if p x then f x else none) = g x) : (l.filter p).filterMap f = l.filterMap g := by
  induction l with
  | nil => rfl
  | cons a l ih =>
    have ha := h a (List.mem_cons_self ..)
    have ih := ih fun x hx => h x (List.mem_cons_of_mem _ hx)
    by_cases hp : p a = true
    · rw [List.filter_cons_of_pos hp, List.filterMap_cons, List.filterMap_cons, ih]
      rw [if_pos hp] at ha
      rw [ha]
    · rw [List.filter_cons_of_neg hp, ih, List.filterMap_cons]
      rw [if_neg hp] at ha
      rw [← ha]

/-- Picking from a concatenation what only one part has. -/
theorem flatMap_filterMap_one {α β γ : Type} (order : List α) (hnd : order.Nodup) (f : α → List β) (g : β → Option γ)
    (id : α) (hid : id ∈ order) (h : ∀ i ∈ order, i ≠ id → ∀ x ∈ f i, g x = none) :
    (order.flatMap f).filterMap g = (f id).filterMap g := by
  have hnone : ∀ l : List α, (∀ i ∈ l, ∀ x ∈ f i, g x = none) → (l.flatMap f).filterMap g = [] := by
    intro l hl
    rw [List.filterMap_eq_nil_iff]
    intro x hx
    obtain ⟨i, hi, hxi⟩ := List.mem_flatMap.1 hx
    exact hl i hi x hxi
  induction order with
  | nil => cases hid
  | cons a order ih =>
    rw [List.flatMap_cons, List.filterMap_append]
    rw [List.nodup_cons] at hnd
    rcases List.mem_cons.1 hid with rfl | hid'
    · rw [hnone order (fun i hi x hx => h i (List.mem_cons_of_mem _ hi) (fun he => hnd.1 (he ▸ hi)) x hx),
        List.append_nil]
    · have : (f a).filterMap g = [] := by
        rw [List.filterMap_eq_nil_iff]
        exact h a (List.mem_cons_self ..) (fun he => hnd.1 (he ▸ hid'))
      rw [this, List.nil_append]
      exact ih hnd.2 hid' fun i hi => h i (List.mem_cons_of_mem _ hi)

theorem filterMap_filter_map {α β γ : Type} (f : α → Option (β × γ)) (p : β × γ → Bool) (l : List α) :
    ((l.filterMap f).filter p).map Prod.snd =
      l.filterMap fun x => (f x).bind fun tp => if p tp = true then some tp.2 else none := by
  induction l with
  | nil => rfl
  | cons a l ih =>
    rw [List.filterMap_cons, List.filterMap_cons]
    cases f a with
    | none => exact ih
    | some tp =>
      simp only [Option.bind_some]
      by_cases h : p tp = true
      · rw [List.filter_cons_of_pos h, if_pos h, List.map_cons, ih]
      · rw [List.filter_cons_of_neg h, if_neg h, ih]

theorem flatMap_on {α β : Type} {l : List α} {f g : α → List β} (h : ∀ a ∈ l, f a = g a) :
    l.flatMap f = l.flatMap g := by
  induction l with
  | nil => rfl
  | cons a l ih =>
    rw [List.flatMap_cons, List.flatMap_cons, h a (List.mem_cons_self ..), ih fun x hx => h x (List.mem_cons_of_mem _ hx)]

/-- The answer of a plain selector. -/
theorem select_series {log : Str → List Envelope} (hs : StoredLogs log) (hc : ClearLabels log)
    {read : ReadRequest → Option (List Envelope)} {ms : List Matcher} (hr : AnswersFrom ms log read)
    (hp : PlainSelector ms) {order : List Str} (ho : order.Perm (selectArgs ms).ids) (start stop : Int) (h0 : stop ≠ 0)
    (hf1 : FitsInt64 (start - 1000000000)) (hf2 : FitsInt64 stop) :
    ∃ out, select 1000000000 start stop read order ms = some out ∧
      (∀ s ∈ out, PointsSorted s.points) ∧
      (∀ s ∈ out, (s.tags.map Prod.fst).Nodup ∧ ∃ e ∈ log e.sourceId, inWindow (start - 1000000000) stop e = true ∧
        (∃ v, Shows ms e v) ∧ CarriesLabels s.tags e ∧
        s.points = (log e.sourceId).filterMap (pointIn ms start stop e)) ∧
      (∀ id, ∀ e ∈ log id, inWindow (start - 1000000000) stop e = true → (∃ v, Shows ms e v) →
        ∃ s ∈ out, CarriesLabels s.tags e) ∧
      out.Pairwise fun s s' => ¬ SameLabels s.tags s'.tags := by
  classical
  have hnd : order.Nodup := ho.nodup_iff.2 (selectArgs_nodup ms)
  have hread : ∀ id, NamesSource ms id → read (metricsAsked start stop id) =
      some ((log id).filter fun x => inWindow (start - 1000000000) stop x && typeOk (some [.gauge, .counter, .timer]) x) := by
    intro id hid
    exact (hr id _ _ hid hf1 hf2 h0).trans (by rw [← answer_metrics])
  have hnam : ∀ id ∈ order, NamesSource ms id := fun id hid => (mem_selectIds ms id).1 (ho.mem_iff.1 hid)
  have hsome : (select 1000000000 start stop read order ms).isSome := by
    rw [select_iff 1000000000 start stop read order ms ho none]
    exact ⟨hp.1, fun id hid => ⟨_, hread id hid⟩⟩
  obtain ⟨out, hout⟩ := Option.isSome_iff_exists.1 hsome
  refine ⟨out, hout, ?_⟩
  obtain ⟨-, hbuild⟩ := C55_select_reads_all 1000000000 start stop read order ms out hout
  have hL : (order.flatMap fun id => ((read (metricsAsked start stop id)).getD []).filterMap
      (selectPoint (selectArgs ms) 1000000000)) =
      (order.flatMap fun id => (log id).filter fun x =>
        inWindow (start - 1000000000) stop x && typeOk (some [.gauge, .counter, .timer]) x).filterMap
      (selectPoint (selectArgs ms) 1000000000) := by
    rw [List.filterMap_flatMap]
    refine flatMap_on fun id hid => ?_
    rw [hread id (hnam id hid), Option.getD_some]
  rw [hL] at hbuild
  -- the envelopes read
  have hmemL : ∀ x, x ∈ (order.flatMap fun id => (log id).filter fun x =>
      inWindow (start - 1000000000) stop x && typeOk (some [.gauge, .counter, .timer]) x) ↔
      NamesSource ms x.sourceId ∧ x ∈ log x.sourceId ∧ inWindow (start - 1000000000) stop x = true ∧
        typeOk (some [.gauge, .counter, .timer]) x = true := by
    intro x
    rw [List.mem_flatMap]
    constructor
    · rintro ⟨id, hid, hx⟩
      rw [List.mem_filter, Bool.and_eq_true] at hx
      have := hs.own id x hx.1
      subst this
      exact ⟨(mem_selectIds ms _).1 (ho.mem_iff.1 hid), hx.1, hx.2⟩
    · rintro ⟨h1, h2, h3⟩
      refine ⟨x.sourceId, ho.mem_iff.2 ((mem_selectIds ms _).2 h1), ?_⟩
      rw [List.mem_filter, Bool.and_eq_true]
      exact ⟨h2, h3⟩
  have hpt : ∀ x, NamesSource ms x.sourceId → ∀ tp, selectPoint (selectArgs ms) 1000000000 x = some tp →
      tp.1 = pointTags x := by
    intro x hn tp htp
    exact ((selectPoint_shows hp x hn).2 tp.1 tp.2 htp).1
  generalize hLd : (order.flatMap fun id => (log id).filter fun x =>
      inWindow (start - 1000000000) stop x && typeOk (some [.gauge, .counter, .timer]) x) = L at *
  have hsub : ∀ t ∈ (L.filterMap (selectPoint (selectArgs ms) 1000000000)).map Prod.fst, ∃ x ∈ L, t = pointTags x := by
    intro t ht
    obtain ⟨tp, htp, rfl⟩ := List.mem_map.1 ht
    obtain ⟨x, hx, hsel⟩ := List.mem_filterMap.1 htp
    exact ⟨x, hx, hpt x ((hmemL x).1 hx).1 tp hsel⟩
  have hunL : Unambiguous (L.map pointTags) :=
    unambiguous_of_clear hs.tags hc fun e he => ⟨_, ((hmemL e).1 he).2.1⟩
  have hun : Unambiguous ((L.filterMap (selectPoint (selectArgs ms) 1000000000)).map Prod.fst) := by
    intro t ht p hpp
    obtain ⟨x, hx, rfl⟩ := hsub t ht
    obtain ⟨h1, h2⟩ := hunL _ (List.mem_map.2 ⟨x, hx, rfl⟩) p hpp
    refine ⟨h1, fun u hu q hq => ?_⟩
    obtain ⟨y, hy, rfl⟩ := hsub u hu
    exact h2 _ (List.mem_map.2 ⟨y, hy, rfl⟩) q hq
  have hndk : ∀ tp ∈ L.filterMap (selectPoint (selectArgs ms) 1000000000), (tp.1.map Prod.fst).Nodup := by
    intro tp htp
    obtain ⟨x, hx, he⟩ := hsub tp.1 (List.mem_map.2 ⟨tp, htp, rfl⟩)
    rw [he]
    exact pointTags_keys (hs.tags _ x ((hmemL x).1 hx).2.1)
  obtain ⟨c1, c2, c3⟩ := C54_series_partial _ hun hndk
  rw [← hbuild] at c1 c2 c3
  refine ⟨?_, ?_, ?_, c3⟩
  · refine C56_series_ordered_partial 1000000000 start stop
      (fun req => if ∃ id, NamesSource ms id ∧ req = metricsAsked start stop id then read req else none) ?_ order hnd ms out ?_ ?_
    · intro req es hre
      split at hre
      · rename_i h
        obtain ⟨id, hid, rfl⟩ := h
        rw [hread id hid] at hre
        have hre := Option.some.inj hre
        subst hre
        refine ⟨List.Pairwise.filter _ (hs.byTime id), ?_⟩
        intro e he
        exact hs.own id e (List.mem_filter.1 he).1
      · cases hre
    · have : (order.flatMap fun id => ((fun req => if ∃ id, NamesSource ms id ∧ req = metricsAsked start stop id then read req else none)
          (metricsAsked start stop id)).getD []) = L := by
        rw [← hLd]
        refine flatMap_on fun id hid => ?_
        simp only
        rw [if_pos ⟨id, hnam id hid, rfl⟩, hread id (hnam id hid), Option.getD_some]
      rw [this]
      exact hunL
    · rw [← hout]
      unfold select
      simp only
      rw [selectLoop_congr]
      intro id hid
      rw [if_pos ⟨id, hnam id hid, rfl⟩]
  · intro s hso
    obtain ⟨d1, d2⟩ := c1 s hso
    have hne : (L.filterMap (selectPoint (selectArgs ms) 1000000000)).filter
        (fun tp => decide (SameLabels tp.1 s.tags)) ≠ [] := by
      intro h
      rw [h] at d1
      exact d2 d1
    obtain ⟨tp0, htp0⟩ := List.exists_mem_of_ne_nil _ hne
    rw [List.mem_filter, decide_eq_true_eq] at htp0
    -- the tags of the series are those of one of its points
    rw [hbuild] at hso
    obtain ⟨tp, rest, hf, hst⟩ := (builder_series _ s).1 hso
    have htp : tp ∈ L.filterMap (selectPoint (selectArgs ms) 1000000000) := by
      have : tp ∈ (L.filterMap (selectPoint (selectArgs ms) 1000000000)).filter
          (fun x => decide (seriesId x.1 = seriesId s.tags)) := by rw [hf]; simp
      exact (List.mem_filter.1 this).1
    have hstags : s.tags = tp.1 := by rw [hst]
    obtain ⟨e, heL, hsel⟩ := List.mem_filterMap.1 htp
    obtain ⟨e1, e2, e3, e4⟩ := (hmemL e).1 heL
    have htags : s.tags = pointTags e := by rw [hstags]; exact hpt e e1 tp hsel
    refine ⟨by rw [hstags]; exact hndk tp htp, e, e2, e3, (selectPoint_shows hp e e1).1.2 (by rw [hsel]; rfl), ?_, ?_⟩
    · intro k v
      rw [htags]
      exact pointTags_label e k v
    · rw [d1, htags, filterMap_filter_map, ← hLd]
      have hsrc : ∀ i, ∀ x ∈ log i, NamesSource ms i →
          ((selectPoint (selectArgs ms) 1000000000 x).bind fun tp =>
            if decide (SameLabels tp.1 (pointTags e)) = true then some tp.2 else none) =
          if Alike x e then (selectPoint (selectArgs ms) 1000000000 x).map Prod.snd else none := by
        intro i x hx hi
        have hxi := hs.own i x hx
        subst hxi
        cases hsx : selectPoint (selectArgs ms) 1000000000 x with
        | none => simp
        | some tpx =>
          rw [Option.bind_some, hpt x hi tpx hsx, Option.map_some]
          by_cases ha : Alike x e
          · rw [if_pos ha, if_pos (decide_eq_true (alike_iff.1 ha))]
          · rw [if_neg ha, if_neg]
            rw [decide_eq_true_eq, ← alike_iff]
            exact ha
      rw [flatMap_filterMap_one order hnd _ _ e.sourceId (ho.mem_iff.2 ((mem_selectIds ms _).2 e1))]
      · apply filterMap_filter_eq
        intro x hx
        have hn : NamesSource ms x.sourceId := by rw [hs.own _ x hx]; exact e1
        rw [hsrc _ x hx e1]
        unfold pointIn
        by_cases hw : inWindow (start - 1000000000) stop x = true
        · simp only [hw, Bool.true_and, true_and]
          by_cases ht : typeOk (some [.gauge, .counter, .timer]) x = true
          · rw [if_pos ht]
          · rw [if_neg ht]
            have hnone : selectPoint (selectArgs ms) 1000000000 x = none := by
              cases hsx : selectPoint (selectArgs ms) 1000000000 x with
              | none => rfl
              | some tpx =>
                exfalso
                obtain ⟨v, hv⟩ := (selectPoint_shows hp x hn).1.2 (by rw [hsx]; rfl)
                exact ht (hasValue_type hv.2.1)
            rw [hnone]
            simp
        · simp [hw]
      · intro i hi hne x hx
        have hx := (List.mem_filter.1 hx).1
        rw [hsrc i x hx ((mem_selectIds ms _).1 (ho.mem_iff.1 hi)), if_neg]
        intro ha
        apply hne
        rw [← hs.own i x hx]
        exact alike_source ha
  · intro id e he hw hsh
    have := hs.own id e he
    subst this
    obtain ⟨v, hv⟩ := hsh
    have hn := hv.1
    have heL : e ∈ L := (hmemL e).2 ⟨hn, he, hw, hasValue_type hv.2.1⟩
    obtain ⟨tp, htp⟩ := Option.isSome_iff_exists.1 ((selectPoint_shows hp e hn).1.1 ⟨v, hv⟩)
    obtain ⟨s, hso, hsame⟩ := c2 tp (List.mem_filterMap.2 ⟨e, heL, htp⟩)
    refine ⟨s, hso, fun k w => ?_⟩
    rw [← hsame k, hpt e hn tp htp]
    exact pointTags_label e k w

end LogCache
