import Verif.Proof.Promql
import Verif.Proof.Maps

/-! # Lemmas about series ids and the series builder -/

namespace LogCache

open Spec

theorem splitOn_tail {c : Char} (v : Str) : ∃ x xs, splitOn c v = x :: xs ∧
    v = x ++ (xs.map (c :: ·)).flatten := by
  induction v with
  | nil => exact ⟨[], [], rfl, rfl⟩
  | cons a s ih =>
    obtain ⟨x, xs, h1, h2⟩ := ih
    rw [splitOn]
    by_cases ha : a = c
    · rw [if_pos ha, h1]
      exact ⟨[], x :: xs, rfl, by simp [ha, ← h2]⟩
    · rw [if_neg ha, h1]
      exact ⟨a :: x, xs, rfl, by simp [← h2]⟩

theorem splitOn_inj {c : Char} {v w : Str} (h : splitOn c v = splitOn c w) : v = w := by
  obtain ⟨x, xs, h1, h2⟩ := splitOn_tail (c := c) v
  obtain ⟨y, ys, h3, h4⟩ := splitOn_tail (c := c) w
  rw [h1, h3] at h
  cases h
  rw [h2, h4]

theorem hasSegment_of_tail {v x w : Str} {xs : List Str} (h : splitOn '-' v = x :: xs) (hw : w ∈ xs) :
    HasSegment w v := by
  obtain ⟨y, ys, h1, h2⟩ := splitOn_tail (c := '-') v
  rw [h] at h1
  cases h1
  obtain ⟨l, r, rfl⟩ := List.append_of_mem hw
  refine ⟨x ++ (l.map ('-' :: ·)).flatten, (r.map ('-' :: ·)).flatten, by rw [h2]; simp, ?_⟩
  cases r with
  | nil => exact .inl rfl
  | cons a r => exact .inr ⟨_, rfl⟩

/-- The text of a list of labels. -/
def encode (l : List (Str × Str)) : Str := (l.map fun p => '-' :: p.1 ++ '-' :: p.2).flatten

/-- The dash-separated segments of that text. -/
def segs (l : List (Str × Str)) : List Str := (l.map fun p => p.1 :: splitOn '-' p.2).flatten

theorem split_encode (l : List (Str × Str)) (h : ∀ p ∈ l, '-' ∉ p.1) (v : Str) :
    splitOn '-' (v ++ encode l) = splitOn '-' v ++ segs l := by
  induction l generalizing v with
  | nil => simp [encode, segs]
  | cons p l ih =>
    have e : v ++ encode (p :: l) = v ++ '-' :: (p.1 ++ '-' :: (p.2 ++ encode l)) := by
      simp [encode]
    rw [e, splitOn_append, splitOn_append, splitOn_free (h p (List.mem_cons_self ..)),
      ih (fun q hq => h q (List.mem_cons_of_mem _ hq))]
    simp [segs]

theorem append_key_cancel (K : Str → Prop) {a b r s : List Str} (ha : ∀ x ∈ a, ¬ K x) (hb : ∀ x ∈ b, ¬ K x)
    (hr : ∀ x, r.head? = some x → K x) (hs : ∀ x, s.head? = some x → K x) (h : a ++ r = b ++ s) :
    a = b ∧ r = s := by
  induction a generalizing b with
  | nil =>
    cases b with
    | nil => exact ⟨rfl, h⟩
    | cons y b =>
      simp at h
      exact absurd (hr y (by rw [h]; rfl)) (hb y (List.mem_cons_self ..))
  | cons x a ih =>
    cases b with
    | nil =>
      simp at h
      exact absurd (hs x (by rw [← h]; rfl)) (ha x (List.mem_cons_self ..))
    | cons y b =>
      simp at h
      obtain ⟨h1, h2⟩ := ih (fun z hz => ha z (List.mem_cons_of_mem _ hz))
        (fun z hz => hb z (List.mem_cons_of_mem _ hz)) h.2
      exact ⟨by rw [h.1, h1], h2⟩

theorem segs_inj (K : Str → Prop) : ∀ {l m : List (Str × Str)},
    (∀ p ∈ l, K p.1 ∧ ∀ x xs, splitOn '-' p.2 = x :: xs → ∀ w ∈ xs, ¬ K w) →
    (∀ p ∈ m, K p.1 ∧ ∀ x xs, splitOn '-' p.2 = x :: xs → ∀ w ∈ xs, ¬ K w) →
    segs l = segs m → l = m
  | [], [], _, _, _ => rfl
  | [], p :: m, _, _, h => by simp [segs] at h
  | p :: l, [], _, _, h => by simp [segs] at h
  | p :: l, q :: m, hl, hm, h => by
    obtain ⟨x, xs, h1, _⟩ := splitOn_tail (c := '-') p.2
    obtain ⟨y, ys, h2, _⟩ := splitOn_tail (c := '-') q.2
    have e1 : segs (p :: l) = p.1 :: x :: (xs ++ segs l) := by simp [segs, h1]
    have e2 : segs (q :: m) = q.1 :: y :: (ys ++ segs m) := by simp [segs, h2]
    rw [e1, e2] at h
    simp only [List.cons.injEq] at h
    obtain ⟨hk, hxy, ht⟩ := h
    have hhead : ∀ (l : List (Str × Str)),
        (∀ p ∈ l, K p.1 ∧ ∀ x xs, splitOn '-' p.2 = x :: xs → ∀ w ∈ xs, ¬ K w) →
        ∀ x, (segs l).head? = some x → K x := by
      intro l hl z hz
      cases l with
      | nil => simp [segs] at hz
      | cons p l =>
        simp [segs] at hz
        subst hz
        exact (hl p (List.mem_cons_self ..)).1
    have hl' := fun p hp => hl p (List.mem_cons_of_mem _ hp)
    have hm' := fun p hp => hm p (List.mem_cons_of_mem _ hp)
    obtain ⟨h3, h4⟩ := append_key_cancel K ((hl p (List.mem_cons_self ..)).2 x xs h1)
      ((hm q (List.mem_cons_self ..)).2 y ys h2) (hhead l hl') (hhead m hm') ht
    have hv : p.2 = q.2 := splitOn_inj (by rw [h1, h2, hxy, h3])
    rw [segs_inj K hl' hm' h4]
    congr 1
    exact Prod.ext hk hv

/-- The labels of a series in the order `getSeriesID` writes them. -/
def sortedTags (t : List (Str × Str)) : List (Str × Str) :=
  ((t.map Prod.fst).mergeSort strLe).map fun k => (k, (t.lookup k).getD [])

theorem seriesId_eq (t : List (Str × Str)) : seriesId t = encode (sortedTags t) := by
  unfold seriesId encode sortedTags
  rw [List.map_map]; rfl

theorem strLe_iff {a b : Str} : strLe a b = true ↔ a ≤ b := by
  unfold strLe
  simp only [Bool.not_eq_true', decide_eq_false_iff_not]
  exact List.not_lt

theorem lookup_isSome_mem {β : Type} {t : List (Str × β)} {k : Str} :
    (t.lookup k).isSome ↔ k ∈ t.map Prod.fst := by
  induction t with
  | nil => simp
  | cons p t ih =>
    obtain ⟨a, b⟩ := p
    by_cases h : k = a
    · subst h; simp
    · have : (k == a) = false := by simpa using h
      simp only [List.lookup, this, List.map_cons, List.mem_cons, h, false_or]
      exact ih

theorem lookup_mem {β : Type} {t : List (Str × β)} {k : Str} {v : β} (h : t.lookup k = some v) :
    (k, v) ∈ t := by
  induction t with
  | nil => simp at h
  | cons p t ih =>
    obtain ⟨a, b⟩ := p
    by_cases hk : k = a
    · subst hk; simp at h; subst h; simp
    · have : (k == a) = false := by simpa using hk
      simp only [List.lookup, this] at h
      exact List.mem_cons_of_mem _ (ih h)

theorem sortedKeys_eq {t u : List (Str × Str)} (ht : (t.map Prod.fst).Nodup) (hu : (u.map Prod.fst).Nodup)
    (h : ∀ k, k ∈ t.map Prod.fst ↔ k ∈ u.map Prod.fst) :
    (t.map Prod.fst).mergeSort strLe = (u.map Prod.fst).mergeSort strLe := by
  have hs : ∀ l : List Str, List.Pairwise (fun a b => strLe a b = true) (l.mergeSort strLe) :=
    List.pairwise_mergeSort
      (fun a b c h1 h2 => strLe_iff.2 (List.le_trans (strLe_iff.1 h1) (strLe_iff.1 h2)))
      (fun a b => by
        rw [Bool.or_eq_true, strLe_iff, strLe_iff]; exact List.le_total a b)
  apply List.Perm.eq_of_pairwise (le := fun a b => strLe a b = true)
    (fun a b _ _ h1 h2 => List.le_antisymm (strLe_iff.1 h1) (strLe_iff.1 h2)) (hs _) (hs _)
  exact (List.mergeSort_perm _ _).trans (((List.perm_ext_iff_of_nodup ht hu).2 h).trans
    (List.mergeSort_perm _ _).symm)

theorem seriesId_congr {t u : List (Str × Str)} (ht : (t.map Prod.fst).Nodup) (hu : (u.map Prod.fst).Nodup)
    (h : SameLabels t u) : seriesId t = seriesId u := by
  rw [seriesId_eq, seriesId_eq, sortedTags, sortedTags,
    sortedKeys_eq ht hu (fun k => by rw [← lookup_isSome_mem, ← lookup_isSome_mem, h k])]
  congr 1
  apply List.map_congr_left
  intro k _
  rw [h k]

theorem sortedTags_lookup (t : List (Str × Str)) (k : Str) : (sortedTags t).lookup k = t.lookup k := by
  have hl : ∀ (ks : List Str), (ks.map fun k => (k, (t.lookup k).getD [])).lookup k =
      if k ∈ ks then some ((t.lookup k).getD []) else none := by
    intro ks
    induction ks with
    | nil => simp
    | cons a ks ih =>
      by_cases h : k = a
      · subst h; simp
      · have : (k == a) = false := by simpa using h
        simp only [List.map_cons, List.lookup, this, List.mem_cons, h, false_or]
        exact ih
  rw [sortedTags, hl]
  have hm : k ∈ (t.map Prod.fst).mergeSort strLe ↔ k ∈ t.map Prod.fst :=
    (List.mergeSort_perm _ _).mem_iff
  by_cases hk : k ∈ t.map Prod.fst
  · rw [if_pos (hm.2 hk)]
    obtain ⟨v, hv⟩ := Option.isSome_iff_exists.1 (lookup_isSome_mem.2 hk)
    rw [hv]; rfl
  · rw [if_neg (fun h => hk (hm.1 h))]
    cases hv : t.lookup k with
    | none => rfl
    | some v => exact absurd (lookup_isSome_mem.1 (by rw [hv]; rfl)) hk

theorem sortedTags_mem {t : List (Str × Str)} {p : Str × Str} (h : p ∈ sortedTags t) : p ∈ t := by
  unfold sortedTags at h
  obtain ⟨k, hk, rfl⟩ := List.mem_map.1 h
  have hk' := lookup_isSome_mem.2 ((List.mergeSort_perm _ _).mem_iff.1 hk)
  obtain ⟨v, hv⟩ := Option.isSome_iff_exists.1 hk'
  rw [hv]
  exact lookup_mem hv

theorem seriesId_inj {ts : List (List (Str × Str))} (hun : Unambiguous ts)
    {t u : List (Str × Str)} (ht : t ∈ ts) (hu : u ∈ ts) (h : seriesId t = seriesId u) : SameLabels t u := by
  rw [seriesId_eq, seriesId_eq] at h
  have hd : ∀ t ∈ ts, ∀ p ∈ sortedTags t, '-' ∉ p.1 := fun t ht p hp => (hun t ht p (sortedTags_mem hp)).1
  have h1 := split_encode (sortedTags t) (hd t ht) []
  have h2 := split_encode (sortedTags u) (hd u hu) []
  rw [List.nil_append] at h1 h2
  rw [h, h2] at h1
  have h3 := List.append_cancel_left h1
  let K : Str → Prop := fun k => ∃ u ∈ ts, ∃ q ∈ u, q.1 = k
  have hK : ∀ t ∈ ts, ∀ p ∈ sortedTags t,
      K p.1 ∧ ∀ x xs, splitOn '-' p.2 = x :: xs → ∀ w ∈ xs, ¬ K w := by
    intro t ht p hp
    refine ⟨⟨t, ht, p, sortedTags_mem hp, rfl⟩, ?_⟩
    rintro x xs hs w hw ⟨u, hu, q, hq, rfl⟩
    exact (hun t ht p (sortedTags_mem hp)).2 u hu q hq (hasSegment_of_tail hs hw)
  have h4 := segs_inj K (hK u hu) (hK t ht) h3
  intro k
  rw [← sortedTags_lookup t, ← sortedTags_lookup u, h4]

/-! ## The builder -/

theorem builderAdd_lookup (b : List (Str × SeriesData)) (tp : List (Str × Str) × Point) (id : Str) :
    (builderAdd b tp).lookup id =
      if id = seriesId tp.1 then
        some { tags := ((b.lookup id).getD ⟨tp.1, []⟩).tags,
               points := ((b.lookup id).getD ⟨tp.1, []⟩).points ++ [tp.2] }
      else b.lookup id := by
  unfold builderAdd
  rw [mapSet_lookup]
  by_cases h : id = seriesId tp.1
  · subst h; rfl
  · rw [if_neg h, if_neg h]

theorem builder_spec (tps : List (List (Str × Str) × Point)) :
    ((tps.foldl builderAdd []).map Prod.fst).Nodup ∧
    ∀ id, (tps.foldl builderAdd []).lookup id =
      match tps.filter (fun tp => decide (seriesId tp.1 = id)) with
      | [] => none
      | tp :: rest => some ⟨tp.1, (tp :: rest).map Prod.snd⟩ := by
  suffices h : ∀ l : List (List (Str × Str) × Point),
      (((l.reverse).foldl builderAdd []).map Prod.fst).Nodup ∧
      ∀ id, ((l.reverse).foldl builderAdd []).lookup id =
        match (l.reverse).filter (fun tp => decide (seriesId tp.1 = id)) with
        | [] => none
        | tp :: rest => some ⟨tp.1, (tp :: rest).map Prod.snd⟩ by
    have := h tps.reverse
    rwa [List.reverse_reverse] at this
  intro l
  induction l with
  | nil => exact ⟨List.nodup_nil, fun _ => rfl⟩
  | cons tp l ih =>
    rw [List.reverse_cons, List.foldl_append, List.foldl_cons, List.foldl_nil]
    refine ⟨(mapSet_keys _ _ _ ih.1).1, ?_⟩
    intro id
    rw [builderAdd_lookup, ih.2 id, List.filter_append]
    by_cases h : id = seriesId tp.1
    · rw [if_pos h]
      rw [List.filter_cons_of_pos (by simp [h])]
      cases hf : (l.reverse).filter (fun tp => decide (seriesId tp.1 = id)) with
      | nil => rfl
      | cons a rest => simp
    · rw [if_neg h]
      have : decide (seriesId tp.1 = id) = false := by simpa using fun e => h e.symm
      rw [List.filter_cons_of_neg (by simp [this])]
      simp

theorem mem_lookup {β : Type} {t : List (Str × β)} (h : (t.map Prod.fst).Nodup) {k : Str} {v : β}
    (hm : (k, v) ∈ t) : t.lookup k = some v := by
  induction t with
  | nil => cases hm
  | cons p t ih =>
    obtain ⟨a, b⟩ := p
    rw [List.map_cons, List.nodup_cons] at h
    rcases List.mem_cons.1 hm with e | hm'
    · cases e; simp
    · have : k ≠ a := by rintro rfl; exact h.1 (List.mem_map.2 ⟨_, hm', rfl⟩)
      have : (k == a) = false := by simpa using this
      simp only [List.lookup, this]
      exact ih h.2 hm'

/-- What the series built from a list of points are. -/
theorem builder_series (tps : List (List (Str × Str) × Point)) (s : SeriesData) :
    s ∈ (tps.foldl builderAdd []).map Prod.snd ↔
      ∃ tp rest, tps.filter (fun x => decide (seriesId x.1 = seriesId s.tags)) = tp :: rest ∧
        s = ⟨tp.1, (tp :: rest).map Prod.snd⟩ := by
  obtain ⟨hnd, hl⟩ := builder_spec tps
  constructor
  · intro h
    obtain ⟨⟨id, s'⟩, hm, rfl⟩ := List.mem_map.1 h
    have h1 := mem_lookup hnd hm
    rw [hl id] at h1
    cases hf : tps.filter (fun tp => decide (seriesId tp.1 = id)) with
    | nil => rw [hf] at h1; cases h1
    | cons tp rest =>
      rw [hf] at h1
      simp only [Option.some.injEq] at h1
      have hid : seriesId tp.1 = id := by
        have : tp ∈ tps.filter (fun tp => decide (seriesId tp.1 = id)) := by rw [hf]; simp
        simpa using (List.mem_filter.1 this).2
      refine ⟨tp, rest, ?_, h1.symm⟩
      rw [← h1]
      simp only [hid]
      exact hf
  · rintro ⟨tp, rest, hf, hs⟩
    have := hl (seriesId s.tags)
    rw [hf] at this
    simp only at this
    rw [← hs] at this
    exact List.mem_map.2 ⟨_, lookup_mem this, rfl⟩

theorem builder_distinct (tps : List (List (Str × Str) × Point)) :
    ((tps.foldl builderAdd []).map Prod.snd).Pairwise (fun s s' => seriesId s.tags ≠ seriesId s'.tags) := by
  obtain ⟨hnd, hl⟩ := builder_spec tps
  have hid : ∀ p ∈ tps.foldl builderAdd [], p.1 = seriesId p.2.tags := by
    rintro ⟨id, s⟩ hm
    have h1 := mem_lookup hnd hm
    rw [hl id] at h1
    cases hf : tps.filter (fun tp => decide (seriesId tp.1 = id)) with
    | nil => rw [hf] at h1; cases h1
    | cons tp rest =>
      rw [hf] at h1
      simp only [Option.some.injEq] at h1
      have : tp ∈ tps.filter (fun tp => decide (seriesId tp.1 = id)) := by rw [hf]; simp
      rw [← h1]
      have h2 := (List.mem_filter.1 this).2
      exact (of_decide_eq_true h2).symm
  rw [List.pairwise_map]
  rw [List.nodup_iff_pairwise_ne, List.pairwise_map] at hnd
  refine List.Pairwise.imp_of_mem ?_ hnd
  intro a b ha hb hab
  rw [← hid a ha, ← hid b hb]
  exact hab

/-! ## Select as one fold -/

theorem selectLoop_some (a : SelectArgs) (interval start stop : Int)
    (read : ReadRequest → Option (List Envelope)) : ∀ (ids : List Str) (b out : List (Str × SeriesData)),
    selectLoop a interval start stop read ids b = some out →
    (∀ id ∈ ids, (read (selectRequest start stop id)).isSome) ∧
    out = (ids.flatMap fun id => ((read (selectRequest start stop id)).getD []).filterMap
      (selectPoint a interval)).foldl builderAdd b
  | [], b, out, h => by
    rw [selectLoop] at h; cases h; exact ⟨by simp, rfl⟩
  | id :: ids, b, out, h => by
    rw [selectLoop] at h
    cases hr : read (selectRequest start stop id) with
    | none => rw [hr] at h; cases h
    | some es =>
      rw [hr] at h
      obtain ⟨h1, h2⟩ := selectLoop_some a interval start stop read ids _ out h
      refine ⟨?_, ?_⟩
      · intro x hx
        rcases List.mem_cons.1 hx with rfl | hx
        · rw [hr]; rfl
        · exact h1 x hx
      · rw [List.flatMap_cons, List.foldl_append, hr]; exact h2

end LogCache
