import Verif.Proof.EngineSelect

/-! # What is shown of a series, in terms of the stored envelopes -/

namespace LogCache
open Spec

theorem filterMap_last {α β : Type} (f : α → Option β) (l : List α) (y : β) :
    (l.filterMap f).getLast? = some y ↔ ∃ pre e post, l = pre ++ e :: post ∧ f e = some y ∧ ∀ x ∈ post, f x = none := by
  induction l using List.reverseRecOn with
  | nil => simp
  | append_singleton l a ih =>
    rw [List.filterMap_append]
    cases ha : f a with
    | none =>
      have : [a].filterMap f = [] := by simp [ha]
      rw [this, List.append_nil, ih]
      constructor
      · rintro ⟨pre, e, post, rfl, h1, h2⟩
        refine ⟨pre, e, post ++ [a], by simp, h1, ?_⟩
        intro x hx
        rcases List.mem_append.1 hx with h | h
        · exact h2 x h
        · rw [List.mem_singleton.1 h]; exact ha
      · rintro ⟨pre, e, post, he, h1, h2⟩
        rcases List.eq_nil_or_concat post with rfl | ⟨post', z, rfl⟩
        · have := List.append_inj' he rfl
          have hz : a = e := by simpa using this.2
          rw [hz, h1] at ha; cases ha
        · have he' : l ++ [a] = (pre ++ e :: post') ++ [z] := by rw [he]; simp
          have := List.append_inj' he' rfl
          exact ⟨pre, e, post', this.1, h1, fun x hx => h2 x (by simp [hx])⟩
    | some b =>
      have : [a].filterMap f = [b] := by simp [ha]
      rw [this, List.getLast?_concat, Option.some.injEq]
      constructor
      · rintro rfl
        exact ⟨l, a, [], rfl, ha, by simp⟩
      · rintro ⟨pre, e, post, he, h1, h2⟩
        rcases List.eq_nil_or_concat post with rfl | ⟨post', z, rfl⟩
        · have := List.append_inj' he rfl
          have hz : a = e := by simpa using this.2
          rw [hz, h1] at ha
          exact (Option.some.inj ha).symm
        · have he' : l ++ [a] = (pre ++ e :: post') ++ [z] := by rw [he]; simp
          have hz := (List.append_inj' he' rfl).2
          have hz : a = z := by simpa using hz
          have := h2 z (by simp)
          rw [← hz, ha] at this; cases this

theorem filterMap_head {α β : Type} (f : α → Option β) (l : List α) (y : β) :
    (l.filterMap f).head? = some y ↔ ∃ pre e post, l = pre ++ e :: post ∧ f e = some y ∧ ∀ x ∈ pre, f x = none := by
  induction l with
  | nil => simp
  | cons a l ih =>
    rw [List.filterMap_cons]
    cases ha : f a with
    | none =>
      simp only
      rw [ih]
      constructor
      · rintro ⟨pre, e, post, rfl, h1, h2⟩
        refine ⟨a :: pre, e, post, rfl, h1, ?_⟩
        intro x hx
        rcases List.mem_cons.1 hx with rfl | h
        · exact ha
        · exact h2 x h
      · rintro ⟨pre, e, post, he, h1, h2⟩
        cases pre with
        | nil => cases he; rw [h1] at ha; cases ha
        | cons b pre =>
          rw [List.cons_append] at he
          obtain ⟨rfl, rfl⟩ := List.cons.inj he
          exact ⟨pre, e, post, rfl, h1, fun x hx => h2 x (List.mem_cons_of_mem _ hx)⟩
    | some b =>
      simp only [List.head?_cons, Option.some.injEq]
      constructor
      · rintro rfl
        exact ⟨[], a, l, rfl, ha, by simp⟩
      · rintro ⟨pre, e, post, he, h1, h2⟩
        cases pre with
        | nil => cases he; rw [h1] at ha; exact (Option.some.inj ha).symm
        | cons c pre =>
          rw [List.cons_append] at he
          obtain ⟨rfl, rfl⟩ := List.cons.inj he
          rw [h2 a (List.mem_cons_self ..)] at ha; cases ha

theorem filter_filterMap' {α β : Type} (f : α → Option β) (p : β → Bool) (l : List α) :
    (l.filterMap f).filter p = l.filterMap fun x => (f x).bind fun y => if p y = true then some y else none := by
  induction l with
  | nil => rfl
  | cons a l ih =>
    rw [List.filterMap_cons, List.filterMap_cons]
    cases f a with
    | none => exact ih
    | some y =>
      simp only [Option.bind_some]
      by_cases h : p y = true
      · rw [List.filter_cons_of_pos h, if_pos h, ih]
      · rw [List.filter_cons_of_neg h, if_neg h, ih]

/-- The envelopes behind the points of a series with a property. -/
theorem pointIn_some {ms : List Matcher} (hp : PlainSelector ms) {start stop : Int} {e x : Envelope}
    (hn : NamesSource ms x.sourceId) {p : Point} (h : pointIn ms start stop e x = some p) :
    Shows ms x p.v ∧ Alike x e ∧ p.t * 1000000 = secondOf x ∧ start - 1000000000 ≤ x.timestamp ∧ x.timestamp < stop := by
  unfold pointIn at h
  split at h
  · rename_i hw
    rw [Option.map_eq_some_iff] at h
    obtain ⟨⟨tags, p'⟩, hsel, rfl⟩ := h
    obtain ⟨_, h2, h3⟩ := (selectPoint_shows hp x hn).2 tags p' hsel
    have := hw.1
    unfold inWindow at this
    rw [Bool.and_eq_true, decide_eq_true_eq, decide_eq_true_eq] at this
    exact ⟨h2, hw.2, h3, this⟩
  · cases h

theorem pointIn_isSome {ms : List Matcher} (hp : PlainSelector ms) {start stop : Int} {e x : Envelope}
    (h : InSeries ms e x) (h1 : start - 1000000000 ≤ x.timestamp) (h2 : x.timestamp < stop) :
    ∃ p, pointIn ms start stop e x = some p := by
  obtain ⟨⟨v, hv⟩, ha⟩ := h
  obtain ⟨tp, htp⟩ := Option.isSome_iff_exists.1 ((selectPoint_shows hp x hv.1).1.1 ⟨v, hv⟩)
  refine ⟨tp.2, ?_⟩
  unfold pointIn
  rw [if_pos ⟨by unfold inWindow; simp [h1, h2], ha⟩, htp]
  rfl

/-- Points of a series with a property of their time, and envelopes with that property of
their second. -/
theorem bind_none_iff {ms : List Matcher} (hp : PlainSelector ms) {start stop : Int} {e : Envelope}
    (P : Int → Bool) (R : Envelope → Prop) (hPR : ∀ x t, t * 1000000 = secondOf x → start - 1000000000 ≤ x.timestamp →
      x.timestamp < stop → (P t = true ↔ R x)) (hR : ∀ x, R x → start - 1000000000 ≤ x.timestamp ∧ x.timestamp < stop)
    (x : Envelope) (hn : NamesSource ms x.sourceId) :
    ((pointIn ms start stop e x).bind fun p => if P p.t = true then some p else none) = none ↔
      ¬ (InSeries ms e x ∧ R x) := by
  constructor
  · rintro h ⟨hi, hr⟩
    obtain ⟨p, hpt⟩ := pointIn_isSome hp hi (hR x hr).1 (hR x hr).2
    obtain ⟨_, _, h3, h4, h5⟩ := pointIn_some hp hn hpt
    rw [hpt, Option.bind_some, if_pos ((hPR x p.t h3 h4 h5).2 hr)] at h
    cases h
  · intro h
    cases hpt : pointIn ms start stop e x with
    | none => rfl
    | some p =>
      obtain ⟨h1, h2, h3, h4, h5⟩ := pointIn_some hp hn hpt
      rw [Option.bind_some, if_neg]
      intro hP
      exact h ⟨⟨⟨_, h1⟩, h2⟩, (hPR x p.t h3 h4 h5).1 hP⟩

theorem bind_some_of {ms : List Matcher} (hp : PlainSelector ms) {start stop : Int} {e : Envelope}
    (P : Int → Bool) (R : Envelope → Prop) (hPR : ∀ x t, t * 1000000 = secondOf x → start - 1000000000 ≤ x.timestamp →
      x.timestamp < stop → (P t = true ↔ R x)) (x : Envelope) (hn : NamesSource ms x.sourceId) (p : Point)
    (h : ((pointIn ms start stop e x).bind fun p => if P p.t = true then some p else none) = some p) :
    Shows ms x p.v ∧ InSeries ms e x ∧ R x := by
  rw [Option.bind_eq_some_iff] at h
  obtain ⟨q, hq, h⟩ := h
  split at h
  · rename_i hP
    cases h
    obtain ⟨h1, h2, h3, h4, h5⟩ := pointIn_some hp hn hq
    exact ⟨h1, ⟨⟨_, h1⟩, h2⟩, (hPR x _ h3 h4 h5).1 hP⟩
  · cases h

/-- What a step shows of a series. -/
theorem shownAt_envelopes {ms : List Matcher} (hp : PlainSelector ms) {start stop : Int} {e : Envelope}
    {es : List Envelope} (hn : ∀ x ∈ es, NamesSource ms x.sourceId) {t : Int} (hlow : start + lookback * 1000000 ≤ t * 1000000) :
    ∃ o, StepShows es ms e stop (t * 1000000) o ∧
      (shownAt (es.filterMap (pointIn ms start stop e)) t).map (·.v) = o.map Prod.snd := by
  have hsec : ∀ x : Envelope, secondOf x ≤ x.timestamp := by
    intro x
    unfold secondOf
    omega
  have hlb : lookback = 300000 := rfl
  rw [hlb] at hlow
  have hPR1 : ∀ x t', t' * 1000000 = secondOf x → start - 1000000000 ≤ x.timestamp →
      x.timestamp < stop → (decide (t' = t) = true ↔ InSecond (t * 1000000) stop x) := by
    intro x t' h1 _ h3
    unfold InSecond
    rw [decide_eq_true_eq]
    omega
  have hR1 : ∀ x, InSecond (t * 1000000) stop x → start - 1000000000 ≤ x.timestamp ∧ x.timestamp < stop := by
    intro x h
    have := hsec x
    unfold InSecond at h
    omega
  have hPR2 : ∀ x t', t' * 1000000 = secondOf x → start - 1000000000 ≤ x.timestamp →
      x.timestamp < stop → (decide (t' < t ∧ t - lookback ≤ t') = true ↔ SecondsBefore (t * 1000000) stop x) := by
    intro x t' h1 _ h3
    unfold SecondsBefore
    rw [decide_eq_true_eq, hlb]
    omega
  have hR2 : ∀ x, SecondsBefore (t * 1000000) stop x → start - 1000000000 ≤ x.timestamp ∧ x.timestamp < stop := by
    intro x h
    have := hsec x
    unfold SecondsBefore at h
    omega
  have hfind : (es.filterMap (pointIn ms start stop e)).find? (fun p => decide (p.t = t)) =
      (es.filterMap fun x => (pointIn ms start stop e x).bind fun p => if decide (p.t = t) = true then some p else none).head? := by
    rw [← List.head?_filter, filter_filterMap']
  have hback : ((es.filterMap (pointIn ms start stop e)).filter fun p => decide (p.t < t ∧ t - lookback ≤ p.t)).getLast? =
      (es.filterMap fun x => (pointIn ms start stop e x).bind fun p =>
        if decide (p.t < t ∧ t - lookback ≤ p.t) = true then some p else none).getLast? := by
    rw [filter_filterMap']
  unfold shownAt
  rw [hfind, hback]
  cases h1 : (es.filterMap fun x => (pointIn ms start stop e x).bind fun p =>
      if decide (p.t = t) = true then some p else none).head? with
  | some p =>
    obtain ⟨pre, x, post, rfl, hx, hpre⟩ := (filterMap_head _ _ _).1 h1
    obtain ⟨hs, hi, hr⟩ := bind_some_of hp (fun t' => decide (t' = t)) _ hPR1 x (hn x (by simp)) p hx
    refine ⟨some (x, p.v), ⟨hs, .inl ⟨pre, post, rfl, ⟨hi, hr⟩, fun y hy => ?_⟩⟩, rfl⟩
    exact (bind_none_iff hp (fun t' => decide (t' = t)) _ hPR1 hR1 y (hn y (by simp [hy]))).1 (hpre y hy)
  | none =>
    have hnil := List.head?_eq_none_iff.1 h1
    rw [List.filterMap_eq_nil_iff] at hnil
    have hno : ∀ y ∈ es, ¬ (InSeries ms e y ∧ InSecond (t * 1000000) stop y) := fun y hy =>
      (bind_none_iff hp (fun t' => decide (t' = t)) _ hPR1 hR1 y (hn y hy)).1 (hnil y hy)
    simp only
    cases h2 : (es.filterMap fun x => (pointIn ms start stop e x).bind fun p =>
        if decide (p.t < t ∧ t - lookback ≤ p.t) = true then some p else none).getLast? with
    | some p =>
      obtain ⟨pre, x, post, rfl, hx, hpost⟩ := (filterMap_last _ _ _).1 h2
      obtain ⟨hs, hi, hr⟩ := bind_some_of hp (fun t' => decide (t' < t ∧ t - lookback ≤ t')) _ hPR2 x (hn x (by simp)) p hx
      refine ⟨some (x, p.v), ⟨hs, .inr ⟨hno, pre, post, rfl, ⟨hi, hr⟩, fun y hy => ?_⟩⟩, rfl⟩
      exact (bind_none_iff hp (fun t' => decide (t' < t ∧ t - lookback ≤ t')) _ hPR2 hR2 y (hn y (by simp [hy]))).1 (hpost y hy)
    | none =>
      have hnil2 := List.getLast?_eq_none_iff.1 h2
      rw [List.filterMap_eq_nil_iff] at hnil2
      refine ⟨none, ?_, rfl⟩
      intro y hy hi
      refine ⟨fun h => hno y hy ⟨hi, h⟩, fun h => ?_⟩
      exact (bind_none_iff hp (fun t' => decide (t' < t ∧ t - lookback ≤ t')) _ hPR2 hR2 y (hn y hy)).1 (hnil2 y hy) ⟨hi, h⟩

end LogCache
