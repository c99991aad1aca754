import Verif.Model.EngineRange
import Verif.Spec.EngineRange
import Verif.Proof.EngineShown

/-! # The points of a selector with a range -/

namespace LogCache
open Spec

theorem ringAdd_keeps {delta t : Int} {ring : List Point} {p : Point} (hd : 0 ≤ delta) (hp : p.t ≤ t)
    (hr : ∀ q ∈ ring, t - delta ≤ q.t) : ringAdd delta ring p = ring ++ [p] := by
  unfold ringAdd
  cases ring with
  | nil =>
    rw [List.nil_append, List.dropWhile_cons_of_neg]
    rw [decide_eq_true_eq]
    omega
  | cons q ring =>
    rw [List.cons_append, List.dropWhile_cons_of_neg]
    rw [decide_eq_true_eq]
    have := hr q (List.mem_cons_self ..)
    omega

/-- The points of a series from index `c` to `k`. -/
def slice (pts : List Point) (c k : Nat) : List Point := (pts.take k).drop c

theorem slice_mem {pts : List Point} {c k : Nat} {q : Point} (h : q ∈ slice pts c k) :
    ∃ (i : Nat) (hi : i < pts.length), c ≤ i ∧ i < k ∧ q = pts[i] := by
  unfold slice at h
  obtain ⟨i, hi, rfl⟩ := List.getElem_of_mem h
  rw [List.length_drop, List.length_take] at hi
  refine ⟨c + i, by omega, by omega, by omega, ?_⟩
  rw [List.getElem_drop, List.getElem_take]

theorem slice_succ {pts : List Point} {c k : Nat} (hck : c ≤ k) (hk : k < pts.length) :
    slice pts c (k + 1) = slice pts c k ++ [pts[k]] := by
  unfold slice
  rw [List.take_add_one, List.getElem?_eq_getElem hk, List.drop_append_of_le_length (by rw [List.length_take]; omega)]
  rfl

/-- Where a fresh search ends: everything from `c` on that is before `t` is in the buffer. -/
structure Reached (pts : List Point) (t : Int) (c k : Nat) (b : BufIter) : Prop where
  it : b.it = ⟨k, pts⟩
  ring : b.ring = slice pts c k
  le : k ≤ pts.length
  low : c ≤ k
  below : ∀ i (h : i < k), (pts[i]'(by omega)).t < t
  stop : if b.ok then ∃ h : k < pts.length, t ≤ pts[k].t else k = pts.length

theorem advance_reached {pts : List Point} (hs : PointsSorted pts) {delta t : Int} (hd : 0 ≤ delta) {c : Nat}
    (hc : ∀ i (h : i < pts.length), c ≤ i → t - delta ≤ pts[i].t) :
    ∀ (fuel k : Nat) (hk : k < pts.length), c ≤ k → pts[k].t < t → pts.length < k + fuel + 1 →
      ∃ b ok k', BufIter.advance delta t fuel ⟨⟨k, pts⟩, slice pts c k, some pts[k].t, true⟩ = some (b, ok) ∧
        Reached pts t c k' b ∧ ok = b.ok := by
  intro fuel
  induction fuel with
  | zero => intro k hk _ _ h; omega
  | succ fuel ih =>
    intro k hk hck ht hf
    have hbelow : ∀ i (h : i < k + 1), (pts[i]'(by omega)).t < t := fun i h =>
      Int.lt_of_le_of_lt (sorted_get hs (by omega : i ≤ k) hk) ht
    have hring : ringAdd delta (slice pts c k) pts[k] = slice pts c (k + 1) := by
      rw [ringAdd_keeps hd (t := t) (by omega), slice_succ hck hk]
      intro q hq
      obtain ⟨i, hi, h1, _, rfl⟩ := slice_mem hq
      exact hc i hi h1
    by_cases hk1 : k + 1 < pts.length
    · have hn : BufIter.next delta ⟨⟨k, pts⟩, slice pts c k, some pts[k].t, true⟩ =
          some (⟨⟨((k + 1 : Nat) : Int), pts⟩, slice pts c (k + 1), some pts[k + 1].t, true⟩, true) := by
        unfold BufIter.next
        simp only [if_true, at_nat, List.getElem?_eq_getElem hk, next_nat, hk1, decide_true,
          List.getElem?_eq_getElem hk1, hring]
      rw [BufIter.advance, hn]
      simp only [if_true]
      by_cases hge : t ≤ pts[k + 1].t
      · simp only [Option.any_some, hge, decide_true, if_true]
        exact ⟨_, _, k + 1, rfl, ⟨rfl, rfl, by omega, by omega, hbelow, ⟨hk1, hge⟩⟩, rfl⟩
      · simp only [Option.any_some, hge, decide_false, Bool.false_eq_true, if_false]
        exact ih (k + 1) hk1 (by omega) (by omega) (by omega)
    · have hn : BufIter.next delta ⟨⟨k, pts⟩, slice pts c k, some pts[k].t, true⟩ =
          some (⟨⟨((k + 1 : Nat) : Int), pts⟩, slice pts c (k + 1), some pts[k].t, false⟩, false) := by
        unfold BufIter.next
        simp only [if_true, at_nat, List.getElem?_eq_getElem hk, next_nat, hk1, decide_false,
          Bool.false_eq_true, if_false, hring]
      rw [BufIter.advance, hn]
      simp only [Bool.false_eq_true, if_false]
      refine ⟨_, _, k + 1, rfl, ⟨rfl, rfl, by omega, by omega, hbelow, ?_⟩, rfl⟩
      show k + 1 = pts.length
      omega

theorem seek_reached {pts : List Point} (hs : PointsSorted pts) {delta t : Int} (hd : 0 ≤ delta) :
    ∃ b ok c k, (newBuffer pts).seek delta t = some (b, ok) ∧ Reached pts t c k b ∧ ok = b.ok ∧
      (∀ i (h : i < pts.length), i < c → pts[i].t < t - delta) ∧
      (∀ i (h : i < pts.length), c ≤ i → t - delta ≤ pts[i].t) := by
  unfold BufIter.seek
  rw [if_pos (show (newBuffer pts).last.all _ = true from rfl)]
  have hpts : (newBuffer pts).it.points = pts := rfl
  obtain ⟨c, hc, he, h1, h2⟩ := seek_index (newBuffer pts).it (t - delta) (by rw [hpts]; exact hs)
  rw [he]
  simp only [hpts] at h1 h2 hc ⊢
  by_cases hcl : c < pts.length
  · simp only [hcl, decide_true, if_true, at_nat, List.getElem?_eq_getElem hcl]
    have hnil : ([] : List Point) = slice pts c c := by
      unfold slice
      rw [List.drop_eq_nil_of_le (by rw [List.length_take]; omega)]
    have hbel : ∀ i (h : i < c), (pts[i]'(by omega)).t < t := fun i h => by
      have := h1 i (by omega) h
      omega
    unfold BufIter.reach
    by_cases hge : t ≤ pts[c].t
    · simp only [Option.any_some, hge, decide_true, if_true]
      exact ⟨_, _, c, c, rfl, ⟨rfl, hnil, by omega, by omega, hbel, ⟨hcl, hge⟩⟩, rfl, fun i h hi => h1 i h hi,
        fun i h hi => h2 i h hi⟩
    · simp only [Option.any_some, hge, decide_false, Bool.false_eq_true, if_false]
      rw [hnil]
      obtain ⟨b, ok, k', e1, e2, e3⟩ := advance_reached hs hd (fun i h hi => h2 i h hi) (pts.length + 1) c hcl
        (Nat.le_refl _) (by omega) (by omega)
      exact ⟨b, ok, c, k', e1, e2, e3, fun i h hi => h1 i h hi, fun i h hi => h2 i h hi⟩
  · simp only [hcl, decide_false, Bool.false_eq_true, if_false]
    have hcl : c = pts.length := by omega
    subst hcl
    refine ⟨_, _, pts.length, pts.length, rfl, ⟨rfl, ?_, by omega, by omega, ?_, rfl⟩, rfl, fun i h hi => h1 i h hi,
      fun i h hi => h2 i h hi⟩
    · unfold slice
      rw [List.drop_eq_nil_of_le (by rw [List.length_take]; omega)]
    · intro i h
      have := h1 i (by omega) h
      omega

theorem filter_slice {pts : List Point} (p : Point → Bool) {c k : Nat}
    (hin : ∀ i (h : i < pts.length), c ≤ i → i < k → p pts[i] = true)
    (hout : ∀ i (h : i < pts.length), i < c ∨ k ≤ i → p pts[i] = false) (hck : c ≤ k) :
    pts.filter p = slice pts c k := by
  have e1 : pts = pts.take c ++ (slice pts c k ++ pts.drop k) := by
    unfold slice
    have : pts.take c = (pts.take k).take c := by rw [List.take_take]; congr 1; omega
    rw [this, ← List.append_assoc, List.take_append_drop, List.take_append_drop]
  conv => lhs; rw [e1]
  rw [List.filter_append, List.filter_append]
  have h1 : (pts.take c).filter p = [] := by
    rw [List.filter_eq_nil_iff]
    intro q hq
    obtain ⟨i, hi, rfl⟩ := List.getElem_of_mem hq
    rw [List.length_take] at hi
    rw [List.getElem_take, hout i (by omega) (.inl (by omega))]
    simp
  have h2 : (slice pts c k).filter p = slice pts c k := by
    rw [List.filter_eq_self]
    intro q hq
    obtain ⟨i, hi, h1, h2, rfl⟩ := slice_mem hq
    exact hin i hi h1 h2
  have h3 : (pts.drop k).filter p = [] := by
    rw [List.filter_eq_nil_iff]
    intro q hq
    obtain ⟨i, hi, rfl⟩ := List.getElem_of_mem hq
    rw [List.length_drop] at hi
    rw [List.getElem_drop, hout (k + i) (by omega) (.inr (by omega))]
    simp
  rw [h1, h2, h3, List.nil_append, List.append_nil]

/-- The points of a range: those from before its end, and the first one of exactly the end. -/
theorem matrixPoints_sorted {pts : List Point} (hs : PointsSorted pts) {range t : Int} (hd : 0 ≤ range) :
    matrixPoints (newBuffer pts) range t =
      some (pts.filter (fun p => decide (t - range ≤ p.t ∧ p.t < t)) ++
        (pts.find? fun p => decide (p.t = t)).toList) := by
  obtain ⟨b, ok, c, k, he, hr, hok, h1, h2⟩ := seek_reached hs (t := t) hd
  have hge : ∀ i (h : i < pts.length), k ≤ i → t ≤ pts[i].t := by
    intro i h hi
    have := hr.stop
    split at this
    · obtain ⟨hk, hge⟩ := this
      exact Int.le_trans hge (sorted_get hs hi h)
    · omega
  have hfil : pts.filter (fun p => decide (t - range ≤ p.t ∧ p.t < t)) = slice pts c k := by
    apply filter_slice _ _ _ hr.low
    · intro i h hc hk
      rw [decide_eq_true_eq]
      exact ⟨h2 i h hc, hr.below i hk⟩
    · intro i h hi
      rw [decide_eq_false_iff_not]
      rcases hi with hi | hi
      · have := h1 i h hi; omega
      · have := hge i h hi; omega
  have hring : b.ring.filter (fun p => decide (t - range ≤ p.t)) = slice pts c k := by
    rw [hr.ring, List.filter_eq_self]
    intro q hq
    obtain ⟨i, hi, hc, _, rfl⟩ := slice_mem hq
    rw [decide_eq_true_eq]
    exact h2 i hi hc
  unfold matrixPoints
  rw [he]
  simp only [hring, hfil]
  subst hok
  have hstop := hr.stop
  cases hb : b.ok with
  | true =>
    rw [hb] at hstop
    obtain ⟨hk, hkt⟩ := hstop
    simp only [if_true, hr.it, at_nat, List.getElem?_eq_getElem hk]
    by_cases heq : pts[k].t = t
    · have hsome : pts.find? (fun p => decide (p.t = t)) = some pts[k] := by
        rw [List.find?_eq_some_iff_getElem]
        refine ⟨by simp [heq], k, hk, rfl, ?_⟩
        intro j hj
        have := hr.below j hj
        simp only [Bool.not_eq_eq_eq_not, Bool.not_true, decide_eq_false_iff_not]
        omega
      rw [if_pos heq, hsome]
      rfl
    · have hnone : pts.find? (fun p => decide (p.t = t)) = none := by
        rw [List.find?_eq_none]
        intro p hp
        obtain ⟨i, hi, rfl⟩ := List.getElem_of_mem hp
        simp only [decide_eq_true_eq]
        by_cases hik : i < k
        · have := hr.below i hik; omega
        · have := sorted_get hs (by omega : k ≤ i) hi; omega
      rw [if_neg heq, hnone]
      simp
  | false =>
    rw [hb] at hstop
    have hnone : pts.find? (fun p => decide (p.t = t)) = none := by
      rw [List.find?_eq_none]
      intro p hp
      obtain ⟨i, hi, rfl⟩ := List.getElem_of_mem hp
      have := hr.below i (by simp at hstop; omega)
      simp only [decide_eq_true_eq]
      omega
    rw [hnone]
    simp

theorem evalMatrix_sorted {range t : Int} (hd : 0 ≤ range) (series : List SeriesData)
    (hs : ∀ s ∈ series, PointsSorted s.points) (hlt : ∀ s ∈ series, ∀ p ∈ s.points, p.t < t) :
    evalMatrix range t series = some ((series.map fun s => (seriesLabels s,
      s.points.filter fun p => decide (t - range ≤ p.t))).filter fun x => !x.2.isEmpty) := by
  induction series with
  | nil => rfl
  | cons s ss ih =>
    have hone : matrixPoints (newBuffer s.points) range t = some (s.points.filter fun p => decide (t - range ≤ p.t)) := by
      rw [matrixPoints_sorted (hs s (List.mem_cons_self ..)) hd]
      have h1 : s.points.find? (fun p => decide (p.t = t)) = none := by
        rw [List.find?_eq_none]
        intro p hp
        have := hlt s (List.mem_cons_self ..) p hp
        simp only [decide_eq_true_eq]
        omega
      rw [h1, Option.toList_none, List.append_nil]
      congr 1
      apply List.filter_congr
      intro p hp
      have := hlt s (List.mem_cons_self ..) p hp
      simp [this]
    rw [evalMatrix, hone]
    simp only
    rw [ih (fun x hx => hs x (List.mem_cons_of_mem _ hx)) (fun x hx => hlt x (List.mem_cons_of_mem _ hx)),
      Option.map_some, List.map_cons, List.filter_cons]
    generalize (s.points.filter fun p => decide (t - range ≤ p.t)) = ps
    cases ps with
    | nil => simp
    | cons a l => simp

/-- The points of a series in a range are those of its envelopes there. -/
theorem range_envelopes {ms : List Matcher} (hp : PlainSelector ms) {start t range : Int} {e : Envelope}
    {es : List Envelope} (hn : ∀ x ∈ es, NamesSource ms x.sourceId) (hlow : start + range * 1000000 ≤ t * 1000000) :
    ∃ vals : List (Envelope × PVal),
      vals.map Prod.fst = AllWith es (fun x => InSeries ms e x ∧ WithinRange (range * 1000000) (t * 1000000) x) ∧
      (∀ y ∈ vals, Shows ms y.1 y.2) ∧
      (((es.filterMap (pointIn ms start (t * 1000000) e)).filter fun p => decide (t - range ≤ p.t)).map fun p => (p.t, p.v)) =
        vals.map fun y => (secondOf y.1 / 1000000, y.2) := by
  have hPR : ∀ x t', t' * 1000000 = secondOf x → start - 1000000000 ≤ x.timestamp →
      x.timestamp < t * 1000000 → (decide (t - range ≤ t') = true ↔ WithinRange (range * 1000000) (t * 1000000) x) := by
    intro x t' h1 _ h3
    unfold WithinRange
    rw [decide_eq_true_eq, ← h1]
    omega
  have hR : ∀ x, WithinRange (range * 1000000) (t * 1000000) x →
      start - 1000000000 ≤ x.timestamp ∧ x.timestamp < t * 1000000 := by
    intro x hx
    unfold WithinRange secondOf at hx
    omega
  rw [filter_filterMap']
  unfold AllWith
  induction es with
  | nil => exact ⟨[], rfl, by simp, rfl⟩
  | cons x es ih =>
    obtain ⟨vals, i1, i2, i3⟩ := ih (fun y hy => hn y (List.mem_cons_of_mem _ hy))
    have hnx := hn x (List.mem_cons_self ..)
    rw [List.filterMap_cons, List.filter_cons]
    cases hb : (pointIn ms start (t * 1000000) e x).bind
        (fun p => if decide (t - range ≤ p.t) = true then some p else none) with
    | none =>
      have := (bind_none_iff hp (fun t' => decide (t - range ≤ t')) _ hPR hR x hnx).1 hb
      rw [if_neg (by simpa using this)]
      exact ⟨vals, i1, i2, i3⟩
    | some p =>
      obtain ⟨g1, g2, g3⟩ := bind_some_of hp (fun t' => decide (t - range ≤ t')) _ hPR x hnx p hb
      rw [if_pos (by simpa using ⟨g2, g3⟩)]
      refine ⟨(x, p.v) :: vals, by rw [List.map_cons, i1], ?_, ?_⟩
      · intro y hy
        rcases List.mem_cons.1 hy with rfl | hy
        · exact g1
        · exact i2 y hy
      · simp only [List.map_cons, i3]
        congr 2
        rw [Option.bind_eq_some_iff] at hb
        obtain ⟨q, hq, hb⟩ := hb
        split at hb
        · cases hb
          have := (pointIn_some hp hnx hq).2.2.1
          omega
        · cases hb

end LogCache
