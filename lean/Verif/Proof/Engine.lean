import Verif.Model.Engine
import Verif.Props.Promql

/-! # The buffered iterator of the engine on the iterators of log-cache -/

namespace LogCache
open Spec

/-- Points in order of time. -/
def PointsSorted (pts : List Point) : Prop := pts.Pairwise fun p q => p.t ≤ q.t

theorem sorted_get {pts : List Point} (hs : PointsSorted pts) {i j : Nat} (hij : i ≤ j) (hj : j < pts.length) :
    (pts[i]'(by omega)).t ≤ pts[j].t := by
  rcases Nat.lt_or_eq_of_le hij with h | h
  · exact List.pairwise_iff_getElem.1 hs i j (by omega) hj h
  · subst h; exact Int.le_refl _

/-- The point a selector shows at `t`: the first one of exactly that time, otherwise the
last one before, not older than the lookback. -/
def shownAt (pts : List Point) (t : Int) : Option Point :=
  match pts.find? fun p => decide (p.t = t) with
  | some p => some p
  | none => (pts.filter fun p => decide (p.t < t ∧ t - lookback ≤ p.t)).getLast?

/-- The state of the buffered iterator after a `Seek t`. -/
inductive BufInv (pts : List Point) (t : Int) : BufIter → Prop where
  | at (k : Nat) (hk : k < pts.length) (ring : List Point) (hlt : ∀ i (h : i < k), (pts[i]'(by omega)).t < t)
      (hge : t ≤ pts[k].t)
      (hring : (0 < k ∧ ring.getLast? = pts[k - 1]?) ∨
        (ring = [] ∧ ∀ i (h : i < k), (pts[i]'(by omega)).t < t - lookback)) :
      BufInv pts t ⟨⟨k, pts⟩, ring, some pts[k].t, true⟩
  | ran (hk : 0 < pts.length) (ring : List Point) (hlt : ∀ i (h : i < pts.length), pts[i].t < t)
      (hring : ring.getLast? = pts[pts.length - 1]?) :
      BufInv pts t ⟨⟨pts.length, pts⟩, ring, some (pts[pts.length - 1]'(by omega)).t, false⟩
  | gone (c : Int) (last : Option Int) (hlt : ∀ i (h : i < pts.length), pts[i].t < t - lookback)
      (hlast : ∀ l ∈ last, l < t - lookback) :
      BufInv pts t ⟨⟨c, pts⟩, [], last, false⟩

theorem at_nat (pts : List Point) (k : Nat) : (SeriesIter.at ⟨k, pts⟩) = pts[k]? := by
  unfold SeriesIter.at
  rw [if_neg (by show ¬ ((k : Int) < 0); omega)]
  simp

theorem next_nat (pts : List Point) (k : Nat) :
    (SeriesIter.next ⟨k, pts⟩) = (⟨((k + 1 : Nat) : Int), pts⟩, decide (k + 1 < pts.length)) := by
  unfold SeriesIter.next
  refine Prod.ext rfl ?_
  show decide ((k : Int) + 1 < pts.length) = _
  congr 1
  apply propext
  omega

theorem ringAdd_last (ring : List Point) (p : Point) : (ringAdd lookback ring p).getLast? = some p := by
  unfold ringAdd
  induction ring with
  | nil =>
    have : ¬ p.t < p.t - lookback := by unfold lookback; omega
    simp [this]
  | cons q ring ih =>
    rw [List.cons_append, List.dropWhile_cons]
    split
    · exact ih
    · rw [← List.cons_append, List.getLast?_concat]

/-- Advancing from a point before `t`. -/
theorem advance_inv {pts : List Point} (hs : PointsSorted pts) {t : Int} :
    ∀ (fuel k : Nat) (hk : k < pts.length) (ring : List Point), pts[k].t < t → pts.length < k + fuel + 1 →
      ∃ b ok, BufIter.advance lookback t fuel ⟨⟨k, pts⟩, ring, some pts[k].t, true⟩ = some (b, ok) ∧ BufInv pts t b ∧
        ok = b.ok := by
  intro fuel
  induction fuel with
  | zero => intro k hk _ _ h; omega
  | succ fuel ih =>
    intro k hk ring ht hf
    have hbelow : ∀ i (h : i < k + 1), (pts[i]'(by omega)).t < t := fun i h =>
      Int.lt_of_le_of_lt (sorted_get hs (by omega : i ≤ k) hk) ht
    by_cases hk1 : k + 1 < pts.length
    · have hn : BufIter.next lookback ⟨⟨k, pts⟩, ring, some pts[k].t, true⟩ =
          some (⟨⟨((k + 1 : Nat) : Int), pts⟩, ringAdd lookback ring pts[k], some pts[k + 1].t, true⟩, true) := by
        unfold BufIter.next
        simp only [if_true, at_nat, List.getElem?_eq_getElem hk, next_nat, hk1, decide_true,
          List.getElem?_eq_getElem hk1]
      rw [BufIter.advance, hn]
      simp only [if_true]
      by_cases hge : t ≤ pts[k + 1].t
      · simp only [Option.any_some, hge, decide_true, if_true]
        refine ⟨_, _, rfl, ?_, rfl⟩
        exact BufInv.at (k + 1) hk1 _ hbelow hge (.inl ⟨by omega, by
          rw [ringAdd_last]; simp [List.getElem?_eq_getElem hk]⟩)
      · simp only [Option.any_some, hge, decide_false, Bool.false_eq_true, if_false]
        exact ih (k + 1) hk1 _ (by omega) (by omega)
    · have hn : BufIter.next lookback ⟨⟨k, pts⟩, ring, some pts[k].t, true⟩ =
          some (⟨⟨((k + 1 : Nat) : Int), pts⟩, ringAdd lookback ring pts[k], some pts[k].t, false⟩, false) := by
        unfold BufIter.next
        simp only [if_true, at_nat, List.getElem?_eq_getElem hk, next_nat, hk1, decide_false,
          Bool.false_eq_true, if_false]
      rw [BufIter.advance, hn]
      simp only [Bool.false_eq_true, if_false]
      refine ⟨_, _, rfl, ?_, rfl⟩
      have hl : k + 1 = pts.length := by omega
      have hk' : k = pts.length - 1 := by omega
      have hr : (ringAdd lookback ring pts[k]).getLast? = pts[pts.length - 1]? := by
        rw [ringAdd_last, ← List.getElem?_eq_getElem hk, hk']
      have ht' : pts[k].t = (pts[pts.length - 1]'(by omega)).t := by simp only [← hk']
      rw [hl, ht']
      exact BufInv.ran (by omega) _ (fun i h => hbelow i (by omega)) hr

theorem reach_inv {pts : List Point} (hs : PointsSorted pts) {t : Int} (k : Nat) (hk : k < pts.length)
    (ring : List Point) (hlt : ∀ i (h : i < k), (pts[i]'(by omega)).t < t)
    (hring : (0 < k ∧ ring.getLast? = pts[k - 1]?) ∨
        (ring = [] ∧ ∀ i (h : i < k), (pts[i]'(by omega)).t < t - lookback)) :
    ∃ b ok, BufIter.reach lookback t ⟨⟨k, pts⟩, ring, some pts[k].t, true⟩ = some (b, ok) ∧ BufInv pts t b ∧
        ok = b.ok := by
  unfold BufIter.reach
  by_cases hge : t ≤ pts[k].t
  · simp only [Option.any_some, hge, decide_true, if_true]
    exact ⟨_, _, rfl, BufInv.at k hk ring hlt hge hring, rfl⟩
  · simp only [Option.any_some, hge, decide_false, Bool.false_eq_true, if_false]
    exact advance_inv hs _ k hk ring (by omega) (by omega)

/-- `Seek` of the iterator of log-cache, by index. -/
theorem seek_index (it : SeriesIter) (t : Int) (hs : PointsSorted it.points) :
    ∃ c : Nat, c ≤ it.points.length ∧ it.seek t = (⟨c, it.points⟩, decide (c < it.points.length)) ∧
      (∀ i (h : i < it.points.length), i < c → it.points[i].t < t) ∧
      (∀ i (h : i < it.points.length), c ≤ i → t ≤ it.points[i].t) := by
  let f : Nat → Bool := fun n => decide (((it.points[n]?).map (·.t)).getD 0 ≥ t)
  have hval : ∀ (k : Nat) (hk : k < it.points.length), f k = decide (t ≤ (it.points[k]).t) := by
    intro k hk
    show decide (((it.points[k]?).map (·.t)).getD 0 ≥ t) = _
    rw [List.getElem?_eq_getElem hk]; rfl
  have hm : ∀ i j, i ≤ j → j < it.points.length → f i = true → f j = true := by
    intro i j hij hj h
    rw [hval i (by omega), decide_eq_true_eq] at h
    rw [hval j hj, decide_eq_true_eq]
    exact Int.le_trans h (sorted_get hs hij hj)
  obtain ⟨h1, h2, h3⟩ := searchLoop_spec f it.points.length hm it.points.length 0 it.points.length
    (Nat.le_refl _) (Nat.zero_le _) (by omega) (by omega) (by omega)
  refine ⟨searchLoop f it.points.length 0 it.points.length, h1, rfl, ?_, ?_⟩
  · intro i h hi
    have := h2 i hi
    rw [hval i h, decide_eq_false_iff_not] at this
    omega
  · intro i h hi
    have := h3 i hi h
    rwa [hval i h, decide_eq_true_eq] at this

/-- Seeking afresh. -/
theorem seek_fresh {pts : List Point} (hs : PointsSorted pts) {t : Int} (b : BufIter) (hp : b.it.points = pts)
    (hl : ∀ l ∈ b.last, l < t - lookback) :
    ∃ b' ok, b.seek lookback t = some (b', ok) ∧ BufInv pts t b' ∧ ok = b'.ok := by
  unfold BufIter.seek
  have hall : b.last.all (fun l => decide (l < t - lookback)) = true := by
    cases hb : b.last with
    | none => rfl
    | some l => simpa using hl l (by rw [hb]; rfl)
  rw [if_pos hall]
  obtain ⟨c, hc, he, h1, h2⟩ := seek_index b.it (t - lookback) (by rw [hp]; exact hs)
  rw [he]
  simp only [hp] at h1 h2 hc ⊢
  by_cases hcl : c < pts.length
  · simp only [hcl, decide_true, if_true, at_nat, List.getElem?_eq_getElem hcl]
    exact reach_inv hs c hcl [] (fun i h => by
      have := h1 i (by omega) h
      unfold lookback at this
      omega) (.inr ⟨rfl, fun i h => h1 i (by omega) h⟩)
  · simp only [hcl, decide_false, Bool.false_eq_true, if_false]
    exact ⟨_, _, rfl, BufInv.gone _ _ (fun i h => h1 i h (by omega)) hl, rfl⟩

theorem seek_inv {pts : List Point} (hs : PointsSorted pts) {t t' : Int} (htt : t ≤ t') {b : BufIter}
    (hb : BufInv pts t b) : ∃ b' ok, b.seek lookback t' = some (b', ok) ∧ BufInv pts t' b' ∧ ok = b'.ok := by
  by_cases hl : ∀ l ∈ b.last, l < t' - lookback
  · refine seek_fresh hs b ?_ hl
    cases hb <;> rfl
  · have hall : ¬ (b.last.all (fun l => decide (l < t' - lookback)) = true) := by
      intro h
      apply hl
      intro l hm
      rw [hm] at h
      simpa using h
    unfold BufIter.seek
    rw [if_neg hall]
    cases hb with
    | «at» k hk ring hlt hge hring =>
      refine reach_inv hs k hk ring (fun i h => Int.lt_of_lt_of_le (hlt i h) htt) ?_
      rcases hring with h | ⟨h1, h2⟩
      · exact .inl h
      · exact .inr ⟨h1, fun i h => by have := h2 i h; omega⟩
    | ran hk ring hlt hring =>
      have hlt' : ∀ i (h : i < pts.length), pts[i].t < t' := fun i h => Int.lt_of_lt_of_le (hlt i h) htt
      unfold BufIter.reach
      have hn : ¬ t' ≤ (pts[pts.length - 1]'(by omega)).t := by
        have := hlt' (pts.length - 1) (by omega)
        omega
      simp only [Option.any_some, hn, decide_false, Bool.false_eq_true, if_false]
      rw [BufIter.advance]
      unfold BufIter.next
      simp only [Bool.false_eq_true, if_false]
      exact ⟨_, _, rfl, BufInv.ran hk ring hlt' hring, rfl⟩
    | gone c last hlt hlast =>
      exfalso
      apply hl
      intro l hm
      have := hlast l hm
      omega

/-- The last point in the window, by index. -/
theorem window_last {pts : List Point} (hs : PointsSorted pts) {t : Int} (k : Nat) (hk : k ≤ pts.length)
    (hlt : ∀ i (h : i < k), (pts[i]'(by omega)).t < t) (hge : ∀ i (h : i < pts.length), k ≤ i → t ≤ pts[i].t) :
    (pts.filter fun p => decide (p.t < t ∧ t - lookback ≤ p.t)).getLast? =
      if h : 0 < k then
        (if (pts[k - 1]'(by omega)).t < t - lookback then none else some (pts[k - 1]'(by omega)))
      else none := by
  have hsplit : pts.filter (fun p => decide (p.t < t ∧ t - lookback ≤ p.t)) =
      (pts.take k).filter (fun p => decide (p.t < t ∧ t - lookback ≤ p.t)) := by
    conv => lhs; rw [← List.take_append_drop k pts, List.filter_append]
    have : (pts.drop k).filter (fun p => decide (p.t < t ∧ t - lookback ≤ p.t)) = [] := by
      rw [List.filter_eq_nil_iff]
      intro p hp
      obtain ⟨i, hi, rfl⟩ := List.getElem_of_mem hp
      rw [List.length_drop] at hi
      rw [List.getElem_drop]
      have := hge (k + i) (by omega) (by omega)
      simp only [decide_eq_true_eq]
      omega
    rw [this, List.append_nil]
  rw [hsplit]
  by_cases h0 : 0 < k
  · rw [dif_pos h0]
    have hk1 : k - 1 < pts.length := by omega
    have htake : pts.take k = pts.take (k - 1) ++ [pts[k - 1]] := by
      have : k = k - 1 + 1 := by omega
      conv => lhs; rw [this]
      rw [List.take_add_one, List.getElem?_eq_getElem hk1]; rfl
    have hlast := hlt (k - 1) (by omega)
    by_cases hw : pts[k - 1].t < t - lookback
    · rw [if_pos hw]
      have : (pts.take k).filter (fun p => decide (p.t < t ∧ t - lookback ≤ p.t)) = [] := by
        rw [List.filter_eq_nil_iff]
        intro p hp
        obtain ⟨i, hi, rfl⟩ := List.getElem_of_mem hp
        rw [List.length_take] at hi
        rw [List.getElem_take]
        have := sorted_get hs (by omega : i ≤ k - 1) hk1
        simp only [decide_eq_true_eq]
        omega
      rw [this]; rfl
    · rw [if_neg hw, htake, List.filter_append]
      have : [pts[k - 1]].filter (fun p => decide (p.t < t ∧ t - lookback ≤ p.t)) = [pts[k - 1]] := by
        rw [List.filter_eq_self]
        intro p hp
        rw [List.mem_singleton] at hp
        subst hp
        simp only [decide_eq_true_eq]
        omega
      rw [this, List.getLast?_concat]
  · rw [dif_neg h0]
    have : k = 0 := by omega
    subst this
    rfl

theorem lookback_pos : 0 < lookback := by decide

/-- What the engine sees at `t` is what the points say. -/
theorem selectorPoint_of_seek {pts : List Point} (hs : PointsSorted pts) {t : Int} {b b' : BufIter} {ok : Bool}
    (he : b.seek lookback t = some (b', ok)) (hb : BufInv pts t b') (hok : ok = b'.ok) :
    selectorPoint b t = some (b', shownAt pts t) := by
  have hlb := lookback_pos
  unfold selectorPoint
  rw [he]
  subst hok
  cases hb with
  | «at» k hk ring hlt hge hring =>
    simp only [if_true, at_nat, List.getElem?_eq_getElem hk]
    have hge' : ∀ i (h : i < pts.length), k ≤ i → t ≤ pts[i].t := fun i h hi =>
      Int.le_trans hge (sorted_get hs hi h)
    by_cases hgt : t < pts[k].t
    · rw [if_pos hgt]
      have hnone : pts.find? (fun p => decide (p.t = t)) = none := by
        rw [List.find?_eq_none]
        intro p hp
        obtain ⟨i, hi, rfl⟩ := List.getElem_of_mem hp
        simp only [decide_eq_true_eq]
        by_cases hik : i < k
        · have := hlt i hik; omega
        · have := sorted_get hs (by omega : k ≤ i) hi; omega
      unfold shownAt
      rw [hnone]
      simp only
      rw [window_last hs k (by omega) hlt hge']
      rcases hring with ⟨h0, hr⟩ | ⟨hr, hold⟩
      · rw [dif_pos h0, hr, List.getElem?_eq_getElem (by omega : k - 1 < pts.length)]
      · rw [hr]
        simp only [List.getLast?_nil]
        split
        · rw [if_pos (hold (k - 1) (by omega))]
        · rfl
    · rw [if_neg hgt]
      have heq : pts[k].t = t := by omega
      have hsome : pts.find? (fun p => decide (p.t = t)) = some pts[k] := by
        rw [List.find?_eq_some_iff_getElem]
        refine ⟨by simp [heq], k, hk, rfl, ?_⟩
        intro j hj
        have := hlt j hj
        simp only [Bool.not_eq_eq_eq_not, Bool.not_true, decide_eq_false_iff_not]
        omega
      unfold shownAt
      rw [hsome]
  | ran hk ring hlt hring =>
    simp only [Bool.false_eq_true, if_false]
    have hnone : pts.find? (fun p => decide (p.t = t)) = none := by
      rw [List.find?_eq_none]
      intro p hp
      obtain ⟨i, hi, rfl⟩ := List.getElem_of_mem hp
      have := hlt i hi
      simp only [decide_eq_true_eq]
      omega
    unfold shownAt
    rw [hnone]
    simp only
    rw [window_last hs pts.length (Nat.le_refl _) hlt (fun i h hi => by omega), dif_pos hk, hring,
      List.getElem?_eq_getElem (by omega : pts.length - 1 < pts.length)]
  | gone c last hlt hlast =>
    simp only [Bool.false_eq_true, if_false, List.getLast?_nil]
    have hnone : pts.find? (fun p => decide (p.t = t)) = none := by
      rw [List.find?_eq_none]
      intro p hp
      obtain ⟨i, hi, rfl⟩ := List.getElem_of_mem hp
      have := hlt i hi
      simp only [decide_eq_true_eq]
      omega
    unfold shownAt
    rw [hnone]
    simp only
    rw [window_last hs pts.length (Nat.le_refl _) (fun i h => by have := hlt i h; omega)
      (fun i h hi => by omega)]
    split
    · rw [if_pos (hlt _ _)]
    · rfl

/-- The values a selector shows at increasing times. -/
theorem evalSteps_inv {pts : List Point} (hs : PointsSorted pts) :
    ∀ (ts : List Int), ts.Pairwise (· ≤ ·) → ∀ (b : BufIter),
      (b.it.points = pts ∧ b.last = none ∨ ∃ t, BufInv pts t b ∧ ∀ x ∈ ts, t ≤ x) →
      evalSteps ts b = some (ts.filterMap fun t => (shownAt pts t).map fun p => (t, p.v)) := by
  intro ts
  induction ts with
  | nil => intro _ b _; rfl
  | cons t ts ih =>
    intro hts b hb
    have hseek : ∃ b' ok, b.seek lookback t = some (b', ok) ∧ BufInv pts t b' ∧ ok = b'.ok := by
      rcases hb with ⟨h1, h2⟩ | ⟨t0, h1, h2⟩
      · exact seek_fresh hs b h1 (by rw [h2]; intro l hl; cases hl)
      · exact seek_inv hs (h2 t (List.mem_cons_self ..)) h1
    obtain ⟨b', ok, he, hi, hok⟩ := hseek
    rw [evalSteps, selectorPoint_of_seek hs he hi hok]
    simp only
    rw [ih (List.pairwise_cons.1 hts).2 b' (.inr ⟨t, hi, (List.pairwise_cons.1 hts).1⟩)]
    simp only [Option.map_some, List.filterMap_cons]
    cases shownAt pts t with
    | none => rfl
    | some p => rfl

theorem evalSteps_sorted {pts : List Point} (hs : PointsSorted pts) (ts : List Int) (hts : ts.Pairwise (· ≤ ·)) :
    evalSteps ts (newBuffer pts) = some (ts.filterMap fun t => (shownAt pts t).map fun p => (t, p.v)) :=
  evalSteps_inv hs ts hts _ (.inl ⟨rfl, rfl⟩)

/-- All series of a set are seen, in order. -/
theorem expandSet_all (series : List SeriesData) :
    expandSet (series.length + 1) { series := series } = some series := by
  have key : ∀ (fuel c : Nat), c ≤ series.length → series.length < c + fuel →
      expandSet fuel ⟨c, series⟩ = some (series.drop c) := by
    intro fuel
    induction fuel with
    | zero => intro c _ _; omega
    | succ fuel ih =>
      intro c hc hf
      rw [expandSet]
      unfold SeriesSet.next SeriesSet.at
      simp only [Nat.add_sub_cancel]
      by_cases h : c < series.length
      · simp only [h, decide_true, if_true, Nat.add_eq_zero_iff, Nat.one_ne_zero, and_false, if_false,
          List.getElem?_eq_getElem h]
        rw [ih (c + 1) (by omega) (by omega), Option.map_some, List.drop_eq_getElem_cons h]
      · simp only [h, decide_false, Bool.false_eq_true, if_false]
        rw [List.drop_eq_nil_of_le (by omega)]
  exact key _ 0 (Nat.zero_le _) (by omega)

/-- A selector's series at increasing times. -/
theorem evalSelector_sorted (ts : List Int) (hts : ts.Pairwise (· ≤ ·)) (series : List SeriesData)
    (hs : ∀ s ∈ series, PointsSorted s.points) :
    evalSelector ts series = some ((series.map fun s => (seriesLabels s,
      ts.filterMap fun t => (shownAt s.points t).map fun p => (t, p.v))).filter fun x => !x.2.isEmpty) := by
  induction series with
  | nil => rfl
  | cons s ss ih =>
    rw [evalSelector, evalSteps_sorted (hs s (List.mem_cons_self ..)) ts hts]
    simp only
    rw [ih (fun x hx => hs x (List.mem_cons_of_mem _ hx)), Option.map_some, List.map_cons, List.filter_cons]
    generalize (ts.filterMap fun t => (shownAt s.points t).map fun p => (t, p.v)) = ps
    cases ps with
    | nil => simp
    | cons a l => simp

theorem selectorMatrix_sorted (ts : List Int) (hts : ts.Pairwise (· ≤ ·)) (series : List SeriesData)
    (hs : ∀ s ∈ series, PointsSorted s.points) :
    selectorMatrix ts (some series) = some ((series.map fun s => (seriesLabels s,
      ts.filterMap fun t => (shownAt s.points t).map fun p => (t, p.v))).filter fun x => !x.2.isEmpty) := by
  unfold selectorMatrix
  simp only
  rw [expandSet_all]
  exact evalSelector_sorted ts hts series hs

end LogCache
