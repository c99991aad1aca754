import Verif.Spec.Marshal
import Verif.Proof.Num
import Verif.Proof.JsonNumber

/-! # Lemmas about the marshaler -/

namespace LogCache
open Spec
variable {F : Type}

theorem traverse_map {α β γ : Type} (f : α → Option β) (g : β → Option γ) (h : α → γ) (xs : List α)
    (hx : ∀ x ∈ xs, ∃ y, f x = some y ∧ g y = some (h x)) :
    ∃ ys, traverse f xs = some ys ∧ traverse g ys = some (xs.map h) ∧ ys.length = xs.length := by
  induction xs with
  | nil => exact ⟨[], rfl, rfl, rfl⟩
  | cons x xs ih =>
    obtain ⟨y, h1, h2⟩ := hx x (List.mem_cons_self ..)
    obtain ⟨ys, h3, h4, h5⟩ := ih fun z hz => hx z (List.mem_cons_of_mem _ hz)
    exact ⟨y :: ys, by simp [traverse, h1, h3], by simp [traverse, h2, h4], by simp [h5]⟩

theorem traverse_none {α β : Type} (f : α → Option β) (xs : List α) :
    traverse f xs = none ↔ ∃ x ∈ xs, f x = none := by
  induction xs with
  | nil => simp [traverse]
  | cons x xs ih =>
    simp only [traverse]
    cases hx : f x with
    | none => simp [hx]
    | some y =>
      simp only
      cases ht : traverse f xs with
      | none => simp [ih.1 ht]
      | some ys =>
        have : ¬ ∃ x ∈ xs, f x = none := fun h => by rw [ih.2 h] at ht; cases ht
        simp only [reduceCtorEq, false_iff]
        rintro ⟨z, hz, hn⟩
        rcases List.mem_cons.1 hz with rfl | hz
        · rw [hx] at hn; cases hn
        · exact this ⟨z, hz, hn⟩

theorem assemblePoint_none (fl : FloatLib F) (p : PPoint F) :
    assemblePoint fl p = none ↔ ¬ FiniteTime fl p.time := by
  unfold assemblePoint FiniteTime
  cases h : fl.parse p.time with
  | none => simp
  | some t =>
    simp only
    by_cases hv : validNumber (fl.fmt3 t) = true
    · rw [if_pos hv]; simp [(validNumber_iff _).1 hv]
    · rw [if_neg hv]; simp [mt (validNumber_iff _).2 hv]

theorem point_rt {fl : FloatLib F} (hl : FloatLaws fl) (p : PPoint F) (h : FiniteTime fl p.time) :
    ∃ j, assemblePoint fl p = some j ∧ disassemblePoint fl j = some (roundPoint fl p) := by
  obtain ⟨t, ht, hv⟩ := h
  obtain ⟨t', ht', hf⟩ := hl.three t hv
  refine ⟨.arr [.num (fl.fmt3 t), .str (fl.fmtShort p.value)], ?_, ?_⟩
  · unfold assemblePoint; rw [ht]; simp only; rw [if_pos ((validNumber_iff _).2 hv)]
  · simp only [disassemblePoint, ht', hl.short, hf, roundPoint, roundTime, ht]

theorem metric_rt (m : List (Str × Str)) : decodeMetric (some (assembleMetric m)) = some m := by
  unfold assembleMetric decodeMetric
  simp only
  induction m with
  | nil => rfl
  | cons kv m ih => simp only [List.map_cons, traverse, decodeTag, ih]

theorem sample_rt {fl : FloatLib F} (hl : FloatLaws fl) (s : PSample F) (h : FiniteTime fl s.point.time) :
    ∃ j, assembleSample fl s = some j ∧ decodeSample fl j = some ⟨s.metric, roundPoint fl s.point⟩ := by
  obtain ⟨j, h1, h2⟩ := point_rt hl s.point h
  refine ⟨_, by unfold assembleSample; rw [h1], ?_⟩
  have f1 : field [("metric".toList, assembleMetric s.metric), ("value".toList, j)] "metric" =
      some (assembleMetric s.metric) := rfl
  have f2 : field [("metric".toList, assembleMetric s.metric), ("value".toList, j)] "value" = some j := rfl
  simp only [decodeSample, f1, f2, metric_rt, Option.bind_some, h2]

theorem series_rt {fl : FloatLib F} (hl : FloatLaws fl) (s : PSeries F) (h : ∀ p ∈ s.points, FiniteTime fl p.time) :
    ∃ j, assembleSeries fl s = some j ∧ decodeSeries fl j = some ⟨s.metric, s.points.map (roundPoint fl)⟩ := by
  obtain ⟨ps, h1, h2, h3⟩ := traverse_map (assemblePoint fl) (disassemblePoint fl) (roundPoint fl) s.points
    fun p hp => point_rt hl p (h p hp)
  cases ps with
  | nil =>
    have hp : s.points = [] := List.length_eq_zero_iff.1 h3.symm
    refine ⟨.obj [("metric".toList, assembleMetric s.metric), ("values".toList, .null)],
      by unfold assembleSeries; rw [h1], ?_⟩
    have f1 : field [("metric".toList, assembleMetric s.metric), ("values".toList, .null)] "metric" =
        some (assembleMetric s.metric) := rfl
    have f2 : field [("metric".toList, assembleMetric s.metric), ("values".toList, .null)] "values" = some .null := rfl
    simp only [decodeSeries, f1, f2, metric_rt, decodeValues, hp, List.map_nil]
  | cons q qs =>
    refine ⟨.obj [("metric".toList, assembleMetric s.metric), ("values".toList, .arr (q :: qs))],
      by unfold assembleSeries; rw [h1], ?_⟩
    have f1 : field [("metric".toList, assembleMetric s.metric), ("values".toList, .arr (q :: qs))] "metric" =
        some (assembleMetric s.metric) := rfl
    have f2 : field [("metric".toList, assembleMetric s.metric), ("values".toList, .arr (q :: qs))] "values" =
        some (.arr (q :: qs)) := rfl
    simp only [decodeSeries, f1, f2, metric_rt, decodeValues, h2]

end LogCache
