import Verif.Props.Store
import Verif.Proof.Trip
/-!
# C77: exactly which reads crash on an unknown envelope type
-/
namespace LogCache
open Spec

/-- When no two envelopes of a source have equal timestamps, a read crashes
exactly when, going in the direction of the read through the stored envelopes
that are in the window and pass the name filter, it comes to one for which no
requested type before the unknown one fits, having found fewer than `limit`
results before it. -/
theorem C77_crash_iff_partial {cfg : Config} (hc : 1 ≤ cfg.maxPerSource) {ops : List Op}
    {st : Store} (h : Run (newStore cfg) ops st) (hd : DistinctTs ops) (src : Str) (a : GetArgs)
    (hl : 1 ≤ a.limit) :
    get st src a = none ↔
      ∃ ts before e after, a.types = some ts ∧
        ((readOrder a.descending (st.envelopes src)).filter
          (inWindow a.start a.stop)).filterMap (project a.nameFilter) = before ++ e :: after ∧
        Trips ts e ∧ ((before.filter (typeOk a.types)).length : Int) < a.limit := by
  unfold get
  have hu := distinct_unfudged hc h hd src
  unfold Store.entries at hu
  unfold Store.envelopes Store.entries
  cases hld : idxLoad st.index src with
  | none =>
    simp only [reduceCtorEq, false_iff]
    rintro ⟨ts, before, e, after, -, h2, -⟩
    unfold readOrder at h2
    split at h2 <;> simp at h2
  | some s =>
    rw [hld] at hu
    exact getTree_panics s.tree a (idxOk_load (run_inv hc h).1.idx hld).bst hu hl

/-- Whatever the timestamps and the history: a read that crashes has an envelope in its window
that passes the name filter and for which no requested type before the unknown one fits. -/
theorem C77_crash_only {st : Store} {src : Str} {a : GetArgs} (h : get st src a = none) :
    ∃ ts e x, a.types = some ts ∧ e ∈ st.envelopes src ∧ inWindow a.start a.stop e = true ∧
      project a.nameFilter e = some x ∧ Trips ts x := by
  unfold get at h
  unfold Store.envelopes Store.entries
  cases hld : idxLoad st.index src with
  | none => rw [hld] at h; cases h
  | some s =>
    rw [hld] at h
    simp only at h
    unfold getTree at h
    split at h
    · exact desc_crash a s.tree [] h
    · exact asc_crash a s.tree [] h

/-- Equal timestamps allowed, if the storage order agrees with the order of time (as it does for
envelopes that arrive in order): a read crashes if it comes to such an envelope having found
fewer than `limit` results before it. Missing: equal timestamps of envelopes that arrive out of
order, where the read may miss the envelope (`C03_ascending_complete_false`), and how far beyond
its limit it goes. -/
theorem C77_crash_monotone_partial {st : Store} {src : Str} {a : GetArgs} (hl : 1 ≤ a.limit)
    (hm : (st.envelopes src).Pairwise (fun x y => x.timestamp ≤ y.timestamp))
    (h : ∃ ts before e after, a.types = some ts ∧
        ((readOrder a.descending (st.envelopes src)).filter
          (inWindow a.start a.stop)).filterMap (project a.nameFilter) = before ++ e :: after ∧
        Trips ts e ∧ ((before.filter (typeOk a.types)).length : Int) < a.limit) :
    get st src a = none := by
  unfold get
  unfold Store.envelopes Store.entries at hm h
  cases hld : idxLoad st.index src with
  | none =>
    rw [hld] at h
    obtain ⟨ts, before, e, after, -, h2, -⟩ := h
    unfold readOrder at h2
    split at h2 <;> simp at h2
  | some s =>
    rw [hld] at h hm
    have hm : TsMono s.tree.envs := hm
    have hs := (scan_panics a ((readOrder a.descending s.tree.envs).filter (inWindow a.start a.stop)) [] (by simp; omega)).2
      (by simpa [Tree.envs] using h)
    show getTree s.tree a = none
    unfold getTree
    unfold readOrder at hs
    split
    · rename_i hd
      rw [if_pos hd, ← winDesc_scan _ _ _ _ (List.pairwise_reverse.2 hm)] at hs
      exact (desc_far a s.tree hm (some [])).2 hs
    · rename_i hd
      rw [if_neg hd, ← winAsc_scan _ _ _ _ hm] at hs
      exact (asc_far a s.tree hm (some [])).2 hs

/-- With room for all results, such a read crashes exactly when there is such an envelope. -/
theorem C77_crash_all_partial {st : Store} {src : Str} {a : GetArgs}
    (hl : ((st.envelopes src).length : Int) < a.limit)
    (hm : (st.envelopes src).Pairwise (fun x y => x.timestamp ≤ y.timestamp)) :
    get st src a = none ↔ ∃ ts e x, a.types = some ts ∧ e ∈ st.envelopes src ∧
      inWindow a.start a.stop e = true ∧ project a.nameFilter e = some x ∧ Trips ts x := by
  refine ⟨C77_crash_only, ?_⟩
  rintro ⟨ts, e, x, h1, h2, h3, h4, h5⟩
  have hx : x ∈ ((readOrder a.descending (st.envelopes src)).filter
      (inWindow a.start a.stop)).filterMap (project a.nameFilter) := by
    refine List.mem_filterMap.2 ⟨e, List.mem_filter.2 ⟨?_, h3⟩, h4⟩
    unfold readOrder
    split
    · exact List.mem_reverse.2 h2
    · exact h2
  obtain ⟨before, after, hba⟩ := List.append_of_mem hx
  refine C77_crash_monotone_partial (by omega) hm ⟨ts, before, x, after, h1, hba, h5, ?_⟩
  have l1 : before.length ≤ (st.envelopes src).length := by
    have := congrArg List.length hba
    have h6 := List.length_filterMap_le (project a.nameFilter)
      ((readOrder a.descending (st.envelopes src)).filter (inWindow a.start a.stop))
    have h7 := List.length_filter_le (inWindow a.start a.stop) (readOrder a.descending (st.envelopes src))
    have h8 : (readOrder a.descending (st.envelopes src)).length = (st.envelopes src).length := by
      unfold readOrder; split <;> simp
    simp only [List.length_append, List.length_cons] at this
    omega
  have l2 := List.length_filter_le (typeOk a.types) before
  omega

/-- In particular a request is safe, whatever the timestamps, when ANY stands before the first
unknown type. -/
theorem C77_safe_before {st : Store} {src : Str} {a : GetArgs} {known rest : List EType}
    (hts : a.types = some (known ++ rest)) (hk : ∀ n, EType.other n ∉ known) (hany : EType.any ∈ known) :
    ∃ res, get st src a = some res := by
  cases hg : get st src a with
  | some res => exact ⟨res, rfl⟩
  | none =>
    obtain ⟨ts, e, x, h1, -, -, -, ⟨b, n, c, h2, h3⟩⟩ := C77_crash_only hg
    rw [hts] at h1
    cases h1
    exfalso
    rcases List.append_eq_append_iff.1 h2 with ⟨m, hm, -⟩ | ⟨m, hm, hm'⟩
    · rw [hm] at h3
      simp [typeOk, hany] at h3
    · cases m with
      | nil =>
        rw [List.append_nil] at hm
        rw [← hm] at h3
        simp [typeOk, hany] at h3
      | cons x xs =>
        have hx := (List.cons.inj hm').1
        exact hk n (by rw [hm, hx]; simp)

/-- A counter envelope. -/
def countAt (ts : Int) : Envelope := { timestamp := ts, message := some (.counter "c".toList 1 1) }

/-- A log and a counter, asked for as LOG or number 9: reading up to the log is
safe, reading on to the counter is not. -/
example : ∃ st, Run (newStore { maxPerSource := 5 })
      (puts [("a", logAt 1), ("a", countAt 2)]) st ∧
    DistinctTs (puts [("a", logAt 1), ("a", countAt 2)]) ∧
    get st "a".toList { start := 0, stop := 10, limit := 1, types := some [.log, .other 9] }
      = some [logAt 1] ∧
    get st "a".toList { start := 0, stop := 10, limit := 2, types := some [.log, .other 9] }
      = none ∧
    get st "a".toList
      { start := 0, stop := 10, limit := 1, types := some [.log, .other 9], descending := true }
      = none :=
  ⟨after _ _, run_after (by decide), distinct_puts (by decide), by decide, by decide, by decide⟩

/-- Two logs and a counter of one time. -/
example : ∃ st, Run (newStore { maxPerSource := 5 }) (puts [("a", logAt 1), ("a", logAt 1), ("a", countAt 1)]) st ∧
    (st.envelopes "a".toList).Pairwise (fun x y => x.timestamp ≤ y.timestamp) ∧
    get st "a".toList { start := 0, stop := 10, limit := 9, types := some [.log, .other 9] } = none ∧
    get st "a".toList { start := 0, stop := 10, limit := 9, types := some [.any, .other 9] } ≠ none :=
  ⟨after _ _, run_after (by decide), by decide, by decide, by decide⟩

end LogCache
