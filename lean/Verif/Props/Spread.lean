import Verif.Proof.Spread
import Verif.Props.Store
import Verif.Props.Trip
/-!
# Reads of sources with equal timestamps that are spread out (C03, C04, C07, C77)
-/
namespace LogCache
open Spec

/-- Distinct timestamps are spread. -/
theorem distinct_spread {ops : List Op} (hd : DistinctTs ops) (src : Str) : Spread (putsOf ops src) := by
  intro x hx y _ hlt
  have h1 : howMany (putsOf ops src) x.timestamp ≤ 1 := by
    have hn := hd src
    revert hn
    clear hx hd
    unfold howMany
    generalize putsOf ops src = l
    intro hn
    induction l with
    | nil => simp
    | cons a l ih =>
      rw [List.map_cons, List.nodup_cons] at hn
      by_cases ha : a.timestamp = x.timestamp
      · rw [List.filter_cons_of_pos (by simpa using ha), List.length_cons]
        have : l.filter (fun z => decide (z.timestamp = x.timestamp)) = [] := by
          rw [List.filter_eq_nil_iff]
          intro z hz he
          exact hn.1 (List.mem_map.2 ⟨z, hz, by rw [ha]; simpa using he⟩)
        rw [this]
        simp
      · rw [List.filter_cons_of_neg (by simpa using ha)]
        exact ih hn.2
  omega

/-- When equal timestamps are spread out, in whatever order the envelopes arrived and whatever
was evicted or pruned: the stored envelopes are in the order of time, and a read in either
direction returns a prefix of the matching ones, all of them or at least `limit`. -/
theorem C03_spread_partial {cfg : Config} (hc : 1 ≤ cfg.maxPerSource) {ops : List Op} {st : Store}
    (h : Run (newStore cfg) ops st) {src : Str} (hs : Spread (putsOf ops src)) {a : GetArgs} {res : List Envelope}
    (hg : get st src a = some res) :
    (st.envelopes src).Pairwise (fun x y => x.timestamp ≤ y.timestamp) ∧
    res <+: answer a.start a.stop a.types a.nameFilter (readOrder a.descending (st.envelopes src)) ∧
    (res = answer a.start a.stop a.types a.nameFilter (readOrder a.descending (st.envelopes src)) ∨
      a.limit ≤ (res.length : Int)) := by
  have hm := near_ordered (spread_near hc h src hs) hs (idxEntries_sorted (run_inv hc h).1.idx src)
  exact ⟨hm, C03_ascending_monotone_partial hm hg⟩

private theorem spread_room {cfg : Config} (hc : 1 ≤ cfg.maxPerSource) {ops : List Op} {st : Store}
    (h : Run (newStore cfg) ops st) {src : Str} (hs : Spread (putsOf ops src)) {a : GetArgs} {res : List Envelope}
    (hl : ((st.envelopes src).length : Int) < a.limit) (hg : get st src a = some res) :
    res = answer a.start a.stop a.types a.nameFilter (readOrder a.descending (st.envelopes src)) := by
  obtain ⟨-, h2, h3⟩ := C03_spread_partial hc h hs hg
  rcases h3 with h3 | h3
  · exact h3
  · exfalso
    have h4 := h2.length_le
    have h5 : (answer a.start a.stop a.types a.nameFilter (readOrder a.descending (st.envelopes src))).length ≤
        (st.envelopes src).length := by
      unfold answer
      refine Nat.le_trans (List.length_filter_le ..) (Nat.le_trans (List.length_filterMap_le ..) (Nat.le_trans (List.length_filter_le ..) ?_))
      unfold readOrder
      split <;> simp
    omega

/-- An ascending read with room for all results then returns exactly the matching envelopes, the
oldest first. -/
theorem C03_spread_all_partial {cfg : Config} (hc : 1 ≤ cfg.maxPerSource) {ops : List Op} {st : Store}
    (h : Run (newStore cfg) ops st) {src : Str} (hs : Spread (putsOf ops src)) {a : GetArgs} {res : List Envelope}
    (hasc : a.descending = false) (hl : ((st.envelopes src).length : Int) < a.limit) (hg : get st src a = some res) :
    res = answer a.start a.stop a.types a.nameFilter (st.envelopes src) ∧
    res.Pairwise (fun x y => x.timestamp ≤ y.timestamp) := by
  have h1 := spread_room hc h hs hl hg
  unfold readOrder at h1
  rw [hasc, if_neg (by decide)] at h1
  refine ⟨h1, ?_⟩
  rw [h1]
  unfold answer
  apply List.Pairwise.filter
  rw [List.pairwise_filterMap]
  refine List.Pairwise.imp ?_ ((C03_spread_partial hc h hs hg).1.filter _)
  intro x y hxy x' hx' y' hy'
  rw [project_timestamp hx', project_timestamp hy']
  exact hxy

/-- A descending one the same, the newest first. -/
theorem C04_spread_all_partial {cfg : Config} (hc : 1 ≤ cfg.maxPerSource) {ops : List Op} {st : Store}
    (h : Run (newStore cfg) ops st) {src : Str} (hs : Spread (putsOf ops src)) {a : GetArgs} {res : List Envelope}
    (hdesc : a.descending = true) (hl : ((st.envelopes src).length : Int) < a.limit) (hg : get st src a = some res) :
    res = answer a.start a.stop a.types a.nameFilter (st.envelopes src).reverse ∧
    res.Pairwise (fun x y => y.timestamp ≤ x.timestamp) := by
  have h1 := spread_room hc h hs hl hg
  unfold readOrder at h1
  rw [hdesc, if_pos rfl] at h1
  refine ⟨h1, ?_⟩
  rw [h1]
  unfold answer
  apply List.Pairwise.filter
  rw [List.pairwise_filterMap]
  refine List.Pairwise.imp ?_ ((List.pairwise_reverse.2 (C03_spread_partial hc h hs hg).1).filter _)
  intro x y hxy x' hx' y' hy'
  rw [project_timestamp hx', project_timestamp hy']
  exact hxy

/-- Then a Put destroys nothing either, if no more than `maxFudge` envelopes have one time: it
adds its envelope to what was stored, but for the oldest entry if the source was full. -/
theorem C07_spread_partial {cfg : Config} (hc : 1 ≤ cfg.maxPerSource) {ops : List Op} {st st' : Store}
    (h : Run (newStore cfg) ops st) {now : Int} {src : Str} {e : Envelope}
    (hs : Spread (putsOf ops src ++ [e])) (hfew : howMany (putsOf ops src) e.timestamp < cfg.maxFudge)
    (hp : put now st src e = some st') :
    (st'.envelopes src).Perm (e :: if (cfg.maxPerSource ≤ ((st.envelopes src).length : Int))
      then (st.envelopes src).tail else st.envelopes src) := by
  obtain ⟨hi, hcfg⟩ := run_inv hc h
  obtain ⟨f, hf⟩ := put_spec hi.idx hp
  have hroom := near_mono (spread_near hc h src (spread_prefix hs)) (List.prefix_refl _)
    (makeRoom_sublist st.cfg.maxPerSource (st.entries src))
  have hfud := near_fudge hroom hs hf.taken
  have hfree := hf.free (by rw [hcfg]; omega)
  unfold Store.envelopes
  rw [hf.entries]
  refine ((insertKV_perm_new hfree).map Prod.snd).trans ?_
  rw [List.map_cons, map_makeRoom, hcfg]

/-- And exactly when a read with room for all results crashes. -/
theorem C77_crash_spread_partial {cfg : Config} (hc : 1 ≤ cfg.maxPerSource) {ops : List Op} {st : Store}
    (h : Run (newStore cfg) ops st) {src : Str} (hs : Spread (putsOf ops src)) {a : GetArgs}
    (hl : ((st.envelopes src).length : Int) < a.limit) :
    get st src a = none ↔ ∃ ts e x, a.types = some ts ∧ e ∈ st.envelopes src ∧
      inWindow a.start a.stop e = true ∧ project a.nameFilter e = some x ∧ Trips ts x :=
  C77_crash_all_partial hl (near_ordered (spread_near hc h src hs) hs (idxEntries_sorted (run_inv hc h).1.idx src))

/-- Three envelopes of one time and an earlier and a later one, out of order. -/
example : ∃ st, Run (newStore { maxPerSource := 5 })
      (puts [("a", logAt 7), ("a", countAt 4), ("a", logAt 4), ("a", logAt 3), ("a", logAt 4)]) st ∧
    Spread (putsOf (puts [("a", logAt 7), ("a", countAt 4), ("a", logAt 4), ("a", logAt 3), ("a", logAt 4)]) "a".toList) ∧
    ¬ DistinctTs (puts [("a", logAt 7), ("a", countAt 4), ("a", logAt 4), ("a", logAt 3), ("a", logAt 4)]) ∧
    get st "a".toList { start := 4, stop := 5, limit := 9 } = some [countAt 4, logAt 4, logAt 4] := by
  refine ⟨after _ _, run_after (by decide), by unfold Spread; decide, fun h => ?_, by decide⟩
  exact absurd (h "a".toList) (by decide)

end LogCache
