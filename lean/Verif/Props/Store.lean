import Verif.Proof.Clean
/-!
# Property theorems about the store (C01–C18, C26)

`Run (newStore cfg) ops st` says that the calls `ops` take a new store to `st`.
`st.entries src` are the stored (key, envelope) pairs of a source in storage
order, `st.envelopes src` the envelopes.  Specifications are in `Verif/Spec`.
-/
namespace LogCache
open Spec

/-! ## C01 -/

/-- No source ever holds more than `maxPerSource` envelopes. -/
theorem C01_capacity {cfg : Config} (hc : 1 ≤ cfg.maxPerSource) {ops : List Op} {st : Store}
    (h : Run (newStore cfg) ops st) (src : Str) :
    ((st.envelopes src).length : Int) ≤ cfg.maxPerSource := by
  obtain ⟨hi, hcfg⟩ := run_inv hc h
  unfold Store.envelopes Store.entries
  cases hl : idxLoad st.index src with
  | none => simp; omega
  | some s => have := (idxOk_load hi.idx hl).cap; rw [hcfg] at this; simpa using this

/-- A Put into a store with capacity at least 1 always succeeds. -/
theorem C01_put_total {cfg : Config} (hc : 1 ≤ cfg.maxPerSource) {ops : List Op} {st : Store}
    (h : Run (newStore cfg) ops st) (now : Int) (src : Str) (e : Envelope) :
    ∃ st', put now st src e = some st' := by
  obtain ⟨hi, hcfg⟩ := run_inv hc h
  exact put_total hi.idx (by rw [hcfg]; exact hc) now src e

/-- three Puts into a source of capacity 2 -/
example : ∃ st, Run (newStore { maxPerSource := 2 })
    (puts [("a", logAt 1), ("a", logAt 2), ("a", logAt 3)]) st ∧
    st.envelopes "a".toList = [logAt 2, logAt 3] :=
  ⟨after _ _, run_after (by decide), by decide⟩

/-! ## C02 -/

/-- The order in which a read goes through the stored envelopes. -/
def readOrder (descending : Bool) (l : List Envelope) : List Envelope :=
  if descending then l.reverse else l

/-- A read returns only envelopes that were put under the source, lie in the
window, pass the name filter and have a requested type. -/
theorem C02_read_sound {cfg : Config} (hc : 1 ≤ cfg.maxPerSource) {ops : List Op} {st : Store}
    (h : Run (newStore cfg) ops st) {src : Str} {a : GetArgs} {res : List Envelope}
    (hg : get st src a = some res) :
    ∀ e ∈ res, ∃ o ∈ putsOf ops src, o ∈ st.envelopes src ∧
      a.start ≤ e.timestamp ∧ e.timestamp < a.stop ∧ e.timestamp = o.timestamp ∧
      project a.nameFilter o = some e ∧ typeOk a.types e = true := by
  unfold get at hg
  cases hl : idxLoad st.index src with
  | none => rw [hl] at hg; simp at hg; subst hg; intro e he; cases he
  | some s =>
    rw [hl] at hg
    intro e he
    have hsub := getTree_sound s.tree a res hg
    have hm := hsub.subset he
    unfold GetArgs.answer Spec.answer at hm
    obtain ⟨hm, hty⟩ := List.mem_filter.1 hm
    obtain ⟨o, ho, hp⟩ := List.mem_filterMap.1 hm
    obtain ⟨ho, hw⟩ := List.mem_filter.1 ho
    have ho' : o ∈ s.tree.envs := by
      unfold walkOrder at ho; split at ho
      · exact List.mem_reverse.1 ho
      · exact ho
    obtain ⟨x, hx, rfl⟩ := List.mem_map.1 ho'
    have hent : x ∈ st.entries src := by unfold Store.entries; rw [hl]; exact hx
    have hts : e.timestamp = x.2.timestamp := by
      unfold project at hp
      split at hp
      · cases hp; rfl
      · split at hp
        · simp only [Option.some.injEq] at hp
          rw [← hp]; unfold restrict; split <;> rfl
        · cases hp
    simp only [inWindow, Bool.and_eq_true, decide_eq_true_eq] at hw
    exact ⟨x.2, stored_was_put hc h src x hent, List.mem_map.2 ⟨x, hent, rfl⟩, by omega, by omega,
      hts, hp, hty⟩

/-- No entry is returned twice and the storage order is respected: the result is
a subsequence of the matching entries in (reverse) storage order, and storage
order has strictly increasing keys. -/
theorem C02_read_order {cfg : Config} (hc : 1 ≤ cfg.maxPerSource) {ops : List Op} {st : Store}
    (h : Run (newStore cfg) ops st) {src : Str} {a : GetArgs} {res : List Envelope}
    (hg : get st src a = some res) :
    res.Sublist (answer a.start a.stop a.types a.nameFilter
      (readOrder a.descending (st.envelopes src))) ∧ Sorted (st.entries src) := by
  refine ⟨?_, idxEntries_sorted (run_inv hc h).1.idx src⟩
  unfold get at hg
  unfold Store.envelopes Store.entries
  cases hl : idxLoad st.index src with
  | none =>
    rw [hl] at hg; simp only [Option.some.injEq] at hg; subst hg; exact List.nil_sublist _
  | some s => rw [hl] at hg; exact getTree_sound s.tree a res hg

/-- A read panics only when an unknown enum value is requested. -/
theorem C02_read_total (st : Store) (src : Str) (a : GetArgs)
    (hk : ∀ ts, a.types = some ts → ∀ n, EType.other n ∉ ts) : ∃ res, get st src a = some res := by
  unfold get
  cases idxLoad st.index src with
  | none => exact ⟨_, rfl⟩
  | some s => exact getTree_known s.tree a hk

/-- …and it does panic then: a client can crash the server with one request. -/
theorem C77_unknown_type_panics :
    ∃ ops st src a, Run (newStore { maxPerSource := 5 }) ops st ∧ get st src a = none :=
  ⟨_, _, "a".toList, { start := 0, stop := 10, limit := 10, types := some [.other 9] },
    run_after (cfg := { maxPerSource := 5 }) (l := [("a", logAt 1)]) (by decide), by decide⟩

example : ∃ st, Run (newStore { maxPerSource := 5 })
    (puts [("a", logAt 1), ("a", logAt 2), ("b", logAt 3), ("a", logAt 9)]) st ∧
    get st "a".toList { start := 2, stop := 9, limit := 10 } = some [logAt 2] :=
  ⟨after _ _, run_after (by decide), by decide⟩

/-! ## C03 / C04 -/

theorem get_distinct {cfg : Config} (hc : 1 ≤ cfg.maxPerSource) {ops : List Op} {st : Store}
    (h : Run (newStore cfg) ops st) (hd : DistinctTs ops) {src : Str} {a : GetArgs}
    (hl : 1 ≤ a.limit) {res : List Envelope} (hg : get st src a = some res) :
    res = (answer a.start a.stop a.types a.nameFilter
      (readOrder a.descending (st.envelopes src))).take a.limit.toNat := by
  unfold get at hg
  have hu := distinct_unfudged hc h hd src
  unfold Store.entries at hu
  unfold Store.envelopes Store.entries
  cases hld : idxLoad st.index src with
  | none =>
    rw [hld] at hg; simp only [Option.some.injEq] at hg; subst hg
    unfold readOrder; split <;> simp [answer]
  | some s =>
    rw [hld] at hg hu
    exact getTree_exact s.tree a (idxOk_load (run_inv hc h).1.idx hld).bst hu hl res hg

theorem envelopes_ordered {cfg : Config} (hc : 1 ≤ cfg.maxPerSource) {ops : List Op} {st : Store}
    (h : Run (newStore cfg) ops st) (hd : DistinctTs ops) (src : Str) :
    (st.envelopes src).Pairwise (fun x y => x.timestamp < y.timestamp) := by
  have hu := distinct_unfudged hc h hd src
  have hs := idxEntries_sorted (run_inv hc h).1.idx src
  unfold Store.envelopes
  rw [List.pairwise_map]
  refine List.Pairwise.imp_of_mem ?_ hs
  intro x y hx hy hxy
  rw [hu x hx, hu y hy]; exact hxy

/-- With distinct timestamps: the stored envelopes are ordered by timestamp and an
ascending read returns the first `limit` matching ones.
Missing for the full property: equal timestamps, where it is false
(`C03_ascending_complete_false`). -/
theorem C03_ascending_complete_partial {cfg : Config} (hc : 1 ≤ cfg.maxPerSource) {ops : List Op}
    {st : Store} (h : Run (newStore cfg) ops st) (hd : DistinctTs ops) {src : Str} {a : GetArgs}
    (hasc : a.descending = false) (hl : 1 ≤ a.limit) {res : List Envelope}
    (hg : get st src a = some res) :
    (st.envelopes src).Pairwise (fun x y => x.timestamp < y.timestamp) ∧
    res = (answer a.start a.stop a.types a.nameFilter (st.envelopes src)).take a.limit.toNat := by
  refine ⟨envelopes_ordered hc h hd src, ?_⟩
  have := get_distinct hc h hd hl hg
  rwa [hasc] at this

/-- With equal timestamps allowed but storage order agreeing with timestamp order,
an ascending read still returns a prefix of the matching envelopes, and either
all of them or at least `limit`. -/
theorem C03_ascending_monotone_partial {st : Store} {src : Str} {a : GetArgs}
    (hm : (st.envelopes src).Pairwise (fun x y => x.timestamp ≤ y.timestamp))
    {res : List Envelope} (hg : get st src a = some res) :
    res <+: answer a.start a.stop a.types a.nameFilter
        (readOrder a.descending (st.envelopes src)) ∧
    (res = answer a.start a.stop a.types a.nameFilter
        (readOrder a.descending (st.envelopes src)) ∨ a.limit ≤ (res.length : Int)) := by
  unfold get at hg
  unfold Store.envelopes Store.entries at hm ⊢
  cases hld : idxLoad st.index src with
  | none =>
    rw [hld] at hg; simp only [Option.some.injEq] at hg; subst hg
    unfold readOrder; split <;> simp [answer]
  | some s => rw [hld] at hg hm; exact getTree_mono s.tree a hm res hg

/-- When the envelopes of a source arrive in timestamp order (equal timestamps
allowed), nothing is evicted, pruned or overwritten, storage order is arrival
order, and a read returns a prefix of the matching envelopes in arrival order
(reversed when descending): all of them or at least `limit`. -/
theorem C03_in_order_partial {cfg : Config} (hc : 1 ≤ cfg.maxPerSource) {ops : List Op}
    {st : Store} (h : Run (newStore cfg) ops st) (hn : NoPrune ops) {src : Str}
    (hord : InOrder (putsOf ops src)) (hlen : ((putsOf ops src).length : Int) ≤ cfg.maxPerSource)
    (hsp : ∀ src, Sparse cfg.maxFudge (putsOf ops src)) {a : GetArgs} {res : List Envelope}
    (hg : get st src a = some res) :
    st.envelopes src = putsOf ops src ∧
    res <+: answer a.start a.stop a.types a.nameFilter (readOrder a.descending (putsOf ops src)) ∧
    (res = answer a.start a.stop a.types a.nameFilter (readOrder a.descending (putsOf ops src)) ∨
      a.limit ≤ (res.length : Int)) := by
  obtain ⟨gh, hgh⟩ := run_hist h
  have he := (inorder_storage hc hgh hn src hord hlen ((sparse_drift hc hgh hsp).2 src)).1
  have := C03_ascending_monotone_partial (by rw [he]; exact hord) hg
  rw [he] at this
  exact ⟨he, this⟩

/-- equal timestamps in order -/
example : ∃ ops st, Run (newStore { maxPerSource := 9 }) ops st ∧ NoPrune ops ∧
    InOrder (putsOf ops "a".toList) ∧ ((putsOf ops "a".toList).length : Int) ≤ 9 ∧
    Sparse 4000 (putsOf ops "a".toList) ∧
    (st.envelopes "a".toList).map Envelope.timestamp = [1, 1, 1, 2] :=
  ⟨_, _, run_after (cfg := { maxPerSource := 9 })
    (l := [("a", logAt 1 "p"), ("a", logAt 1 "q"), ("a", logAt 1 "r"), ("a", logAt 2)])
    (by decide), by unfold NoPrune; decide, by unfold InOrder; decide, by decide,
    by unfold Sparse; decide, by decide⟩

/-- In the full property `limit` results are the oldest matching ones.  It fails
with equal timestamps: after Puts with timestamps 3,2,1,1 the second `1` gets
the storage key 4, and a read of `[1,2)` with room for 10 results misses it. -/
theorem C03_ascending_complete_false :
    ∃ ops st e res, Run (newStore { maxPerSource := 10 }) ops st ∧
      get st "a".toList { start := 1, stop := 2, limit := 10 } = some res ∧
      e ∈ st.envelopes "a".toList ∧ e.timestamp = 1 ∧ e ∉ res :=
  ⟨_, _, logAt 1 "q", _,
    run_after (cfg := { maxPerSource := 10 })
      (l := [("a", logAt 3), ("a", logAt 2), ("a", logAt 1 "p"), ("a", logAt 1 "q")]) (by decide),
    rfl, by decide, by decide, by decide⟩

/-- distinct timestamps put out of order -/
example : ∃ ops st, Run (newStore { maxPerSource := 3 }) ops st ∧ DistinctTs ops ∧
    get st "a".toList { start := 2, stop := 9, limit := 2 } = some [logAt 4, logAt 5] := by
  refine ⟨_, _, run_after (cfg := { maxPerSource := 3 })
    (l := [("a", logAt 5), ("a", logAt 3), ("b", logAt 3), ("a", logAt 8), ("a", logAt 4)])
    (by decide), distinct_puts (by decide), by decide⟩

/-- With distinct timestamps a descending read returns the last `limit` matching
envelopes, newest first.  Missing for the full property: equal timestamps, where
it is false (`C04_descending_complete_false`). -/
theorem C04_descending_complete_partial {cfg : Config} (hc : 1 ≤ cfg.maxPerSource)
    {ops : List Op} {st : Store} (h : Run (newStore cfg) ops st) (hd : DistinctTs ops) {src : Str}
    {a : GetArgs} (hdesc : a.descending = true) (hl : 1 ≤ a.limit) {res : List Envelope}
    (hg : get st src a = some res) :
    (st.envelopes src).Pairwise (fun x y => x.timestamp < y.timestamp) ∧
    res = (answer a.start a.stop a.types a.nameFilter (st.envelopes src).reverse).take
      a.limit.toNat := by
  refine ⟨envelopes_ordered hc h hd src, ?_⟩
  have := get_distinct hc h hd hl hg
  rwa [hdesc] at this

/-- Three Puts with timestamps 2,1,1: a descending read of `[1,2)` with room for
10 results returns only one of the two. -/
theorem C04_descending_complete_false :
    ∃ ops st e res, Run (newStore { maxPerSource := 10 }) ops st ∧
      get st "a".toList { start := 1, stop := 2, limit := 10, descending := true } = some res ∧
      e ∈ st.envelopes "a".toList ∧ e.timestamp = 1 ∧ e ∉ res :=
  ⟨_, _, logAt 1 "q", _,
    run_after (cfg := { maxPerSource := 10 })
      (l := [("a", logAt 2), ("a", logAt 1 "p"), ("a", logAt 1 "q")]) (by decide),
    rfl, by decide, by decide, by decide⟩

/-! ## C05 / C06 -/

/-- With distinct timestamps a read never returns more than `limit` envelopes.
The full property (an overshoot only completes a group of equal timestamps) is
false: `C05_limit_false`. -/
theorem C05_limit_partial {cfg : Config} (hc : 1 ≤ cfg.maxPerSource) {ops : List Op} {st : Store}
    (h : Run (newStore cfg) ops st) (hd : DistinctTs ops) {src : Str} {a : GetArgs}
    (hl : 1 ≤ a.limit) {res : List Envelope} (hg : get st src a = some res) :
    (res.length : Int) ≤ a.limit := by
  rw [get_distinct hc h hd hl hg, List.length_take]; omega

/-- Timestamps 1,1,10 and limit 2: the read returns all three although the third
has a timestamp of its own. -/
theorem C05_limit_false :
    ∃ ops st res, Run (newStore { maxPerSource := 10 }) ops st ∧
      get st "a".toList { start := 0, stop := 20, limit := 2 } = some res ∧
      res.map Envelope.timestamp = [1, 1, 10] :=
  ⟨_, _, _, run_after (cfg := { maxPerSource := 10 })
      (l := [("a", logAt 1 "p"), ("a", logAt 1 "q"), ("a", logAt 10)]) (by decide),
    rfl, by decide⟩

/-- Three envelopes with one timestamp and limit 1: the group is split, so a
client that resumes after the last timestamp loses two envelopes. -/
theorem C06_group_split_false :
    ∃ ops st res, Run (newStore { maxPerSource := 10 }) ops st ∧
      get st "a".toList { start := 0, stop := 20, limit := 1 } = some res ∧
      res = [logAt 1 "p"] ∧ (st.envelopes "a".toList).map Envelope.timestamp = [1, 1, 1] :=
  ⟨_, _, _, run_after (cfg := { maxPerSource := 10 })
      (l := [("a", logAt 1 "p"), ("a", logAt 1 "q"), ("a", logAt 1 "r")]) (by decide),
    rfl, by decide, by decide⟩

/-- With distinct timestamps resuming one past the last returned timestamp loses
and repeats nothing: the rest of the answer is the answer to the resumed read. -/
theorem C06_resume_partial {cfg : Config} (hc : 1 ≤ cfg.maxPerSource) {ops : List Op} {st : Store}
    (h : Run (newStore cfg) ops st) (hd : DistinctTs ops) {src : Str} {a : GetArgs}
    (hasc : a.descending = false) (hl : 1 ≤ a.limit) {res : List Envelope} {last : Envelope}
    (hg : get st src a = some (res ++ [last])) :
    answer a.start a.stop a.types a.nameFilter (st.envelopes src) =
      (res ++ [last]) ++
        answer (last.timestamp + 1) a.stop a.types a.nameFilter (st.envelopes src) := by
  have h1 := (C03_ascending_complete_partial hc h hd hasc hl hg).2
  have hlast := C02_read_sound hc h hg last (by simp)
  obtain ⟨o, -, -, hstart, -⟩ := hlast
  rw [answer_later (by omega : a.start ≤ last.timestamp + 1)]
  have hsorted := answer_sorted (envelopes_ordered hc h hd src) a.start a.stop a.types a.nameFilter
  generalize answer a.start a.stop a.types a.nameFilter (st.envelopes src) = A at h1 hsorted
  rw [← List.take_append_drop a.limit.toNat A, ← h1] at hsorted ⊢
  generalize List.drop a.limit.toNat A = D at hsorted
  rw [List.append_assoc, List.pairwise_append] at hsorted
  obtain ⟨-, hD, hres⟩ := hsorted
  rw [List.singleton_append, List.pairwise_cons] at hD
  have e1 : List.filter (fun e => decide (last.timestamp + 1 ≤ e.timestamp)) res = [] := by
    rw [List.filter_eq_nil_iff]; intro x hx; have := hres x hx last (by simp); simp; omega
  have e2 : List.filter (fun e => decide (last.timestamp + 1 ≤ e.timestamp)) D = D := by
    rw [List.filter_eq_self]; intro x hx; have := hD.1 x hx; simp; omega
  simp only [List.filter_append, e1, e2, List.filter_cons, List.filter_nil]
  simp; omega

/-! ## C07 / C08 -/

/-- Below capacity and with one of the keys from its timestamp on free, a Put
adds the envelope and keeps everything.  Missing for the full property: the case
that all `maxFudge + 1` keys are taken, where it is false
(`C07_put_keeps_all_false`). -/
theorem C07_put_keeps_all_partial {cfg : Config} (hc : 1 ≤ cfg.maxPerSource) {ops : List Op}
    {st st' : Store} (h : Run (newStore cfg) ops st) {now : Int} {src : Str} {e : Envelope}
    (hcap : ((st.envelopes src).length : Int) < cfg.maxPerSource)
    (hfree : ∃ i : Nat, i ≤ cfg.maxFudge ∧ e.timestamp + i ∉ keys (st.entries src))
    (hp : put now st src e = some st') :
    ∃ key, e.timestamp ≤ key ∧ key ≤ e.timestamp + cfg.maxFudge ∧
      (st'.entries src).Perm ((key, e) :: st.entries src) := by
  obtain ⟨hi, hcfg⟩ := run_inv hc h
  obtain ⟨f, hf⟩ := put_spec hi.idx hp
  have hroom : makeRoom st.cfg.maxPerSource (st.entries src) = st.entries src := by
    unfold makeRoom
    have : (st.envelopes src).length = (st.entries src).length := by simp [Store.envelopes]
    rw [hcfg, if_neg (by omega)]
  have hno : e.timestamp + f ∉ keys (st.entries src) := by
    intro hm
    have := (overwrites_iff hf).2 (by rw [hroom]; exact hm)
    obtain ⟨i, hi1, hi2⟩ := hfree
    have h2 := this i (by rw [hcfg]; exact hi1)
    rw [hroom] at h2; exact hi2 h2
  refine ⟨e.timestamp + f, by omega, ?_, ?_⟩
  · have := hf.fudge_le; rw [hcfg] at this; omega
  · rw [hf.entries, hroom]; exact insertKV_perm_new hno

/-- With the production fudge limit of 4000 and any capacity above 4002: the
4002nd Put with the same timestamp destroys an envelope although the source is
below capacity. -/
theorem C07_put_keeps_all_false (max : Int) (hmax : 4002 ≤ max) :
    ∃ ops st st' e lost, Run (newStore { maxPerSource := max }) ops st ∧
      put 0 st [] e = some st' ∧ (st.envelopes []).length = 4001 ∧
      lost ∈ st.envelopes [] ∧ lost ∉ st'.envelopes [] := by
  obtain ⟨st, st', hr, -, hp, hlen, hin, hout, -⟩ :=
    burst_overflow { maxPerSource := max } (by simp; omega)
  exact ⟨_, st, st', _, _, hr, hp, by simpa [Store.envelopes] using hlen, hin, hout⟩

example : ∃ ops st, Run (newStore { maxPerSource := 5 }) ops st ∧
    ((st.envelopes "a".toList).length : Int) < 5 ∧
    ∃ i : Nat, i ≤ 4000 ∧ (1 : Int) + i ∉ keys (st.entries "a".toList) :=
  ⟨_, _, run_after (cfg := { maxPerSource := 5 })
    (l := [("a", logAt 1 "p"), ("a", logAt 1 "q")]) (by decide), by decide, 2, by decide, by decide⟩

/-- At capacity a Put removes exactly the first stored entry and adds the new
one, when one of the keys from its timestamp on is free among the others.  Missing for
the full property: the case that all are taken, where it is false (`C08_evicts_false`);
with a capacity of at most `maxFudge + 1` that does not happen (`C08_evicts_small`). -/
theorem C08_evicts_oldest_partial {cfg : Config} (hc : 1 ≤ cfg.maxPerSource) {ops : List Op}
    {st st' : Store} (h : Run (newStore cfg) ops st) {now : Int} {src : Str} {e : Envelope}
    (hcap : ((st.envelopes src).length : Int) = cfg.maxPerSource)
    (hfree : ∃ i : Nat, i ≤ cfg.maxFudge ∧ e.timestamp + i ∉ keys (st.entries src).tail)
    (hp : put now st src e = some st') :
    ∃ key oldest rest, e.timestamp ≤ key ∧ key ≤ e.timestamp + cfg.maxFudge ∧
      st.entries src = oldest :: rest ∧ (∀ x ∈ rest, oldest.1 < x.1) ∧
      (st'.entries src).Perm ((key, e) :: rest) := by
  obtain ⟨hi, hcfg⟩ := run_inv hc h
  obtain ⟨f, hf⟩ := put_spec hi.idx hp
  have hlen : (st.envelopes src).length = (st.entries src).length := by simp [Store.envelopes]
  have hroom : makeRoom st.cfg.maxPerSource (st.entries src) = (st.entries src).tail := by
    unfold makeRoom
    rw [hcfg, if_pos (by omega)]
  have hno : e.timestamp + f ∉ keys (st.entries src).tail := by
    intro hm
    have := (overwrites_iff hf).2 (by rw [hroom]; exact hm)
    obtain ⟨i, hi1, hi2⟩ := hfree
    have h2 := this i (by rw [hcfg]; exact hi1)
    rw [hroom] at h2; exact hi2 h2
  have hsort := idxEntries_sorted hi.idx src
  cases hL : st.entries src with
  | nil => rw [hlen, hL] at hcap; simp at hcap; omega
  | cons x rest =>
    refine ⟨e.timestamp + f, x, rest, by omega, ?_, rfl, ?_, ?_⟩
    · have := hf.fudge_le; rw [hcfg] at this; omega
    · rw [← entries_eq, hL] at hsort; exact (List.pairwise_cons.1 hsort).1
    · rw [hf.entries, hroom, hL]; rw [hL] at hno; exact insertKV_perm_new hno

example : ∃ ops st, Run (newStore { maxPerSource := 2 }) ops st ∧
    ((st.envelopes "a".toList).length : Int) = 2 ∧
    ∃ i : Nat, i ≤ 4000 ∧ (1 : Int) + i ∉ keys (st.entries "a".toList).tail :=
  ⟨_, _, run_after (cfg := { maxPerSource := 2 })
    (l := [("a", logAt 1 "p"), ("a", logAt 1 "q")]) (by decide), by decide, 0, by decide, by decide⟩

/-! ## C09 / C10 -/

/-- Meta describes the stored contents. -/
theorem C09_meta_agrees {cfg : Config} (hc : 1 ≤ cfg.maxPerSource) {ops : List Op} {st : Store}
    (h : Run (newStore cfg) ops st) :
    (∀ src m, (src, m) ∈ metaOf st →
      m.count = (st.envelopes src).length ∧
      (∃ first rest, st.entries src = (m.oldest, first) :: rest ∧
        first.timestamp ≤ m.oldest ∧ m.oldest ≤ first.timestamp + cfg.maxFudge ∧
        ∀ x ∈ rest, m.oldest < x.1) ∧
      ∀ e ∈ st.envelopes src, e.timestamp ≤ m.newest) ∧
    ((metaOf st).map Prod.fst).Nodup ∧
    (∀ src, src ∈ (metaOf st).map Prod.fst ↔ st.envelopes src ≠ []) := by
  obtain ⟨hi, hcfg⟩ := run_inv hc h
  refine ⟨?_, ?_, ?_⟩
  · intro src m hm
    obtain ⟨p, hp, hpe⟩ := List.mem_map.1 hm
    obtain ⟨src', s⟩ := p
    simp only [Prod.mk.injEq] at hpe
    obtain ⟨rfl, rfl⟩ := hpe
    have hl := mem_idxLoad hi.idx.1 hp
    have hs := idxOk_load hi.idx hl
    have he : st.entries src' = s.tree.toList := by unfold Store.entries; rw [hl]
    refine ⟨?_, ?_, ?_⟩
    · simp [Store.envelopes, he, Tree.size_eq_length]
    · rw [he]
      cases hL : s.tree.toList with
      | nil => exact absurd hL hs.nonempty
      | cons x rest =>
        have hold := hs.oldest
        rw [hL] at hold; simp at hold
        have hn := hs.near x (by rw [hL]; simp)
        have hb := hs.bst; unfold Tree.BST at hb; rw [hL] at hb
        have hb' := (List.pairwise_cons.1 hb).1
        rw [hcfg] at hn
        refine ⟨x.2, rest, by simp [← hold], ?_, ?_, ?_⟩ <;> simp only [← hold]
        · exact hn.1
        · exact hn.2
        · exact hb'
    · intro e hem
      unfold Store.envelopes at hem; rw [he] at hem
      obtain ⟨x, hx, rfl⟩ := List.mem_map.1 hem
      exact hs.newest x hx
  · unfold metaOf; rw [List.map_map]
    exact hi.idx.1
  · intro src
    have : (metaOf st).map Prod.fst = st.sources := by
      unfold metaOf Store.sources; rw [List.map_map]; rfl
    rw [this, mem_sources]
    unfold Store.envelopes Store.entries
    cases hl : idxLoad st.index src with
    | none => simp
    | some s => simp [(idxOk_load hi.idx hl).nonempty]

/-- With distinct timestamps OldestTimestamp is the smallest stored timestamp. -/
theorem C09_oldest_exact {cfg : Config} (hc : 1 ≤ cfg.maxPerSource) {ops : List Op} {st : Store}
    (h : Run (newStore cfg) ops st) (hd : DistinctTs ops) {src : Str} {m : MetaInfo}
    (hm : (src, m) ∈ metaOf st) :
    (∃ e ∈ st.envelopes src, e.timestamp = m.oldest) ∧
    ∀ e ∈ st.envelopes src, m.oldest ≤ e.timestamp := by
  obtain ⟨-, ⟨first, rest, hE, -, -, hrest⟩, -⟩ := (C09_meta_agrees hc h).1 src m hm
  have hu := distinct_unfudged hc h hd src
  rw [hE] at hu
  have h0 := hu _ (by simp : (m.oldest, first) ∈ (m.oldest, first) :: rest)
  simp only at h0
  constructor
  · exact ⟨first, by simp [Store.envelopes, hE], h0⟩
  · intro e he
    unfold Store.envelopes at he; rw [hE] at he
    obtain ⟨x, hx, rfl⟩ := List.mem_map.1 he
    rcases List.mem_cons.1 hx with rfl | hx'
    · simp only; omega
    · have := hrest x hx'
      have h3 := hu x (by simp [hx'])
      omega

/-- NewestTimestamp can be stale: after the newest envelope was evicted it is
still reported. -/
theorem C09_newest_stale :
    ∃ ops st m, Run (newStore { maxPerSource := 1 }) ops st ∧ ("a".toList, m) ∈ metaOf st ∧
      st.envelopes "a".toList = [logAt 3] ∧ m.newest = 5 :=
  ⟨_, _, _, run_after (cfg := { maxPerSource := 1 }) (l := [("a", logAt 5), ("a", logAt 3)])
    (by decide), List.mem_singleton.2 rfl, by decide, by decide⟩

/-- Count + Expired (+ overwritten Puts) = Puts since the source appeared. -/
theorem C10_conservation {cfg : Config} (hc : 1 ≤ cfg.maxPerSource) {ops : List Op} {st : Store}
    {gh : Ghost} (h : Hist cfg ops st gh) {src : Str} {m : MetaInfo} (hm : (src, m) ∈ metaOf st) :
    m.count + m.expired + gh.lost src = gh.puts src := by
  obtain ⟨hi, -⟩ := run_inv hc (hist_run h)
  obtain ⟨p, hp, hpe⟩ := List.mem_map.1 hm
  obtain ⟨src', s⟩ := p
  simp only [Prod.mk.injEq] at hpe
  obtain ⟨rfl, rfl⟩ := hpe
  have := (hist_expired hc h src').1 s (mem_idxLoad hi.idx.1 hp)
  rw [Tree.size_eq_length]; exact this

/-- Every history has bookkeeping, and with distinct timestamps nothing is
overwritten. -/
theorem C10_bookkeeping {cfg : Config} (hc : 1 ≤ cfg.maxPerSource) {ops : List Op} {st : Store}
    (h : Run (newStore cfg) ops st) :
    ∃ gh, Hist cfg ops st gh ∧ (DistinctTs ops → ∀ src, gh.lost src = 0) := by
  obtain ⟨gh, hg⟩ := run_hist h
  exact ⟨gh, hg, fun hd => (distinct_drift hc hg hd).2⟩

example : ∃ ops st m, Run (newStore { maxPerSource := 2 }) ops st ∧ ("a".toList, m) ∈ metaOf st ∧
    m = { count := 2, expired := 1, oldest := 2, newest := 3 } :=
  ⟨_, _, _, run_after (cfg := { maxPerSource := 2 })
    (l := [("a", logAt 1), ("a", logAt 2), ("a", logAt 3)])
    (by decide), List.mem_singleton.2 rfl, by decide⟩

/-! ## C11 -/

/-- A Put changes nothing a read or Meta reports about another source. -/
theorem C11_isolation {cfg : Config} (hc : 1 ≤ cfg.maxPerSource) {ops : List Op} {st st' : Store}
    (h : Run (newStore cfg) ops st) {now : Int} {src other : Str} {e : Envelope}
    (hne : other ≠ src) (hp : put now st src e = some st') :
    (∀ a, get st' other a = get st other a) ∧
    (∀ m, (other, m) ∈ metaOf st' ↔ (other, m) ∈ metaOf st) := by
  obtain ⟨hi, hcfg⟩ := run_inv hc h
  obtain ⟨f, hf⟩ := put_spec hi.idx hp
  have hl := hf.other other hne
  have hi' := put_inv hi (by rw [hcfg]; exact hc) hp
  refine ⟨fun a => by unfold get; rw [hl], fun m => ?_⟩
  have key : ∀ {s : Store}, Inv s → ((other, m) ∈ metaOf s ↔
      ∃ x, idxLoad s.index other = some x ∧ m = { x.info with count := x.tree.size }) := by
    intro s hs
    unfold metaOf
    rw [List.mem_map]
    constructor
    · rintro ⟨⟨k, x⟩, hx, he⟩
      simp only [Prod.mk.injEq] at he
      obtain ⟨rfl, rfl⟩ := he
      exact ⟨x, mem_idxLoad hs.idx.1 hx, rfl⟩
    · rintro ⟨x, hx, rfl⟩
      exact ⟨_, idxLoad_mem hx, rfl⟩
  rw [key hi, key hi', hl]

example : ∃ ops st st', Run (newStore { maxPerSource := 2 }) ops st ∧
    put 0 st "b".toList (logAt 7) = some st' ∧ st.envelopes "a".toList ≠ [] :=
  ⟨_, _, _, run_after (cfg := { maxPerSource := 2 }) (l := [("a", logAt 1), ("b", logAt 2)])
    (by decide), rfl, by decide⟩

/-! ## C12 / C13 / C14 -/

/-- How many envelopes a prune is asked to remove: the consultant's answer,
but never more than the store believes to hold and never less than 0. -/
def pruneRequest (mc : Int → Int) (st : Store) : Nat := (min (mc st.g.count) st.g.count).toNat

theorem pruneRequest_eq (mc : Int → Int) (st : Store) : pruneRequest mc st = pruneTarget mc st := by
  unfold pruneRequest pruneTarget; congr 1; split <;> omega

/-- A prune removes exactly the requested number of envelopes; within a source
the first ones in storage order; and over all sources no removed key is larger
than any retained key. -/
theorem C12_prune_oldest {cfg : Config} (hc : 1 ≤ cfg.maxPerSource) {ops : List Op}
    {st st' : Store} (h : Run (newStore cfg) ops st) {mc : Int → Int}
    {order : List (Str × Storage)} (ho : order.Perm st.index) {now : Int}
    (ht : truncate mc order now st = some st') :
    st.total = st'.total + pruneRequest mc st ∧
    ∃ removed : Str → List (Int × Envelope),
      (∀ src, st.entries src = removed src ++ st'.entries src) ∧
      ∀ src src' x y, x ∈ removed src → y ∈ st'.entries src' → x.1 ≤ y.1 := by
  obtain ⟨hi, -⟩ := run_inv hc h
  have hs := truncate_spec hi.idx ho ht
  rw [pruneRequest_eq]
  exact ⟨hs.total, hs.removed⟩

/-- A prune panics exactly when it is asked to remove more than is stored. -/
theorem C13_prune_crash_iff {cfg : Config} (hc : 1 ≤ cfg.maxPerSource) {ops : List Op}
    {st : Store} (h : Run (newStore cfg) ops st) (mc : Int → Int)
    {order : List (Str × Storage)} (ho : order.Perm st.index) (now : Int) :
    truncate mc order now st = none ↔ st.total < pruneRequest mc st := by
  rw [pruneRequest_eq]; exact truncate_none_iff (run_inv hc h).1.idx ho

/-- In a history without overwritten envelopes a prune never panics, whatever
quantity is requested.  Missing for the full property: histories with overwrites,
where it is false (`C13_prune_crash_false`). -/
theorem C13_prune_no_crash_partial {cfg : Config} (hc : 1 ≤ cfg.maxPerSource) {ops : List Op}
    {st : Store} {gh : Ghost} (h : Hist cfg ops st gh) (hd : gh.drift = 0) (mc : Int → Int)
    {order : List (Str × Storage)} (ho : order.Perm st.index) (now : Int) :
    ∃ st', truncate mc order now st = some st' := by
  have hcount := hist_drift hc h
  cases ht : truncate mc order now st with
  | some st' => exact ⟨st', rfl⟩
  | none =>
    have := (C13_prune_crash_iff hc (hist_run h) mc ho now).1 ht
    unfold pruneRequest at this
    omega

/-- In particular with distinct timestamps. -/
theorem C13_prune_distinct_partial {cfg : Config} (hc : 1 ≤ cfg.maxPerSource) {ops : List Op}
    {st : Store} (h : Run (newStore cfg) ops st) (hd : DistinctTs ops) (mc : Int → Int)
    {order : List (Str × Storage)} (ho : order.Perm st.index) (now : Int) :
    ∃ st', truncate mc order now st = some st' := by
  obtain ⟨gh, hg⟩ := run_hist h
  exact C13_prune_no_crash_partial hc hg (distinct_drift hc hg hd).1 mc ho now

/-- In particular when no more than 4001 envelopes of a source crowd within 4000ns
of one of them. -/
theorem C13_prune_sparse_partial {cfg : Config} (hc : 1 ≤ cfg.maxPerSource) {ops : List Op}
    {st : Store} (h : Run (newStore cfg) ops st)
    (hsp : ∀ src, Sparse cfg.maxFudge (putsOf ops src)) (mc : Int → Int)
    {order : List (Str × Storage)} (ho : order.Perm st.index) (now : Int) :
    (∃ st', truncate mc order now st = some st') ∧ st.g.storeSize = st.total := by
  obtain ⟨gh, hg⟩ := run_hist h
  have hd := (sparse_drift hc hg hsp).1
  refine ⟨C13_prune_no_crash_partial hc hg hd mc ho now, ?_⟩
  rw [(run_inv hc h).1.size, hist_drift hc hg, hd]; simp

/-- When every envelope of a source has room for a key of its own, a prune removes exactly as
many envelopes as are asked for, or all there are. -/
theorem C12_prune_exact {cfg : Config} (hc : 1 ≤ cfg.maxPerSource) {ops : List Op}
    {st : Store} (h : Run (newStore cfg) ops st)
    (hsp : ∀ src, Sparse cfg.maxFudge (putsOf ops src)) (n : Nat)
    {order : List (Str × Storage)} (ho : order.Perm st.index) (now : Int) :
    ∃ st', truncate (fun _ => n) order now st = some st' ∧ st.total = st'.total + min n st.total := by
  obtain ⟨st', ht⟩ := (C13_prune_sparse_partial hc h hsp (fun _ => (n : Int)) ho now).1
  obtain ⟨gh, hg⟩ := run_hist h
  have hd := (sparse_drift hc hg hsp).1
  have hcount := hist_drift hc hg
  have htot : st.total = st'.total + (min (n : Int) st.g.count).toNat := (C12_prune_oldest hc h ho ht).1
  exact ⟨st', ht, by omega⟩

/-- Of three envelopes a prune of two leaves one, and a prune of seven none. -/
example : ∃ ops st, Run (newStore { maxPerSource := 9 }) ops st ∧
    (∀ src ∈ ["a".toList, "b".toList], Sparse 4000 (putsOf ops src)) ∧ st.total = 3 ∧
    (∃ st', truncate (fun _ => 2) st.index 0 st = some st' ∧ st'.total = 1) ∧
    ∃ st', truncate (fun _ => 7) st.index 0 st = some st' ∧ st'.total = 0 :=
  ⟨_, _, run_after (cfg := { maxPerSource := 9 })
    (l := [("a", logAt 1), ("b", logAt 5), ("a", logAt 2)])
    (by decide), by unfold Sparse; decide, by decide, ⟨_, rfl, by decide⟩, ⟨_, rfl, by decide⟩⟩

/-- After 4002 Puts with one timestamp a prune of everything panics. -/
theorem C13_prune_crash_false (max : Int) (hmax : 4002 ≤ max) :
    ∃ ops st, Run (newStore { maxPerSource := max }) ops st ∧
      ∀ now, truncate (fun count => count) st.index now st = none := by
  obtain ⟨st, st', -, hr, -, -, -, -, htot, hcount⟩ :=
    burst_overflow { maxPerSource := max } (by simp; omega)
  refine ⟨_, st', hr, fun now => ?_⟩
  rw [C13_prune_crash_iff (by simp; omega) hr _ (List.Perm.refl _)]
  unfold pruneRequest
  rw [htot, hcount]
  simp

/-- A source that loses its last envelope to a prune is no longer listed or
readable; the next Put makes it reappear with Count 1 and Expired 0. -/
theorem C14_emptied_source {cfg : Config} (hc : 1 ≤ cfg.maxPerSource) {ops : List Op}
    {st st' st'' : Store} (h : Run (newStore cfg) ops st) {mc : Int → Int}
    {order : List (Str × Storage)} (ho : order.Perm st.index) {now now' : Int}
    (ht : truncate mc order now st = some st') {src : Str} (hempty : st'.envelopes src = [])
    {e : Envelope} (hp : put now' st' src e = some st'') :
    src ∉ (metaOf st').map Prod.fst ∧ (∀ a, get st' src a = some []) ∧
    ∃ m, (src, m) ∈ metaOf st'' ∧ m.count = 1 ∧ m.expired = 0 ∧ m.oldest = e.timestamp := by
  have hr' : Run (newStore cfg) (ops ++ [.truncate now mc order]) st' := Run.snoc h ho ht
  obtain ⟨hi', hcfg'⟩ := run_inv hc hr'
  have hl : idxLoad st'.index src = none := by
    cases hl : idxLoad st'.index src with
    | none => rfl
    | some s =>
      have := (idxOk_load hi'.idx hl).nonempty
      unfold Store.envelopes Store.entries at hempty; rw [hl] at hempty
      simp at hempty; exact absurd hempty this
  refine ⟨?_, ?_, ?_⟩
  · have : (metaOf st').map Prod.fst = st'.sources := by
      unfold metaOf Store.sources; rw [List.map_map]; rfl
    rw [this, mem_sources, hl]; simp
  · intro a; unfold get; rw [hl]
  · obtain ⟨f, hf⟩ := put_spec hi'.idx hp
    obtain ⟨g', s', hidx, hins, hg⟩ := hf.index
    have hinit : getOrInit st'.index src = { sourceId := src } := by unfold getOrInit; rw [hl]
    have htl := hins.toList
    have hexp := hins.expired
    have hold := hins.oldest
    have htk := hins.taken
    rw [hinit] at htl hexp htk
    have hroom : makeRoom st'.cfg.maxPerSource ({ sourceId := src } : Storage).tree.toList = [] := by
      unfold makeRoom; split <;> rfl
    rw [hroom] at htl htk
    have hf0 : f = 0 := by
      apply Classical.byContradiction; intro h0
      have := htk 0 (by omega); cases this
    rw [htl] at hold
    refine ⟨_, List.mem_map.2 ⟨(src, s'), ?_, rfl⟩, ?_, ?_, ?_⟩
    · rw [hidx]; exact idxLoad_mem (idxLoad_store_same _ _ _)
    · simp only [Tree.size_eq_length, htl]; rfl
    · simp only
      rw [hexp, hcfg']
      have : ¬ cfg.maxPerSource ≤ ((({ sourceId := src } : Storage).tree.toList).length : Int) := by
        simp [Tree.toList]; omega
      rw [if_neg this]; rfl
    · simp only
      simp [insertKV, hf0] at hold
      exact hold.symm

/-- two sources, prune 2 of 3: source `a` vanishes and reappears -/
example : ∃ ops st st' st'', Run (newStore { maxPerSource := 9 }) ops st ∧
    truncate (fun _ => 2) st.index 0 st = some st' ∧ st'.envelopes "a".toList = [] ∧
    st'.envelopes "b".toList = [logAt 5] ∧ put 0 st' "a".toList (logAt 1) = some st'' :=
  ⟨_, _, _, _, run_after (cfg := { maxPerSource := 9 })
    (l := [("a", logAt 1), ("b", logAt 5), ("a", logAt 2)])
    (by decide), rfl, by decide, by decide, rfl⟩

/-! ## C15 / C16 -/

/-- The store-size gauge is the number of stored envelopes plus the number of
overwritten ones: never too small. -/
theorem C15_store_size {cfg : Config} (hc : 1 ≤ cfg.maxPerSource) {ops : List Op} {st : Store}
    {gh : Ghost} (h : Hist cfg ops st gh) : st.g.storeSize = st.total + gh.drift := by
  rw [(run_inv hc (hist_run h)).1.size, hist_drift hc h]

/-- Exact with distinct timestamps.  Missing for the full property: overwrites,
where it is false (`C15_store_size_false`). -/
theorem C15_store_size_partial {cfg : Config} (hc : 1 ≤ cfg.maxPerSource) {ops : List Op}
    {st : Store} (h : Run (newStore cfg) ops st) (hd : DistinctTs ops) :
    st.g.storeSize = st.total := by
  rw [(run_inv hc h).1.size, distinct_count hc h hd]

theorem C15_store_size_false (max : Int) (hmax : 4002 ≤ max) :
    ∃ ops st, Run (newStore { maxPerSource := max }) ops st ∧
      st.total = 4001 ∧ st.g.storeSize = 4002 := by
  obtain ⟨st, st', -, hr, -, -, -, -, htot, hcount⟩ :=
    burst_overflow { maxPerSource := max } (by simp; omega)
  refine ⟨_, st', hr, htot, ?_⟩
  rw [(run_inv (by simp; omega) hr).1.size, hcount]; rfl

/-- After a prune that did something the oldest-timestamp used for the cache
period is the oldest key of some listed source, and with one source left it is
the oldest stored key.  Missing for the full property: several sources, where it
is false (`C16_cache_period_false`). -/
theorem C16_cache_period_partial {cfg : Config} (hc : 1 ≤ cfg.maxPerSource) {ops : List Op}
    {st st' : Store} (h : Run (newStore cfg) ops st) {mc : Int → Int}
    {order : List (Str × Storage)} (ho : order.Perm st.index) {now : Int}
    (ht : truncate mc order now st = some st') (hn : mc st.g.count ≠ 0) :
    (st'.sources = [] ∧ st'.g.cachePeriod = 0) ∨
    ∃ src key first rest, src ∈ st'.sources ∧ st'.entries src = (key, first) :: rest ∧
      st'.g.cachePeriod = (now - key).tdiv 1000000 ∧
      (st'.sources.length = 1 → ∀ src' x, x ∈ st'.entries src' → key ≤ x.1) := by
  have hr' : Run (newStore cfg) (ops ++ [.truncate now mc order]) st' := Run.snoc h ho ht
  obtain ⟨hi', hcfg'⟩ := run_inv hc hr'
  rcases (truncate_spec (run_inv hc h).1.idx ho ht).period hn with ⟨h1, -, h2⟩ | ⟨p, hp, -, h2⟩
  · left; exact ⟨by simp [Store.sources, h1], h2⟩
  · right
    have hl := mem_idxLoad hi'.idx.1 (src := p.1) (s := p.2) hp
    have hs := idxOk_load hi'.idx hl
    have hE : st'.entries p.1 = p.2.tree.toList := by unfold Store.entries; rw [hl]
    cases hL : p.2.tree.toList with
    | nil => exact absurd hL hs.nonempty
    | cons x rest =>
      have hold := hs.oldest
      rw [hL] at hold; simp at hold
      have hmem : p.1 ∈ st'.sources := List.mem_map.2 ⟨p, hp, rfl⟩
      refine ⟨p.1, x.1, x.2, rest, hmem, by rw [hE, hL], ?_, ?_⟩
      · rw [h2, ← hold]; rfl
      · intro hone src' y hy
        have hsrc' : src' ∈ st'.sources := by
          rw [mem_sources]
          unfold Store.entries at hy
          cases hl' : idxLoad st'.index src' with
          | none => rw [hl'] at hy; cases hy
          | some s => exact ⟨s, rfl⟩
        have : src' = p.1 := by
          obtain ⟨z, hz⟩ := List.length_eq_one_iff.1 hone
          rw [hz] at hsrc' hmem; simp at hsrc' hmem; rw [hsrc', hmem]
        subst this
        rw [hE, hL] at hy
        have hb := hs.bst; unfold Tree.BST at hb; rw [hL] at hb
        exact sorted_head_le (k := x.1) (v := x.2) hb y hy

/-- Two sources: after the prune the oldest stored key is 2 but the period is
computed from 10 million. -/
theorem C16_cache_period_false :
    ∃ ops st st', Run (newStore { maxPerSource := 9 }) ops st ∧
      truncate (fun _ => 1) st.index 20000000 st = some st' ∧
      st'.entries "a".toList = [(2, logAt 2)] ∧ st'.g.cachePeriod = 10 ∧
      (20000000 - 2 : Int).tdiv 1000000 = 19 :=
  ⟨_, _, _, run_after (cfg := { maxPerSource := 9 })
    (l := [("a", logAt 1), ("a", logAt 2), ("b", logAt 10000000)])
    (by decide), rfl, by decide, by decide, by decide⟩

/-! ## C17 / C18 -/

/-- A read changes nothing but the egress counter, which grows by the number of
returned envelopes. -/
theorem C17_read_pure {st : Store} {src : Str} {a : GetArgs} {res : List Envelope}
    (hg : get st src a = some res) :
    getState st src a = { st with g := { st.g with egress := st.g.egress + res.length } } := by
  unfold get at hg
  unfold getState
  cases hl : idxLoad st.index src with
  | none => rw [hl] at hg; simp at hg; subst hg; rfl
  | some s => rw [hl] at hg; simp only at hg ⊢; rw [hg]

/-- What a name filter lets through, case by case. -/
theorem C18_name_filter (m : Str → Bool) (e : Envelope) :
    filterByName (some m) e =
      match e.message with
      | some (.counter name _ _) => if m name then some e else none
      | some (.timer name _ _) => if m name then some e else none
      | some (.gauge metrics) =>
        if metrics.any (fun p => m p.1) then
          some { e with message := some (.gauge (metrics.filter fun p => m p.1)) }
        else none
      | some (.log ..) => none
      | some (.event ..) => none
      | none => none := by
  rw [filterByName_eq]
  unfold project names restrict
  cases hm : e.message with
  | none => simp
  | some msg =>
    cases msg with
    | gauge ms =>
      have : (ms.map Prod.fst).any m = ms.any (fun p => m p.1) := by rw [List.any_map]; rfl
      simp only [this]
    | _ => simp

/-- Without a name filter envelopes are returned unchanged, whatever they are. -/
theorem C18_no_filter (e : Envelope) : filterByName none e = some e := rfl

/-! ## C26 -/

/-- End to end: over any history with distinct timestamps there is an abstract
log per source, evolving as in `Spec/History.lean`, such that every read returns
the first `limit` matching envelopes of that log (its reverse when descending). -/
theorem C26_read_contract {cfg : Config} (hc : 1 ≤ cfg.maxPerSource) {ops : List Op} {st : Store}
    (h : Run (newStore cfg) ops st) (hd : DistinctTs ops) :
    ∃ A : Str → List Envelope, LogRun cfg ops A ∧
      ∀ src a, 1 ≤ a.limit → (∀ ts, a.types = some ts → ∀ n, EType.other n ∉ ts) →
        get st src a = some ((answer a.start a.stop a.types a.nameFilter
          (if a.descending then (A src).reverse else A src)).take a.limit.toNat) := by
  refine ⟨fun src => st.envelopes src, refine_log hc h hd, ?_⟩
  intro src a hl hk
  obtain ⟨res, hres⟩ := C02_read_total st src a hk
  rw [hres, get_distinct hc h hd hl hres]; rfl

end LogCache
