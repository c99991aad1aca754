import Verif.Proof.Clean
/-!
# Property theorems about the store's metrics (C78, C79)
-/
namespace LogCache
open Spec

/-- Number of Put calls in a history. -/
def putCount (ops : List Op) : Nat :=
  (ops.filter fun | .put .. => true | _ => false).length

/-- The ingress counter counts the Puts, and every envelope that came in is
stored, expired (evicted or pruned) or overwritten. -/
theorem C78_global_conservation {cfg : Config} (hc : 1 ≤ cfg.maxPerSource) {ops : List Op}
    {st : Store} {gh : Ghost} (h : Hist cfg ops st gh) :
    st.g.ingress = putCount ops ∧ st.g.ingress = st.total + st.g.expired + gh.drift := by
  induction h with
  | nil => exact ⟨rfl, rfl⟩
  | @snoc ops st st' gh op hr hv hx ih =>
    obtain ⟨i1, i2⟩ := ih
    obtain ⟨hi, hcfg⟩ := run_inv hc (hist_run hr)
    unfold putCount at i1 ⊢
    rw [List.filter_append, List.length_append]
    cases op with
    | put now src e =>
      obtain ⟨f, hf⟩ := put_spec hi.idx hx
      have htot := put_total_count hi.idx (by rw [hcfg]; exact hc) hf
      obtain ⟨g', s', hidx, hins, hg⟩ := hf.index
      have h1 := hins.gingress
      have h2 := hins.gexpired
      have hlen : ((getOrInit st.index src).tree.toList.length : Int) = (st.entries src).length := by
        rw [getOrInit_toList]; rfl
      rw [hlen] at h2
      rw [← hg] at h1 h2
      simp only at h1 h2
      refine ⟨by rw [h1, i1]; simp, ?_⟩
      simp only [Ghost.step]
      by_cases ho : overwrites st.cfg (st.entries src) e
      · rw [if_pos ho] at htot ⊢
        by_cases hcap : st.cfg.maxPerSource ≤ ((st.entries src).length : Int)
        · rw [if_pos hcap] at htot h2; omega
        · rw [if_neg hcap] at htot h2; omega
      · rw [if_neg ho] at htot ⊢
        by_cases hcap : st.cfg.maxPerSource ≤ ((st.entries src).length : Int)
        · rw [if_pos hcap] at htot h2; omega
        · rw [if_neg hcap] at htot h2; omega
    | truncate now mc o =>
      have hs := truncate_spec hi.idx hv hx
      have h1 := hs.total
      have h2 := hs.ingress
      have h3 := hs.expired
      simp only [Ghost.step]
      refine ⟨by rw [h2, i1]; simp, by omega⟩
    | get s a =>
      simp only [Op.exec, Option.some.injEq] at hx
      subst hx
      obtain ⟨n, hn⟩ := getState_eq st s a
      rw [hn]
      exact ⟨by simpa using i1, i2⟩

/-- two Puts, one of them evicts: 2 = 1 stored + 1 expired -/
example : ∃ ops st, Run (newStore { maxPerSource := 1 }) ops st ∧ st.total = 1 ∧
    st.g.ingress = 2 ∧ st.g.expired = 1 :=
  ⟨_, _, run_after (cfg := { maxPerSource := 1 }) (l := [("a", logAt 5), ("a", logAt 7)])
    (by decide), by decide, by decide, by decide⟩

/-- Before the first prune, the timestamp behind the cache-period gauge is at most
every stored key, so the gauge never understates how far back the cache goes;
and after each Put the gauge is `now` minus that timestamp in milliseconds. -/
theorem C79_cache_period_before_prune {cfg : Config} (hc : 1 ≤ cfg.maxPerSource) {ops : List Op}
    {st : Store} (h : Run (newStore cfg) ops st) (hn : NoPrune ops) :
    (∀ src, ∀ x ∈ st.entries src, st.g.oldest ≤ x.1) ∧
    ∀ now src e st', put now st src e = some st' →
      st'.g.cachePeriod = (now - st'.g.oldest).tdiv 1000000 := by
  constructor
  · revert hn
    refine run_induct hc (P := fun ops st => NoPrune ops → ∀ src, ∀ x ∈ st.entries src,
      st.g.oldest ≤ x.1) ?_ ?_ h
    · intro _ src x hx; cases hx
    · intro ops st op st' hr hi hcfg ih hv hx hn src x hxm
      have ih := ih (fun o ho => hn o (by simp [ho]))
      cases op with
      | put now s e =>
        have hi' := put_inv hi (by rw [hcfg]; exact hc) hx
        obtain ⟨f, hf⟩ := put_spec hi.idx hx
        obtain ⟨g', s', hidx, hins, hg⟩ := hf.index
        have hgo := hins.goldest
        rw [← hg] at hgo
        simp only at hgo
        by_cases hs : src = s
        · subst hs
          have hold := hins.oldest
          have hE : st'.entries src = s'.tree.toList := by
            unfold Store.entries; rw [hidx, idxLoad_store_same]
          rw [hE] at hxm
          have hb := hins.bst
          unfold Tree.BST at hb
          have : s'.info.oldest ≤ x.1 := by
            cases hL : s'.tree.toList with
            | nil => rw [hL] at hxm; cases hxm
            | cons y t =>
              rw [hL] at hold hxm hb; simp at hold
              have := sorted_head_le (k := y.1) (v := y.2) hb x hxm
              omega
          rw [hgo]; split <;> omega
        · rw [entries_other hf hs] at hxm
          have := ih src x hxm
          rw [hgo]; split <;> omega
      | truncate now mc o =>
        have := hn _ (by simp : Op.truncate now mc o ∈ ops ++ [Op.truncate now mc o])
        cases this
      | get s a =>
        simp only [Op.exec, Option.some.injEq] at hx
        subst hx
        rw [entries_getState] at hxm
        obtain ⟨n, hn⟩ := getState_eq st s a
        rw [hn]; exact ih src x hxm
  · intro now src e st' hp
    obtain ⟨f, hf⟩ := put_spec (run_inv hc h).1.idx hp
    obtain ⟨g', s', hidx, hins, hg⟩ := hf.index
    rw [hg]; exact hins.gperiod

theorem run_last {st st' : Store} {ops : List Op} {op : Op} (h : Run st (ops ++ [op]) st') :
    ∃ st1, Run st ops st1 ∧ op.valid st1 ∧ op.exec st1 = some st' := by
  generalize ho : ops ++ [op] = ops' at h
  induction h with
  | nil => simp at ho
  | snoc hr hv hx _ =>
    obtain ⟨h1, h2⟩ := List.append_inj' ho rfl
    rw [List.cons.injEq] at h2
    obtain ⟨h2, -⟩ := h2
    subst h1
    subst h2
    exact ⟨_, hr, hv, hx⟩

theorem run_unique {st a b : Store} {ops : List Op} (h : Run st ops a) (h' : Run st ops b) : a = b := by
  induction h generalizing b with
  | nil =>
    generalize ho : ([] : List Op) = ops at h'
    induction h' with
    | nil => rfl
    | snoc => simp at ho
  | snoc hr hv hx ih =>
    obtain ⟨c, hr', hv', hx'⟩ := run_last h'
    have := ih hr'
    subst this
    rw [hx] at hx'
    exact Option.some.inj hx'

theorem stored_snoc {cfg : Config} {ops : List Op} {op : Op} {st : Store} (h : Run (newStore cfg) (ops ++ [op]) st)
    {k : Int} (hk : StoredOnce cfg (ops ++ [op]) k) :
    StoredOnce cfg ops k ∨ ∃ src, ∃ x ∈ st.entries src, x.1 = k := by
  obtain ⟨pre, post, st1, src, x, ho, hr, hx, rfl⟩ := hk
  rcases List.eq_nil_or_concat post with rfl | ⟨post, op', rfl⟩
  · rw [List.append_nil] at ho
    subst ho
    exact .inr ⟨src, x, run_unique hr h ▸ hx, rfl⟩
  · rw [List.concat_eq_append, ← List.append_assoc] at ho
    obtain ⟨rfl, -⟩ := List.append_inj' ho rfl
    exact .inl ⟨pre, post, st1, src, x, rfl, hr, hx, rfl⟩

theorem stored_more {cfg : Config} {ops : List Op} (more : List Op) {k : Int} (h : StoredOnce cfg ops k) :
    StoredOnce cfg (ops ++ more) k := by
  obtain ⟨pre, post, st1, src, x, rfl, hr, hx, hk⟩ := h
  exact ⟨pre, post ++ more, st1, src, x, by rw [List.append_assoc], hr, hx, hk⟩

/-- Before the first prune the timestamp behind the gauge is the smallest under which anything
was ever stored. -/
theorem oldest_ever {cfg : Config} (hc : 1 ≤ cfg.maxPerSource) {ops : List Op}
    {st : Store} (h : Run (newStore cfg) ops st) : NoPrune ops → FarFromEnd cfg ops →
    (∀ k, StoredOnce cfg ops k → st.g.oldest ≤ k) ∧
    (StoredOnce cfg ops st.g.oldest ∨ st.g.oldest = maxInt64 ∧ ∀ k, ¬ StoredOnce cfg ops k) := by
  refine run_induct hc (P := fun ops st => NoPrune ops → FarFromEnd cfg ops →
    (∀ k, StoredOnce cfg ops k → st.g.oldest ≤ k) ∧
    (StoredOnce cfg ops st.g.oldest ∨ st.g.oldest = maxInt64 ∧ ∀ k, ¬ StoredOnce cfg ops k)) ?_ ?_ h
  · intro _ _
    have hno : ∀ k, ¬ StoredOnce cfg [] k := by
      rintro k ⟨pre, post, st1, src, x, ho, hr, hx, rfl⟩
      obtain ⟨rfl, rfl⟩ := List.append_eq_nil_iff.1 ho.symm
      have := run_unique hr (.nil _)
      subst this
      cases hx
    exact ⟨fun k hk => absurd hk (hno k), .inr ⟨rfl, hno⟩⟩
  · intro ops st op st' hr hi hcfg ih hv hx hn hf
    have ih := ih (fun o ho => hn o (by simp [ho])) (fun now src e he => hf now src e (List.mem_append_left _ he))
    have hrun : Run (newStore cfg) (ops ++ [op]) st' := .snoc hr hv hx
    have hnow : ∀ src, ∀ x ∈ st'.entries src, StoredOnce cfg (ops ++ [op]) x.1 := fun src x hx =>
      ⟨_, [], st', src, x, (List.append_nil _).symm, hrun, hx, rfl⟩
    cases op with
    | put now s e =>
      obtain ⟨f, hf'⟩ := put_spec hi.idx hx
      obtain ⟨g', s', hidx, hins, hg⟩ := hf'.index
      have hgo := hins.goldest
      rw [← hg] at hgo
      simp only at hgo
      have hE : st'.entries s = s'.tree.toList := by
        unfold Store.entries; rw [hidx, idxLoad_store_same]
      have hold := hins.oldest
      have hb := hins.bst
      unfold Tree.BST at hb
      obtain ⟨y, t, hL, hy⟩ : ∃ y t, s'.tree.toList = y :: t ∧ y.1 = s'.info.oldest := by
        cases hL : s'.tree.toList with
        | nil => rw [hL] at hold; cases hold
        | cons y t => rw [hL] at hold; exact ⟨y, t, rfl, by simpa using hold⟩
      have hmin : ∀ x ∈ st'.entries s, s'.info.oldest ≤ x.1 := by
        intro x hxm
        rw [hE, hL] at hxm
        rw [hL] at hb
        have := sorted_head_le (k := y.1) (v := y.2) hb x hxm
        omega
      have hyk := hnow s y (by rw [hE, hL]; simp)
      rw [hy] at hyk
      have hle : s'.info.oldest ≤ maxInt64 := by
        have hkey : e.timestamp + f ∈ keys s'.tree.toList := by
          rw [hins.toList]
          exact List.mem_map.2 ⟨_, mem_insertKV_self, rfl⟩
        obtain ⟨z, hz, hz1⟩ := List.mem_map.1 hkey
        have h1 := hmin z (by rw [hE]; exact hz)
        have h2 := hf now s e (by simp)
        have h3 := hins.fudge_le
        rw [hcfg] at h3
        unfold maxInt64
        omega
      have hall : ∀ k, StoredOnce cfg (ops ++ [.put now s e]) k →
          StoredOnce cfg ops k ∨ s'.info.oldest ≤ k := by
        intro k hk
        rcases stored_snoc hrun hk with h | ⟨src, x, hxm, rfl⟩
        · exact .inl h
        · by_cases hs : src = s
          · subst hs
            exact .inr (hmin x hxm)
          · rw [entries_other hf' hs] at hxm
            exact .inl ⟨ops, [], st, src, x, (List.append_nil _).symm, hr, hxm, rfl⟩
      constructor
      · intro k hk
        rw [hgo]
        rcases hall k hk with h | h
        · have := ih.1 k h
          split <;> omega
        · split <;> omega
      · left
        rw [hgo]
        split
        · exact hyk
        · rcases ih.2 with h | ⟨h, -⟩
          · exact stored_more _ h
          · have : st.g.oldest = s'.info.oldest := by omega
            rw [this]
            exact hyk
    | truncate now mc o =>
      have := hn _ (by simp : Op.truncate now mc o ∈ ops ++ [Op.truncate now mc o])
      cases this
    | get s a =>
      simp only [Op.exec, Option.some.injEq] at hx
      subst hx
      have hback : ∀ k, StoredOnce cfg (ops ++ [.get s a]) k → StoredOnce cfg ops k := by
        intro k hk
        rcases stored_snoc hrun hk with h | ⟨src, x, hxm, rfl⟩
        · exact h
        · rw [entries_getState] at hxm
          exact ⟨ops, [], st, src, x, (List.append_nil _).symm, hr, hxm, rfl⟩
      obtain ⟨n, hn⟩ := getState_eq st s a
      rw [hn]
      refine ⟨fun k hk => ih.1 k (hback k hk), ?_⟩
      rcases ih.2 with h | ⟨h1, h2⟩
      · exact .inl (stored_more _ h)
      · exact .inr ⟨h1, fun k hk => h2 k (hback k hk)⟩

/-- Before the first prune the cache period after a Put is the time from the oldest envelope
that was ever stored, whether or not it is still there, to now, in milliseconds. -/
theorem C79_cache_period {cfg : Config} (hc : 1 ≤ cfg.maxPerSource) {ops : List Op} {now : Int} {src : Str}
    {e : Envelope} {st : Store} (h : Run (newStore cfg) (ops ++ [.put now src e]) st) (hn : NoPrune ops)
    (hf : FarFromEnd cfg (ops ++ [.put now src e])) :
    ∃ t, st.g.cachePeriod = (now - t).tdiv 1000000 ∧ StoredOnce cfg (ops ++ [.put now src e]) t ∧
      ∀ k, StoredOnce cfg (ops ++ [.put now src e]) k → t ≤ k := by
  have hn' : NoPrune (ops ++ [.put now src e]) := by
    intro o ho
    rcases List.mem_append.1 ho with h | h
    · exact hn o h
    · rw [List.mem_singleton.1 h]; rfl
  obtain ⟨h1, h2⟩ := oldest_ever hc h hn' hf
  have hp : st.g.cachePeriod = (now - st.g.oldest).tdiv 1000000 := by
    obtain ⟨st1, hr, hv, hx⟩ := run_last h
    exact (C79_cache_period_before_prune hc hr hn).2 _ _ _ _ hx
  refine ⟨st.g.oldest, hp, ?_, h1⟩
  rcases h2 with h2 | ⟨-, h2⟩
  · exact h2
  · exfalso
    obtain ⟨st1, hr, hv, hx⟩ := run_last h
    obtain ⟨f, hf'⟩ := put_spec (run_inv hc hr).1.idx hx
    obtain ⟨g', s', hidx, hins, hg⟩ := hf'.index
    have hold := hins.oldest
    cases hL : s'.tree.toList with
    | nil => rw [hL] at hold; cases hold
    | cons y t =>
      exact h2 y.1 ⟨_, [], st, src, y, (List.append_nil _).symm, h, by
        unfold Store.entries; rw [hidx, idxLoad_store_same]; simp only; rw [hL]; simp, rfl⟩

/-- The gauge can overstate: the envelope of time 5 000 000 was evicted, the only one stored
is of time 7 000 000, and at 20 000 000 the gauge shows 15 milliseconds. -/
theorem C79_evicted_false :
    ∃ ops st, Run (newStore { maxPerSource := 1 }) ops st ∧ NoPrune ops ∧
      FarFromEnd { maxPerSource := 1 } ops ∧ ops.getLast? = some (.put 20000000 "a".toList (logAt 7000000)) ∧
      st.entries "a".toList = [(7000000, logAt 7000000)] ∧ st.sources = ["a".toList] ∧ st.g.cachePeriod = 15 := by
  have h1 : Op.exec (newStore { maxPerSource := 1 }) (.put 10 "a".toList (logAt 5000000)) ≠ none := by decide +kernel
  obtain ⟨s1, e1⟩ := Option.ne_none_iff_exists'.1 h1
  have h2 : (Op.exec (newStore { maxPerSource := 1 }) (.put 10 "a".toList (logAt 5000000))).bind
      (fun s => (Op.exec s (.put 20000000 "a".toList (logAt 7000000))).map fun s =>
        (s.entries "a".toList, s.sources, s.g.cachePeriod)) =
      some ([(7000000, logAt 7000000)], ["a".toList], 15) := by decide +kernel
  rw [e1, Option.bind_some] at h2
  obtain ⟨s2, e2, h3⟩ := Option.map_eq_some_iff.1 h2
  refine ⟨_, s2, .snoc (.snoc (.nil _) (show Op.valid _ (.put ..) from trivial) e1) (show Op.valid _ (.put ..) from trivial) e2, by unfold NoPrune; decide, ?_, rfl, ?_, ?_, ?_⟩
  · intro now src e he
    simp only [List.nil_append, List.cons_append, List.mem_cons, List.not_mem_nil, or_false, Op.put.injEq] at he
    rcases he with ⟨-, -, rfl⟩ | ⟨-, -, rfl⟩ <;> decide
  · exact congrArg Prod.fst h3
  · exact congrArg (·.2.1) h3
  · exact congrArg (·.2.2) h3

example : ∃ ops st, Run (newStore { maxPerSource := 3 }) ops st ∧ NoPrune ops ∧ st.g.oldest = 5 :=
  ⟨_, _, run_after (cfg := { maxPerSource := 3 }) (l := [("a", logAt 7), ("b", logAt 5)])
    (by decide), by unfold NoPrune; decide, by decide⟩

end LogCache
