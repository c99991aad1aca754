import Verif.Proof.Truncate
import Verif.Proof.Get
import Verif.Spec.History
/-! # Lemmas about histories -/
namespace LogCache
open Spec

theorem putsOf_append (ops ops' : List Op) (src : Str) :
    putsOf (ops ++ ops') src = putsOf ops src ++ putsOf ops' src := by
  simp [putsOf]

theorem putsOf_put (now : Int) (src src' : Str) (e : Envelope) :
    putsOf [.put now src e] src' = if src = src' then [e] else [] := by
  simp only [putsOf, List.filterMap_cons, List.filterMap_nil]
  split <;> simp_all

theorem putsOf_truncate (now : Int) (mc : Int → Int) (o : List (Str × Storage)) (src' : Str) :
    putsOf [.truncate now mc o] src' = [] := rfl

theorem putsOf_get (src : Str) (a : GetArgs) (src' : Str) : putsOf [.get src a] src' = [] := rfl

theorem entries_getState (st : Store) (src : Str) (a : GetArgs) (src' : Str) :
    (getState st src a).entries src' = st.entries src' := by
  obtain ⟨n, hn⟩ := getState_eq st src a
  rw [hn]; rfl

theorem entries_other {now : Int} {st st' : Store} {src src' : Str} {e : Envelope} {f : Nat}
    (h : PutSpec now st src e st' f) (hne : src' ≠ src) : st'.entries src' = st.entries src' := by
  unfold Store.entries; rw [h.other src' hne]

/-- Everything stored under a source was put under that source. -/
theorem stored_was_put {cfg : Config} (hc : 1 ≤ cfg.maxPerSource) {ops : List Op} {st : Store}
    (h : Run (newStore cfg) ops st) : ∀ src, ∀ x ∈ st.entries src, x.2 ∈ putsOf ops src := by
  refine run_induct hc (P := fun ops st => ∀ src, ∀ x ∈ st.entries src, x.2 ∈ putsOf ops src)
    ?_ ?_ h
  · intro src x hx; cases hx
  · intro ops st op st' hr hi hcfg ih hv hx src x hxm
    rw [putsOf_append]
    cases op with
    | put now s e =>
      obtain ⟨f, hf⟩ := put_spec hi.idx hx
      rw [putsOf_put]
      by_cases hs : src = s
      · subst hs
        rw [hf.entries] at hxm
        rcases Tree.mem_insertKV hxm with rfl | hxm
        · simp
        · simp [ih src x (mem_makeRoom hxm)]
      · rw [entries_other hf hs] at hxm
        simp [ih src x hxm]
    | truncate now mc o =>
      obtain ⟨R, hR, -⟩ := (truncate_spec hi.idx hv hx).removed
      rw [putsOf_truncate, List.append_nil]
      exact ih src x (by rw [hR src]; simp [hxm])
    | get s a =>
      simp only [Op.exec, Option.some.injEq] at hx
      subst hx
      rw [entries_getState] at hxm
      rw [putsOf_get, List.append_nil]
      exact ih src x hxm

theorem hist_run {cfg : Config} {ops : List Op} {st : Store} {gh : Ghost}
    (h : Hist cfg ops st gh) : Run (newStore cfg) ops st := by
  induction h with
  | nil => exact Run.nil _
  | snoc _ hv hx ih => exact Run.snoc ih hv hx

theorem run_hist {cfg : Config} {ops : List Op} {st : Store}
    (h : Run (newStore cfg) ops st) : ∃ gh, Hist cfg ops st gh := by
  generalize hst : newStore cfg = st0 at h
  induction h with
  | nil => subst hst; exact ⟨_, Hist.nil⟩
  | snoc _ hv hx ih =>
    obtain ⟨gh, hg⟩ := ih
    exact ⟨_, Hist.snoc hg hv hx⟩

/-- The drift of the count. -/
theorem hist_drift {cfg : Config} (hc : 1 ≤ cfg.maxPerSource) {ops : List Op} {st : Store}
    {gh : Ghost} (h : Hist cfg ops st gh) : st.g.count = st.total + gh.drift := by
  induction h with
  | nil => rfl
  | @snoc ops st st' gh op hr hv hx ih =>
    obtain ⟨hi, hcfg⟩ := run_inv hc (hist_run hr)
    cases op with
    | put now src e =>
      obtain ⟨f, hf⟩ := put_spec hi.idx hx
      have htot := put_total_count hi.idx (by rw [hcfg]; exact hc) hf
      obtain ⟨g', s', hidx, hins, hg⟩ := hf.index
      have hcount := hins.gcount
      have hlen : ((getOrInit st.index src).tree.toList.length : Int) = (st.entries src).length := by
        rw [getOrInit_toList]; rfl
      rw [hlen] at hcount
      rw [← hg] at hcount
      simp only [Ghost.step]
      simp only at hcount
      by_cases ho : overwrites st.cfg (st.entries src) e
      · rw [if_pos ho] at htot ⊢
        split at htot <;> simp_all <;> omega
      · rw [if_neg ho] at htot ⊢
        split at htot <;> simp_all <;> omega
    | truncate now mc o =>
      have hs := truncate_spec hi.idx hv hx
      have h1 := hs.total
      have h2 := hs.count
      simp only [Ghost.step]
      omega
    | get s a =>
      simp only [Op.exec, Option.some.injEq] at hx
      subst hx
      obtain ⟨n, hn⟩ := getState_eq st s a
      rw [hn]
      exact ih

theorem mem_sources {st : Store} {src : Str} :
    src ∈ st.sources ↔ ∃ s, idxLoad st.index src = some s := by
  unfold Store.sources
  cases h : idxLoad st.index src with
  | none => simp [idxLoad_none.1 h]
  | some s => simp only [Option.some.injEq, exists_eq', iff_true]
              exact List.mem_map.2 ⟨_, idxLoad_mem h, rfl⟩

/-- Count + Expired = Puts since the source appeared. -/
theorem hist_expired {cfg : Config} (hc : 1 ≤ cfg.maxPerSource) {ops : List Op} {st : Store}
    {gh : Ghost} (h : Hist cfg ops st gh) (src : Str) :
    (∀ s, idxLoad st.index src = some s →
      (s.tree.toList.length : Int) + s.info.expired + gh.lost src = gh.puts src) ∧
    (idxLoad st.index src = none → gh.puts src = 0 ∧ gh.lost src = 0) := by
  induction h with
  | nil => exact ⟨(fun s hs => by cases hs), fun _ => ⟨rfl, rfl⟩⟩
  | @snoc ops st st' gh op hr hv hx ih =>
    obtain ⟨hi, hcfg⟩ := run_inv hc (hist_run hr)
    have hc' : 1 ≤ st.cfg.maxPerSource := by rw [hcfg]; exact hc
    cases op with
    | put now s e =>
      obtain ⟨f, hf⟩ := put_spec hi.idx hx
      by_cases hs : src = s
      · subst hs
        obtain ⟨g', s', hidx, hins, hg⟩ := hf.index
        have hl : idxLoad st'.index src = some s' := by rw [hidx]; exact idxLoad_store_same _ _ _
        constructor
        · intro s2 hs2
          rw [hl] at hs2; cases hs2
          simp only [Ghost.step, if_pos]
          have hsort : Sorted (makeRoom st.cfg.maxPerSource (st.entries src)) :=
            makeRoom_sorted (idxEntries_sorted hi.idx src)
          have h3 : s'.tree.toList = insertKV (e.timestamp + f) e
              (makeRoom st.cfg.maxPerSource (st.entries src)) := by
            rw [hins.toList, getOrInit_toList]; rfl
          have h4 := length_makeRoom_eq st.cfg.maxPerSource (st.entries src) hc'
          have h5 := hins.expired
          have hlen : ((getOrInit st.index src).tree.toList.length : Int) = (st.entries src).length := by
            rw [getOrInit_toList]; rfl
          rw [hlen] at h5
          have h6 : ((st.entries src).length : Int) + (getOrInit st.index src).info.expired
              + gh.lost src = gh.puts src := by
            unfold Store.entries getOrInit
            cases hl0 : idxLoad st.index src with
            | none => have := ih.2 hl0; simp; omega
            | some s0 => exact ih.1 s0 hl0
          by_cases ho : overwrites st.cfg (st.entries src) e
          · have hk := (overwrites_iff hf).1 ho
            rw [if_pos ho, h3, length_insertKV_old hsort hk, h5]
            omega
          · have hk : ¬ _ := fun hk => ho ((overwrites_iff hf).2 hk)
            rw [if_neg ho, h3, length_insertKV_new hk, h5]
            omega
        · intro hn; rw [hl] at hn; cases hn
      · rw [hf.other src hs]
        simp only [Ghost.step, if_neg hs]
        exact ih
    | truncate now mc o =>
      have hs := truncate_spec hi.idx hv hx
      constructor
      · intro s' hs'
        obtain ⟨s0, hs0, hk, -⟩ := hs.kept src s' hs'
        have := ih.1 s0 hs0
        have hm : src ∈ st'.sources := mem_sources.2 ⟨s', hs'⟩
        simp only [Ghost.step, if_pos hm]
        omega
      · intro hn
        have hm : src ∉ st'.sources := by
          rw [mem_sources]; rintro ⟨s, hs⟩; rw [hn] at hs; cases hs
        simp [Ghost.step, if_neg hm]
    | get s a =>
      simp only [Op.exec, Option.some.injEq] at hx
      subst hx
      obtain ⟨n, hn⟩ := getState_eq st s a
      rw [hn]
      exact ih

/-! ## distinct timestamps -/

theorem distinct_prefix {ops ops' : List Op} (h : DistinctTs (ops ++ ops')) : DistinctTs ops := by
  intro src
  have := h src
  rw [putsOf_append, List.map_append] at this
  exact (List.nodup_append.1 this).1

theorem unfudged_keys {L : List (Int × Envelope)} (h : Unfudged L) :
    keys L = L.map (fun x => x.2.timestamp) := by
  unfold keys
  exact List.map_congr_left (fun x hx => (h x hx).symm)

/-- With distinct timestamps, the key of a Put is its timestamp. -/
theorem distinct_put {now : Int} {st st' : Store} {src : Str} {e : Envelope} {f : Nat}
    (hf : PutSpec now st src e st' f) (hu : Unfudged (st.entries src))
    (hnew : ∀ x ∈ st.entries src, x.2.timestamp ≠ e.timestamp) :
    f = 0 ∧ e.timestamp ∉ keys (makeRoom st.cfg.maxPerSource (st.entries src)) := by
  have hno : e.timestamp ∉ keys (makeRoom st.cfg.maxPerSource (st.entries src)) := by
    intro hm
    obtain ⟨x, hx, hxe⟩ := List.mem_map.1 hm
    have hx' := mem_makeRoom hx
    exact hnew x hx' ((hu x hx').trans hxe)
  refine ⟨?_, hno⟩
  apply Classical.byContradiction
  intro h0
  have := hf.taken 0 (by omega)
  simp at this
  exact hno this

theorem distinct_fresh {cfg : Config} (hc : 1 ≤ cfg.maxPerSource) {ops : List Op} {st : Store}
    (h : Run (newStore cfg) ops st) {now : Int} {src : Str} {e : Envelope}
    (hd : DistinctTs (ops ++ [.put now src e])) :
    ∀ x ∈ st.entries src, x.2.timestamp ≠ e.timestamp := by
  intro x hx
  have h1 := stored_was_put hc h src x hx
  have h2 := hd src
  rw [putsOf_append, putsOf_put, if_pos rfl, List.map_append] at h2
  have h3 := (List.nodup_append.1 h2).2.2
  exact h3 x.2.timestamp (List.mem_map.2 ⟨_, h1, rfl⟩) e.timestamp (by simp)

theorem distinct_unfudged {cfg : Config} (hc : 1 ≤ cfg.maxPerSource) {ops : List Op} {st : Store}
    (h : Run (newStore cfg) ops st) (hd : DistinctTs ops) : ∀ src, Unfudged (st.entries src) := by
  revert hd
  refine run_induct hc (P := fun ops st => DistinctTs ops → ∀ src, Unfudged (st.entries src))
    ?_ ?_ h
  · intro _ src x hx; cases hx
  · intro ops st op st' hr hi hcfg ih hv hx hd src
    have ih := ih (distinct_prefix hd)
    cases op with
    | put now s e =>
      obtain ⟨f, hf⟩ := put_spec hi.idx hx
      by_cases hs : src = s
      · subst hs
        obtain ⟨h0, -⟩ := distinct_put hf (ih src) (distinct_fresh hc hr hd)
        subst h0
        rw [hf.entries]
        intro x hxm
        rcases Tree.mem_insertKV hxm with rfl | hxm
        · simp
        · exact ih src x (mem_makeRoom hxm)
      · rw [entries_other hf hs]; exact ih src
    | truncate now mc o =>
      obtain ⟨R, hR, -⟩ := (truncate_spec hi.idx hv hx).removed
      intro x hxm
      exact ih src x (by rw [hR src]; simp [hxm])
    | get s a =>
      simp only [Op.exec, Option.some.injEq] at hx
      subst hx
      rw [entries_getState]; exact ih src

theorem not_overwrites_of_distinct {cfg : Config} {L : List (Int × Envelope)} {e : Envelope}
    (h : e.timestamp ∉ keys (makeRoom cfg.maxPerSource L)) : ¬ overwrites cfg L e := by
  intro ho
  have := ho 0 (by omega)
  simp at this
  exact h this

theorem distinct_drift {cfg : Config} (hc : 1 ≤ cfg.maxPerSource) {ops : List Op} {st : Store}
    {gh : Ghost} (h : Hist cfg ops st gh) (hd : DistinctTs ops) :
    gh.drift = 0 ∧ ∀ src, gh.lost src = 0 := by
  induction h with
  | nil => exact ⟨rfl, fun _ => rfl⟩
  | @snoc ops st st' gh op hr hv hx ih =>
    obtain ⟨i1, i2⟩ := ih (distinct_prefix hd)
    obtain ⟨hi, hcfg⟩ := run_inv hc (hist_run hr)
    cases op with
    | put now src e =>
      obtain ⟨f, hf⟩ := put_spec hi.idx hx
      obtain ⟨-, hno⟩ := distinct_put hf
        (distinct_unfudged hc (hist_run hr) (distinct_prefix hd) src)
        (distinct_fresh hc (hist_run hr) hd)
      have := not_overwrites_of_distinct (cfg := st.cfg) hno
      simp only [Ghost.step, if_neg this, Nat.add_zero]
      refine ⟨i1, fun s => ?_⟩
      split <;> exact i2 s
    | truncate now mc o =>
      simp only [Ghost.step]
      refine ⟨i1, fun s => ?_⟩
      split
      · exact i2 s
      · rfl
    | get s a => exact ⟨i1, i2⟩

theorem distinct_count {cfg : Config} (hc : 1 ≤ cfg.maxPerSource) {ops : List Op} {st : Store}
    (h : Run (newStore cfg) ops st) (hd : DistinctTs ops) : st.g.count = st.total := by
  obtain ⟨gh, hg⟩ := run_hist h
  rw [hist_drift hc hg, (distinct_drift hc hg hd).1]; simp

/-! ## sums over sources -/

theorem sum_entries {S : List Str} (hS : S.Nodup) {idx : List (Str × Storage)} (hn : NodupKeys idx)
    (hsub : ∀ p ∈ idx, p.1 ∈ S) :
    (S.map fun s => (idxEntries idx s).length).sum = idxTotal idx := by
  induction idx generalizing S with
  | nil =>
    simp only [idxEntries, idxLoad, idxTotal, List.map_nil, List.sum_nil, List.length_nil]
    clear hS hsub
    induction S with
    | nil => rfl
    | cons a t ih => simpa using ih
  | cons p t ih =>
    obtain ⟨k, s⟩ := p
    have hk : k ∈ S := hsub (k, s) (by simp)
    have hperm : S.Perm (k :: S.erase k) := List.perm_cons_erase hk
    have hn' : NodupKeys t := by
      unfold NodupKeys at hn ⊢; rw [List.map_cons] at hn; exact (List.nodup_cons.1 hn).2
    have hkt : k ∉ t.map Prod.fst := by
      unfold NodupKeys at hn; rw [List.map_cons] at hn; exact (List.nodup_cons.1 hn).1
    rw [(hperm.map _).sum_nat]
    simp only [List.map_cons, List.sum_cons]
    have h1 : idxEntries ((k, s) :: t) k = s.tree.toList := by simp [idxEntries, idxLoad]
    have h2 : ((S.erase k).map fun x => (idxEntries ((k, s) :: t) x).length)
        = ((S.erase k).map fun x => (idxEntries t x).length) := by
      apply List.map_congr_left
      intro x hx
      have hxk : k ≠ x := by
        intro he; subst he
        exact (hS.not_mem_erase) hx
      simp [idxEntries, idxLoad, hxk]
    rw [h1, h2, ih (hS.erase k) hn']
    · simp [idxTotal]
    · intro q hq
      have hqk : q.1 ≠ k := by
        intro he; exact hkt (List.mem_map.2 ⟨q, hq, he⟩)
      exact (List.mem_erase_of_ne hqk).2 (hsub q (by simp [hq]))

/-! ## refinement to the abstract log -/

theorem insertKV_insertByTs {L : List (Int × Envelope)} (hu : Unfudged L) {e : Envelope}
    (hno : e.timestamp ∉ keys L) :
    (insertKV e.timestamp e L).map Prod.snd = insertByTs e (L.map Prod.snd) := by
  induction L with
  | nil => rfl
  | cons p t ih =>
    obtain ⟨k, v⟩ := p
    have hk : v.timestamp = k := hu (k, v) (by simp)
    have hno' : e.timestamp ≠ k ∧ e.timestamp ∉ keys t := by simpa [keys] using hno
    simp only [insertKV, List.map_cons, insertByTs, hk]
    split
    · simp
    · rw [if_neg hno'.1, List.map_cons, ih (fun x hx => hu x (by simp [hx])) hno'.2]

theorem map_makeRoom (max : Int) (L : List (Int × Envelope)) :
    (makeRoom max L).map Prod.snd =
      if max ≤ ((L.map Prod.snd).length : Int) then (L.map Prod.snd).tail else L.map Prod.snd := by
  unfold makeRoom
  rw [List.length_map]
  split
  · rw [List.map_tail]
  · rfl

theorem refine_log {cfg : Config} (hc : 1 ≤ cfg.maxPerSource) {ops : List Op} {st : Store}
    (h : Run (newStore cfg) ops st) (hd : DistinctTs ops) :
    LogRun cfg ops (fun src => st.envelopes src) := by
  revert hd
  refine run_induct hc (P := fun ops st => DistinctTs ops → LogRun cfg ops (fun src => st.envelopes src))
    ?_ ?_ h
  · intro _; exact LogRun.nil
  · intro ops st op st' hr hi hcfg ih hv hx hd
    have ih := ih (distinct_prefix hd)
    have hu := distinct_unfudged hc hr (distinct_prefix hd)
    refine LogRun.snoc ih ?_
    cases op with
    | put now s e =>
      obtain ⟨f, hf⟩ := put_spec hi.idx hx
      obtain ⟨h0, hno⟩ := distinct_put hf (hu s) (distinct_fresh hc hr hd)
      subst h0
      have : (fun src => st'.envelopes src) = fun src =>
          if src = s then remember cfg.maxPerSource e (st.envelopes src) else st.envelopes src := by
        funext src
        by_cases hs : src = s
        · subst hs
          simp only [if_pos]
          unfold Store.envelopes remember
          rw [hf.entries]
          simp only [Int.ofNat_zero, Int.natCast_zero, Int.add_zero]
          rw [insertKV_insertByTs (fun x hx => hu src x (mem_makeRoom hx)) hno, map_makeRoom, hcfg]
        · simp only [if_neg hs]
          unfold Store.envelopes
          rw [entries_other hf hs]
      rw [this]
      exact LogStep.put _ now s e
    | truncate now mc o =>
      have hs := truncate_spec hi.idx hv hx
      obtain ⟨R, hR1, hR2⟩ := hs.removed
      have hcount := distinct_count hc hr (distinct_prefix hd)
      refine LogStep.prune _ _ (fun src => (R src).map Prod.snd) now mc o st.sources
        hi.idx.1 ?_ ?_ ?_ ?_
      · intro s hne
        rw [mem_sources]
        unfold Store.envelopes Store.entries at hne
        cases hl : idxLoad st.index s with
        | none => rw [hl] at hne; simp at hne
        | some x => exact ⟨x, rfl⟩
      · intro s
        unfold Store.envelopes; rw [hR1 s, List.map_append]
      · intro s s' x y hxm hym
        obtain ⟨x', hx', rfl⟩ := List.mem_map.1 hxm
        obtain ⟨y', hy', rfl⟩ := List.mem_map.1 hym
        have h1 := hR2 s s' x' y' hx' hy'
        have h2 := hu s x' (by rw [hR1 s]; simp [hx'])
        have h3 := hu s' y' (by rw [hR1 s']; simp [hy'])
        omega
      · intro total htotal
        have hA : (st.sources.map fun s => (st.envelopes s).length).sum = st.total := by
          have := sum_entries hi.idx.1 hi.idx.1 (idx := st.index)
            (fun p hp => List.mem_map.2 ⟨p, hp, rfl⟩)
          rw [total_eq, ← this]
          unfold Store.sources Store.envelopes
          simp only [List.length_map]; rfl
        have hA' : (st.sources.map fun s => (st'.entries s).length).sum = st'.total := by
          refine sum_entries hi.idx.1 hs.ok.1 ?_
          intro p hp
          obtain ⟨s0, hs0, -⟩ := hs.kept p.1 p.2 (mem_idxLoad hs.ok.1 hp)
          exact mem_sources.2 ⟨s0, hs0⟩
        have hsum : (st.sources.map fun s => (st.envelopes s).length).sum =
            (st.sources.map fun s => ((R s).map Prod.snd).length).sum +
            (st.sources.map fun s => (st'.entries s).length).sum := by
          have : (fun s => (st.envelopes s).length) =
              fun s => ((R s).map Prod.snd).length + (st'.entries s).length := by
            funext s; unfold Store.envelopes; rw [hR1 s]; simp
          rw [this]
          generalize st.sources = S
          induction S with
          | nil => rfl
          | cons a t ih => simp only [List.map_cons, List.sum_cons, ih]; omega
        rw [hA, hA'] at hsum
        have htot := hs.total
        have : (st.sources.map fun s => ((R s).map Prod.snd).length).sum = pruneTarget mc st := by
          omega
        rw [this]
        rw [hA] at htotal
        subst htotal
        unfold pruneTarget
        rw [hcount]
        congr 1
        split <;> omega
    | get s a =>
      simp only [Op.exec, Option.some.injEq] at hx
      subst hx
      have : (fun src => (getState st s a).envelopes src) = fun src => st.envelopes src := by
        funext src; unfold Store.envelopes; rw [entries_getState]
      rw [this]
      exact LogStep.get _ s a

/-! ## answers -/

theorem project_timestamp {nf : Option (Str → Bool)} {o e : Envelope}
    (h : project nf o = some e) : e.timestamp = o.timestamp := by
  unfold project at h
  split at h
  · cases h; rfl
  · split at h
    · simp only [Option.some.injEq] at h
      rw [← h]; unfold restrict; split <;> rfl
    · cases h

theorem answer_later {s s' stop : Int} {types : Option (List EType)} {nf : Option (Str → Bool)}
    {l : List Envelope} (h : s ≤ s') :
    answer s' stop types nf l =
      (answer s stop types nf l).filter (fun e => decide (s' ≤ e.timestamp)) := by
  induction l with
  | nil => rfl
  | cons x t ih =>
    unfold answer at ih ⊢
    simp only [List.filter_cons]
    by_cases hw : inWindow s' stop x = true
    · have hw2 : inWindow s stop x = true := by
        simp [inWindow] at hw ⊢; omega
      rw [if_pos hw, if_pos hw2]
      simp only [List.filterMap_cons]
      cases hp : project nf x with
      | none => exact ih
      | some e =>
        have := project_timestamp hp
        simp only [List.filter_cons]
        have hs : decide (s' ≤ e.timestamp) = true := by simp [inWindow] at hw; simp; omega
        split
        · simp only [List.filter_cons, hs, if_true, ih]
        · exact ih
    · rw [if_neg hw]
      by_cases hw2 : inWindow s stop x = true
      · rw [if_pos hw2]
        simp only [List.filterMap_cons]
        cases hp : project nf x with
        | none => exact ih
        | some e =>
          have := project_timestamp hp
          simp only [List.filter_cons]
          have hs : decide (s' ≤ e.timestamp) = false := by
            simp [inWindow] at hw hw2; simp; omega
          split
          · simp only [List.filter_cons, hs, ih]; simp
          · exact ih
      · rw [if_neg hw2]; exact ih

theorem answer_sorted {l : List Envelope}
    (h : l.Pairwise (fun x y => x.timestamp < y.timestamp)) (s stop : Int)
    (types : Option (List EType)) (nf : Option (Str → Bool)) :
    (answer s stop types nf l).Pairwise (fun x y => x.timestamp < y.timestamp) := by
  unfold answer
  apply List.Pairwise.filter
  rw [List.pairwise_filterMap]
  refine List.Pairwise.imp ?_ (h.filter _)
  intro a b hab x hx y hy
  rw [project_timestamp hx, project_timestamp hy]; exact hab

theorem answer_sorted_le {l : List Envelope}
    (h : l.Pairwise (fun x y => x.timestamp ≤ y.timestamp)) (s stop : Int)
    (types : Option (List EType)) (nf : Option (Str → Bool)) :
    (answer s stop types nf l).Pairwise (fun x y => x.timestamp ≤ y.timestamp) := by
  unfold answer
  apply List.Pairwise.filter
  rw [List.pairwise_filterMap]
  refine List.Pairwise.imp ?_ (h.filter _)
  intro a b hab x hx y hy
  rw [project_timestamp hx, project_timestamp hy]; exact hab

end LogCache
