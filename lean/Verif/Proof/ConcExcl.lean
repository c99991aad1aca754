import Verif.Proof.ConcPrune
/-! # Runs in which prunes do not overlap Puts and Metas -/
namespace LogCache
open Spec

/-- The step in which an event happens. -/
theorem crun_split {cfg : Config} {evs : List Ev} {s : Conc} (h : CRun cfg evs s) {pre post : List Ev} {e : Ev}
    (he : evs = pre ++ e :: post) :
    ∃ evs0 es1 es2 s0 s1, CRun cfg evs0 s0 ∧ CStep s0 (es1 ++ e :: es2) s1 ∧ pre = evs0 ++ es1 := by
  induction h generalizing post with
  | nil => simp at he
  | @step evs evs' s s' hr hs ih =>
    rcases List.append_eq_append_iff.1 he with ⟨as, h1, h2⟩ | ⟨cs, h1, h2⟩
    · exact ⟨evs, as, post, s, s', hr, by rw [← h2]; exact hs, h1⟩
    · cases cs with
      | nil =>
        simp only [List.append_nil] at h1
        refine ⟨evs, [], post, s, s', hr, ?_, by simp [h1]⟩
        simp only [List.nil_append] at h2 ⊢
        rw [h2]; exact hs
      | cons c cs =>
        simp only [List.cons_append, List.cons.injEq] at h2
        obtain ⟨rfl, h2⟩ := h2
        exact ih (post := cs) h1

theorem split_single {cfg : Config} {evs : List Ev} {s : Conc} (h : CRun cfg evs s) {pre post : List Ev} {j : Nat}
    {src : Str} (he : evs = pre ++ Ev.dropped j src :: post) :
    ∃ s0 s1, CRun cfg pre s0 ∧ CStep s0 [.dropped j src] s1 := by
  obtain ⟨evs0, es1, es2, s0, s1, hr, hs, hp⟩ := crun_split h he
  obtain ⟨h1, h2⟩ : es1 = [] ∧ es2 = [] := by
    generalize hx : es1 ++ Ev.dropped j src :: es2 = x at hs
    cases hs <;> (cases es1 with
      | nil => simp_all
      | cons a t => cases t <;> simp_all)
  subst h1; subst h2
  exact ⟨s0, s1, by rw [hp, List.append_nil]; exact hr, hs⟩

theorem dropped_running {cfg : Config} {evs : List Ev} {s : Conc} (h : CRun cfg evs s) {pre post : List Ev} {j : Nat}
    {src : Str} (he : evs = pre ++ Ev.dropped j src :: post) : PruneRunning pre j := by
  obtain ⟨s0, s1, hr, hs⟩ := split_single h he
  have hp := crun_pinv hr (step_alive hs)
  generalize hx : [Ev.dropped j src] = x at hs
  cases hs <;> simp at hx
  rename_i ht _ _ _ _ _ _
  obtain ⟨rfl, -⟩ := hx
  obtain ⟨n, ds, he⟩ := hp.tr _ _ ht
  have hm : ∀ e, evId e = j → (e ∈ pre ↔ e ∈ eventsOf j pre) := by
    intro e hid
    unfold eventsOf; rw [List.mem_filter]; simp [hid]
  constructor
  · exact ⟨n, (hm _ rfl).2 (by rw [he]; simp)⟩
  · rw [hm _ rfl, he]; simp

/-- An event since call `i` comes after the call. -/
theorem since_split {i : Nat} {evs : List Ev} {e : Ev} (h : e ∈ since i evs) :
    ∃ c p1 p2 post, evs = p1 ++ .call i c :: p2 ++ e :: post := by
  induction evs with
  | nil => cases h
  | cons x evs ih =>
    have rest : e ∈ since i evs → ∃ c p1 p2 post, x :: evs = p1 ++ .call i c :: p2 ++ e :: post := by
      intro h
      obtain ⟨c, p1, p2, post, h⟩ := ih h
      exact ⟨c, x :: p1, p2, post, by rw [h]; rfl⟩
    cases x with
    | call j c =>
      unfold since at h
      split at h
      · rename_i hj; subst hj
        obtain ⟨p2, post, hp⟩ := List.append_of_mem h
        exact ⟨c, [], p2, post, by rw [hp]; rfl⟩
      · exact rest h
    | _ => exact rest h

/-- When a call has shown only that it was made, that was already so earlier. -/
theorem eventsOf_earlier {i : Nat} {c c' : Call} {p1 p2 post : List Ev}
    (h : eventsOf i (p1 ++ .call i c :: p2 ++ post) = [.call i c']) :
    eventsOf i (p1 ++ .call i c :: p2) = [.call i c'] := by
  rw [eventsOf_append] at h
  have h0 : Ev.call i c ∈ eventsOf i (p1 ++ .call i c :: p2) := by
    unfold eventsOf; rw [List.mem_filter]; simp [evId]
  cases h1 : eventsOf i (p1 ++ .call i c :: p2) with
  | nil => rw [h1] at h0; cases h0
  | cons x t =>
    rw [h1] at h
    simp only [List.cons_append, List.cons.injEq, List.append_eq_nil_iff] at h
    rw [h.1, h.2.1]

theorem exclusive_left {evs evs' : List Ev} (h : Exclusive (evs ++ evs')) : Exclusive evs := by
  intro pre post he
  exact h pre (post ++ evs') (by rw [he]; simp)

/-- In an exclusive run no source is dropped under a call in flight. -/
theorem exclusive_dropped {cfg : Config} {evs : List Ev} {s : Conc} (h : CRun cfg evs s) (hx : Exclusive evs)
    {i : Nat} {src : Str} (hd : DroppedSince evs i src) :
    (∀ k e, eventsOf i evs ≠ [.call i (.put k e)]) ∧ eventsOf i evs ≠ [.call i .metaAll] := by
  obtain ⟨j, hj⟩ := hd
  obtain ⟨c, p1, p2, post, he⟩ := since_split hj
  have hr := dropped_running h he
  have hex := hx _ _ he j hr i
  constructor
  · intro k e hev
    rw [he] at hev
    exact hex.2 k ⟨e, eventsOf_earlier hev⟩
  · intro hev
    rw [he] at hev
    exact hex.1 (eventsOf_earlier hev)

theorem commit_inFlight {cfg : Config} {evs : List Ev} {s : Conc} (h : CRun cfg evs s) {pre post : List Ev} {i : Nat}
    {src : Str} {e : Envelope} {now : Int} (he : evs = pre ++ Ev.commit i src e now :: post) :
    ∃ s0, CRun cfg pre s0 ∧ eventsOf i pre = [.call i (.put src e)] := by
  obtain ⟨evs0, es1, es2, s0, s1, hr, hs, hp⟩ := crun_split h he
  have h1 : es1 = [] ∧ es2 = [] := by
    generalize hx : es1 ++ Ev.commit i src e now :: es2 = x at hs
    cases hs <;> (cases es1 with
      | nil => simp_all
      | cons a t => cases t <;> simp_all)
  obtain ⟨rfl, rfl⟩ := h1
  rw [List.append_nil] at hp; subst hp
  have hpi := crun_pinv hr (step_alive hs)
  refine ⟨s0, hr, ?_⟩
  generalize hx : [] ++ [Ev.commit i src e now] = x at hs
  cases hs <;> simp at hx
  rename_i ht _ _ _
  obtain ⟨rfl, rfl, rfl, rfl⟩ := hx
  exact hpi.tr _ _ ht

theorem exclusive_noLate {cfg : Config} {evs : List Ev} {s : Conc} (h : CRun cfg evs s) (hx : Exclusive evs) :
    NoLate evs := by
  intro pre i src e now post he hd
  obtain ⟨s0, hr, hev⟩ := commit_inFlight h he
  exact (exclusive_dropped hr (exclusive_left (evs' := Ev.commit i src e now :: post) (by rw [← he]; exact hx)) hd).1 _ _ hev

/-! ## Panics -/

/-- A panic is the last event of a run. -/
theorem panic_step {cfg : Config} {evs : List Ev} {s : Conc} (h : CRun cfg evs s) {i : Nat} {why : Panic}
    (hm : Ev.panic i why ∈ evs) :
    s.crashed = true ∧ ∃ pre s0, evs = pre ++ [.panic i why] ∧ CRun cfg pre s0 ∧ CStep s0 [.panic i why] s := by
  induction h with
  | nil => cases hm
  | @step evs evs' s s' hr hs ih =>
    rcases List.mem_append.1 hm with hm | hm
    · exact absurd (ih hm).1 (by rw [step_alive hs]; simp)
    · obtain ⟨h1, h2⟩ : evs' = [.panic i why] ∧ s'.crashed = true := by
        cases hs <;> simp at hm
        all_goals (obtain ⟨rfl, rfl⟩ := hm; exact ⟨rfl, rfl⟩)
      subst h1
      exact ⟨h2, evs, s, rfl, hr, hs⟩

theorem crashed_panic {cfg : Config} {evs : List Ev} {s : Conc} (h : CRun cfg evs s) (hc : s.crashed = true) :
    ∃ i why, Ev.panic i why ∈ evs := by
  cases h with
  | nil => cases hc
  | step hr hs =>
    obtain ⟨i, t, why, -, -, rfl, -⟩ := step_crash hs hc
    exact ⟨i, why, by simp⟩

theorem mem_of_eventsOf {i : Nat} {evs : List Ev} {e : Ev} {l : List Ev} (h : eventsOf i evs = l) (hm : e ∈ l) :
    e ∈ evs := by
  rw [← h] at hm
  exact (List.mem_filter.1 hm).1

theorem no_noRoom {cfg : Config} (hc : 1 ≤ cfg.maxPerSource) {evs : List Ev} {s : Conc} (h : CRun cfg evs s)
    (i : Nat) : Ev.panic i .noRoom ∉ evs := by
  intro hm
  obtain ⟨-, pre, s0, -, hr, hs⟩ := panic_step h hm
  have hi := crun_inv hc hr
  generalize hx : [Ev.panic i Panic.noRoom] = x at hs
  cases hs <;> simp at hx
  rename_i st now ht ho hins hcr
  obtain ⟨r, hr'⟩ := insertOrSwap_total (cfg := s0.cfg) (by rw [crun_cfg hr]; exact hc) now s0.g st
    (hi.objs _ _ ho).bst _
  rw [hr'] at hins; cases hins

theorem emptySource_cause {cfg : Config} (hc : 1 ≤ cfg.maxPerSource) {pre : List Ev} {s0 s : Conc} {i : Nat} {k : Str}
    (hr : CRun cfg pre s0) (hs : CStep s0 [.panic i (.emptySource k)] s) :
    PruneRunning pre i ∧ ∃ j, PutInFlight pre j k := by
  have hi := crun_inv hc hr
  have hp := crun_pinv hr (step_alive hs)
  generalize hx : [Ev.panic i (Panic.emptySource k)] = x at hs
  cases hs <;> simp at hx
  rename_i n h ptrs start k' a st ht hk hn ho hl hcr
  obtain ⟨rfl, rfl⟩ := hx
  constructor
  · obtain ⟨n, he⟩ := hp.tr _ _ ht
    refine ⟨⟨n, mem_of_eventsOf he (by simp)⟩, ?_⟩
    intro hm
    have : Ev.ret i ∈ eventsOf i pre := List.mem_filter.2 ⟨hm, by simp [evId]⟩
    rw [he] at this; simp at this
  · have hnil : st.tree.toList = [] := by
      rw [Tree.left_eq_head] at hl
      exact List.head?_eq_none_iff.1 hl
    obtain ⟨j, e, hj⟩ := hi.nonempty _ hk _ ho hnil
    exact ⟨j, e, hp.tr _ _ hj⟩

theorem goneSource_cause {cfg : Config} (hc : 1 ≤ cfg.maxPerSource) {pre : List Ev} {s0 s : Conc} {i : Nat} {k : Str}
    (hr : CRun cfg pre s0) (hs : CStep s0 [.panic i (.goneSource k)] s) :
    MetaInFlight pre i ∧ DroppedSince pre i k := by
  have hd := crun_dinv hc hr
  have hp := crun_pinv hr (step_alive hs)
  generalize hx : [Ev.panic i (Panic.goneSource k)] = x at hs
  cases hs <;> simp at hx
  rename_i todo acc k' info ht hl hcr
  obtain ⟨rfl, rfl⟩ := hx
  refine ⟨hp.tr _ _ ht, ?_⟩
  rcases hd _ _ ht (k, info) (by simp) with ⟨a, ha⟩ | h
  · rw [hl] at ha; cases ha
  · exact h

theorem unknownType_cause {cfg : Config} {pre : List Ev} {s0 s : Conc} {i : Nat}
    (hr : CRun cfg pre s0) (hs : CStep s0 [.panic i .unknownType] s) :
    ∃ src a, Ev.call i (.get src a) ∈ pre ∧ ∃ ts n, a.types = some ts ∧ EType.other n ∈ ts := by
  have hp := crun_pinv hr (step_alive hs)
  generalize hx : [Ev.panic i Panic.unknownType] = x at hs
  cases hs <;> simp at hx
  rename_i src args a st ht ho hg hcr
  subst hx
  refine ⟨src, args, mem_of_eventsOf (hp.tr _ _ ht) (by simp), ?_⟩
  apply Classical.byContradiction
  intro hne
  obtain ⟨r, hr⟩ := getTree_known st.tree args (fun ts hts n hn => hne ⟨ts, n, hts, hn⟩)
  rw [hr] at hg; cases hg

theorem emptyHeap_running {cfg : Config} {pre : List Ev} {s0 s : Conc} {i : Nat}
    (hr : CRun cfg pre s0) (hs : CStep s0 [.panic i .emptyHeap] s) : PruneRunning pre i := by
  have hp := crun_pinv hr (step_alive hs)
  generalize hx : [Ev.panic i Panic.emptyHeap] = x at hs
  cases hs <;> simp at hx
  rename_i n h ptrs ht hpop hcr
  subst hx
  obtain ⟨n, ds, he⟩ := hp.tr _ _ ht
  refine ⟨⟨n, mem_of_eventsOf he (by simp)⟩, ?_⟩
  intro hm
  have : Ev.ret i ∈ eventsOf i pre := List.mem_filter.2 ⟨hm, by simp [evId]⟩
  rw [he] at this; simp at this

/-- A prune starts with at most as many envelopes to remove as can be reached. -/
theorem startOk_of_noLate {cfg : Config} (hc : 1 ≤ cfg.maxPerSource) {evs : List Ev}
    (hsp : AllSparse cfg evs) (hl : NoLate evs) {s : Conc} (h : CRun cfg evs s) (i : Nat) :
    ∀ pre post n, evs = pre ++ Ev.pruning i n :: post →
      ∃ s0, CRun cfg pre s0 ∧ n ≤ reachable s0 := by
  intro pre post n he
  obtain ⟨evs0, es1, es2, s0, s1, hr, hs, hp⟩ := crun_split h he
  obtain ⟨rfl, rfl⟩ : es1 = [] ∧ es2 = [] := by
    generalize hx : es1 ++ Ev.pruning i n :: es2 = x at hs
    cases hs <;> (cases es1 with
      | nil => simp_all
      | cons a t => cases t <;> simp_all)
  rw [List.append_nil] at hp; subst hp
  refine ⟨s0, hr, ?_⟩
  have hct := (crun_count hc hr (allSparse_left (evs' := Ev.pruning i n :: post) (by rw [← he]; exact hsp))
    (noLate_left (evs' := Ev.pruning i n :: post) (by rw [← he]; exact hl))).1
  rw [reachable_eq (crun_inv hc hr)]
  generalize hx : [] ++ [Ev.pruning i n] = x at hs
  cases hs <;> simp at hx
  rename_i mc ht hn hcr
  obtain ⟨rfl, rfl⟩ := hx
  exact prune_size_le hct

theorem no_emptyHeap_of_noLate {cfg : Config} (hc : 1 ≤ cfg.maxPerSource) {evs : List Ev} {s : Conc}
    (h : CRun cfg evs s) (hsp : AllSparse cfg evs) (hl : NoLate evs) (i : Nat) : Ev.panic i .emptyHeap ∉ evs := by
  intro hm
  obtain ⟨-, pre, s0, he, hr, hs⟩ := panic_step h hm
  have hav := (crun_count hc hr (allSparse_left (evs' := [Ev.panic i .emptyHeap]) (by rw [← he]; exact hsp))
    (noLate_left (evs' := [Ev.panic i .emptyHeap]) (by rw [← he]; exact hl))).2 i
  generalize hx : [Ev.panic i Panic.emptyHeap] = x at hs
  cases hs <;> simp at hx
  rename_i n h ptrs ht hpop hcr
  subst hx
  have ha := (hav _ ht).1.enough
  simp [(ExpHeap.pop_none_iff _).1 hpop, hptrs, isz_nil] at ha

/-! ## Commits -/

theorem commit_stored {cfg : Config} (hc : 1 ≤ cfg.maxPerSource) {pre : List Ev} {s s' : Conc} {i : Nat} {src : Str}
    {e : Envelope} {now : Int} (hr : CRun cfg pre s) (hs : CStep s [.commit i src e now] s')
    (hd : ¬ DroppedSince pre i src) : e ∈ (storedAt s' src).map Prod.snd := by
  have hdi := crun_dinv hc hr
  have hi := crun_inv hc hr
  generalize hx : [Ev.commit i src e now] = x at hs
  cases hs <;> simp at hx
  rename_i src' a e' st st' g' now' ht ho hins hcr
  obtain ⟨rfl, rfl, rfl, rfl⟩ := hx
  rcases hdi _ _ ht with hl | h
  · have hok := objOk_insert (i := i) (by rw [crun_cfg hr]; exact hc) (hi.objs _ _ ho) hins
    unfold storedAt
    show e ∈ (match s.index.lookup src with
      | some b => match (s.heap.set a { storage := st', locked := true })[b]? with
        | some o => o.storage.tree.toList
        | none => []
      | none => []).map Prod.snd
    rw [hl]
    simp only
    rw [List.getElem?_set_self (List.getElem?_eq_some_iff.1 ho).1]
    exact hok.2.2.2
  · exact absurd h hd

theorem storedAt_same {s s' : Conc} (h1 : s'.index = s.index) (h2 : s'.heap = s.heap) (src : Str) :
    storedAt s' src = storedAt s src := by
  unfold storedAt; rw [h1, h2]

theorem storedAt_of {s : Conc} {src : Str} {a : Nat} {o : Obj} (h1 : s.index.lookup src = some a)
    (h2 : s.heap[a]? = some o) : storedAt s src = o.storage.tree.toList := by
  unfold storedAt; simp only [h1]; simp only [h2]

/-- Only a commit to the source or a running prune changes what is stored. -/
theorem storedAt_step {evs evs' : List Ev} {s s' : Conc} (hi : CInv evs s) (hp : PInv evs s) (hs : CStep s evs' s')
    {src : Str} (hncommit : ∀ i e now, Ev.commit i src e now ∉ evs') (hnp : ∀ i, ¬ PruneRunning evs i) :
    storedAt s' src = storedAt s src := by
  have noprune : ∀ {i n : Nat} {h : ExpHeap} {ptrs : List (Str × Nat)}, s.threads[i]? ≠ some (.prune2 n h ptrs) := by
    intro i n h ptrs ht
    obtain ⟨n, ds, he⟩ := hp.tr _ _ ht
    refine hnp i ⟨⟨n, mem_of_eventsOf he (by simp)⟩, ?_⟩
    intro hm
    have : Ev.ret i ∈ eventsOf i evs := List.mem_filter.2 ⟨hm, by simp [evId]⟩
    rw [he] at this; simp at this
  have same : ∀ {b : Nat} {o o' : Obj}, s.heap[b]? = some o →
      o'.storage.tree.toList = o.storage.tree.toList ∨ s.index.lookup src ≠ some b →
      storedAt { s with heap := s.heap.set b o' } src = storedAt s src := by
    intro b o o' ho hor
    unfold storedAt
    cases hl : s.index.lookup src with
    | none => rfl
    | some c =>
      simp only
      by_cases hbc : b = c
      · subst hbc
        rw [List.getElem?_set_self (List.getElem?_eq_some_iff.1 ho).1, ho]
        rcases hor with h | h
        · exact h
        · exact absurd hl h
      · rw [List.getElem?_set_ne hbc]
  cases hs with
  | @putLookup i src' e ht hcr =>
    refine Eq.trans (storedAt_same (s := (s.getOrInit src').1) rfl rfl src) ?_
    unfold Conc.getOrInit
    cases hl : s.index.lookup src' with
    | some a => rfl
    | none =>
      unfold storedAt
      simp only
      rw [lookup_append_new _ _ _ _ hl]
      by_cases heq : src = src'
      · subst heq
        rw [if_pos rfl, hl]; simp [Tree.toList]
      · rw [if_neg heq]
        cases hl' : s.index.lookup src with
        | none => rfl
        | some b =>
          obtain ⟨o, ho, -⟩ := hi.addr (src, b) (lookup_mem hl')
          simp only
          rw [List.getElem?_append_left (List.getElem?_eq_some_iff.1 ho).1]
  | @putInsert i src' a e st st' g' now ht ho hins hcr =>
    refine Eq.trans (storedAt_same (s := { s with heap := s.heap.set a { storage := st', locked := true } })
      rfl rfl src) ?_
    refine same ho (.inr ?_)
    intro hl
    have h1 := hi.addr (src, a) (lookup_mem hl)
    have h2 : Points s.heap src' a := hi.thr _ _ ht
    have := points_fun h1 h2
    simp only at this
    subst this
    exact hncommit _ _ _ (List.mem_singleton.2 rfl)
  | @putFinish i a oldest loaded now o ht ho hcr =>
    refine Eq.trans (storedAt_same (s := { s with heap := s.heap.set a { o with locked := false } })
      rfl rfl src) ?_
    exact same ho (.inl rfl)
  | prunePopNone ht => exact absurd ht noprune
  | prunePopLast ht => exact absurd ht noprune
  | prunePopMore ht => exact absurd ht noprune
  | pruneEnd now ht => exact absurd ht noprune
  | _ => rfl

theorem commit_stays {cfg : Config} (hc : 1 ≤ cfg.maxPerSource) {evs : List Ev} {s : Conc} (h : CRun cfg evs s)
    {i : Nat} {src : Str} {e : Envelope} {now : Int} {pre post : List Ev}
    (he : evs = pre ++ Ev.commit i src e now :: post) (hd : ¬ DroppedSince pre i src)
    (hncommit : ∀ j e' now', Ev.commit j src e' now' ∉ post)
    (hnp : ∀ p q, post = p ++ q → ∀ j, ¬ PruneRunning (pre ++ Ev.commit i src e now :: p) j) :
    e ∈ (storedAt s src).map Prod.snd := by
  induction h generalizing post with
  | nil => simp at he
  | @step evs evs' s s' hr hs ih =>
    rcases List.append_eq_append_iff.1 he with ⟨as, h1, h2⟩ | ⟨cs, h1, h2⟩
    · obtain ⟨rfl, rfl⟩ : as = [] ∧ post = [] := by
        generalize hx : evs' = x at hs
        rw [h2] at hx
        cases hs <;> (cases as with
          | nil => simp_all
          | cons a t => cases t <;> simp_all)
      rw [List.append_nil] at h1; subst h1
      rw [h2] at hs
      exact commit_stored hc hr hs hd
    · cases cs with
      | nil =>
        rw [List.append_nil] at h1; subst h1
        simp only [List.nil_append] at h2
        obtain rfl : post = [] := by
          have hs2 := hs
          rw [← h2] at hs2
          generalize hx : Ev.commit i src e now :: post = x at hs2
          cases hs2 <;> simp at hx <;> exact hx.2
        rw [← h2] at hs
        exact commit_stored hc hr hs hd
      | cons c cs =>
        simp only [List.cons_append, List.cons.injEq] at h2
        obtain ⟨rfl, h2⟩ := h2
        have := ih (post := cs) h1 (fun j e' n hm => hncommit j e' n (by rw [h2]; simp [hm]))
          (fun p q hpq => hnp p (q ++ evs') (by rw [h2, hpq]; simp))
        rw [storedAt_step (crun_inv hc hr) (crun_pinv hr (step_alive hs)) hs
          (fun j e' n hm => hncommit j e' n (by rw [h2]; simp [hm]))
          (fun j => by rw [h1]; exact hnp cs evs' h2 j)]
        exact this

/-! ## Reads -/

theorem read_sound {cfg : Config} (hc : 1 ≤ cfg.maxPerSource) {evs : List Ev} {s : Conc} (h : CRun cfg evs s)
    {pre post : List Ev} {i : Nat} {src : Str} {a : GetArgs} {res : List Envelope}
    (he : evs = pre ++ Ev.read i src a res :: post) :
    ∃ t : Tree Envelope, getTree t a = some res ∧ t.BST ∧
      ∀ x ∈ t.toList, ∃ j now, Ev.commit j src x.2 now ∈ pre := by
  obtain ⟨evs0, es1, es2, s0, s1, hr, hs, hp⟩ := crun_split h he
  have hi := crun_inv hc hr
  obtain rfl : es1 = [] := by
    generalize hx : es1 ++ Ev.read i src a res :: es2 = x at hs
    cases hs <;> (cases es1 with
      | nil => rfl
      | cons a t => (cases t with
        | nil => simp_all
        | cons b u => simp_all))
  rw [List.append_nil] at hp; subst hp
  generalize hx : [] ++ Ev.read i src a res :: es2 = x at hs
  cases hs <;> simp at hx
  case getMiss ht hl hcr =>
    obtain ⟨⟨rfl, rfl, rfl, rfl⟩, rfl⟩ := hx
    exact ⟨.nil, getTree_nil _, Tree.bst_nil, by simp [Tree.toList]⟩
  case getRead =>
    rename_i b st res' ht ho hg hcr
    obtain ⟨⟨rfl, rfl, rfl, rfl⟩, rfl⟩ := hx
    have hok := hi.objs _ _ ho
    obtain ⟨o, ho', hsrc⟩ := hi.thr _ _ ht
    rw [ho] at ho'; cases ho'
    exact ⟨_, hg, hok.bst, fun x hx => by
      obtain ⟨j, n, hm⟩ := hok.origin x hx
      exact ⟨j, n, by rw [← hsrc]; exact hm⟩⟩

end LogCache
