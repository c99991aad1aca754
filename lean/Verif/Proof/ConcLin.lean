import Verif.Proof.Conc
/-! # Runs without pruning refine the sequential store -/
namespace LogCache
open Spec

/-- The storage and the counters after an insert do not depend on the other metrics. -/
theorem insertOrSwap_frame {cfg : Config} {now : Int} {g g2 g' : Globals} {s s' : Storage} {e : Envelope}
    (h : insertOrSwap cfg now g s e = some (g', s')) (h1 : g2.count = g.count) (h2 : g2.expired = g.expired)
    (h3 : g2.storeSize = g.storeSize) :
    ∃ g2', insertOrSwap cfg now g2 s e = some (g2', s') ∧ g2'.count = g'.count ∧ g2'.expired = g'.expired ∧
      g2'.storeSize = g'.storeSize ∧ g2'.egress = g2.egress ∧ g2'.ingress = g2.ingress ∧
      g'.egress = g.egress ∧ g'.ingress = g.ingress := by
  unfold insertOrSwap at h ⊢
  simp only at h ⊢
  by_cases hfull : (s.tree.size : Int) ≥ cfg.maxPerSource
  · simp only [if_pos hfull] at h ⊢
    cases hl : s.tree.left with
    | none => rw [hl] at h; cases h
    | some p =>
      obtain ⟨k, v⟩ := p
      rw [hl] at h
      simp only at h ⊢
      generalize Tree.put _ e (Tree.remove k s.tree) = tr at h ⊢
      cases hl2 : tr.left with
      | none => rw [hl2] at h; cases h
      | some q =>
        obtain ⟨o, w⟩ := q
        rw [hl2] at h
        cases h
        exact ⟨_, rfl, h1, by simp only [h2], h3, rfl, rfl, rfl, rfl⟩
  · simp only [if_neg hfull] at h ⊢
    generalize Tree.put _ e s.tree = tr at h ⊢
    cases hl2 : tr.left with
    | none => rw [hl2] at h; cases h
    | some q =>
      obtain ⟨o, w⟩ := q
      rw [hl2] at h
      cases h
      exact ⟨_, rfl, by simp only [h1], h2, by simp only [h1], rfl, rfl, rfl, rfl⟩

def Thread.isPut2 : Thread → Bool
  | .put2 .. => true
  | _ => false

structure Lin (s : Conc) (S : Store) : Prop where
  cfg : S.cfg = s.cfg
  look : ∀ (src : Str) (a : Nat), s.index.lookup src = some a →
    ∃ o : Obj, s.heap[a]? = some o ∧ o.storage = getOrInit S.index src
  none : ∀ src : Str, s.index.lookup src = none → idxLoad S.index src = none
  count : s.g.count = S.g.count
  expired : s.g.expired = S.g.expired
  size : s.g.storeSize = S.g.storeSize
  egress : s.g.egress = S.g.egress
  ingress : s.g.ingress = S.g.ingress + (s.threads.countP Thread.isPut2 : Int)

theorem countP_goto {ts : List Thread} {i : Nat} {t t' : Thread} (h : ts[i]? = some t) :
    ((ts.set i t').countP Thread.isPut2 : Int) =
      ts.countP Thread.isPut2 - (if t.isPut2 then 1 else 0) + (if t'.isPut2 then 1 else 0) := by
  obtain ⟨hi, ht⟩ := List.getElem?_eq_some_iff.1 h
  have hge : (if t.isPut2 = true then 1 else 0) ≤ ts.countP Thread.isPut2 := by
    split
    · rename_i hp
      exact List.countP_pos_iff.2 ⟨t, ht ▸ List.getElem_mem hi, hp⟩
    · omega
  rw [List.countP_set hi, ht]
  generalize ts.countP Thread.isPut2 = c at hge ⊢
  cases hp : t.isPut2 <;> cases hq : t'.isPut2 <;> simp [hp] at hge ⊢ <;> omega

/-- A thread moves on, nothing else that the refinement sees changes. -/
theorem lin_goto {s : Conc} {S : Store} (h : Lin s S) {i : Nat} {t t' : Thread} (ht : s.threads[i]? = some t)
    (h1 : t.isPut2 = false) (h2 : t'.isPut2 = false) : Lin (s.goto i t') S := by
  refine ⟨h.cfg, h.look, h.none, h.count, h.expired, h.size, h.egress, ?_⟩
  show s.g.ingress = _ + (((s.threads.set i t').countP Thread.isPut2 : Nat) : Int)
  rw [countP_goto ht, h1, h2]
  have := h.ingress
  simp only [Bool.false_eq_true, if_false]; omega

theorem noPruning_left {evs evs' : List Ev} (h : NoPruning (evs ++ evs')) : NoPruning evs :=
  fun i n hm => h i n (List.mem_append_left _ hm)

theorem not_prune2 {evs : List Ev} {s : Conc} (hp : PInv evs s) (hn : NoPruning evs) {i n : Nat} {h : ExpHeap}
    {ptrs : List (Str × Nat)} : s.threads[i]? ≠ some (.prune2 n h ptrs) := by
  intro ht
  obtain ⟨m, ds, he⟩ := hp.tr _ _ ht
  have : Ev.pruning i m ∈ eventsOf i evs := by rw [he]; simp
  exact hn i m (List.mem_filter.1 this).1

theorem not_prune1 {evs : List Ev} {s : Conc} (hp : PInv evs s) (hn : NoPruning evs) {i n : Nat} {h : ExpHeap}
    {ptrs st : List (Str × Nat)} : s.threads[i]? ≠ some (.prune1 n h ptrs st) := by
  intro ht
  obtain ⟨m, he⟩ := hp.tr _ _ ht
  have : Ev.pruning i m ∈ eventsOf i evs := by rw [he]; simp
  exact hn i m (List.mem_filter.1 this).1

theorem no_dropped {cfg : Config} {evs : List Ev} {s : Conc} (h : CRun cfg evs s) (hn : NoPruning evs)
    (j : Nat) (src : Str) : Ev.dropped j src ∉ evs := by
  induction h with
  | nil => simp
  | step hr hs ih =>
    intro hm
    rcases List.mem_append.1 hm with hm | hm
    · exact ih (noPruning_left hn) hm
    · have hp := crun_pinv hr (step_alive hs)
      cases hs with
      | prunePopLast ht hpop ha ho hl hl' hc => exact not_prune2 hp (noPruning_left hn) ht
      | _ => simp at hm

theorem since_sub {i : Nat} {evs : List Ev} {e : Ev} (h : e ∈ since i evs) : e ∈ evs := by
  induction evs with
  | nil => cases h
  | cons x evs ih =>
    cases x with
    | call j d =>
      unfold since at h
      split at h
      · exact List.mem_cons_of_mem _ h
      · exact List.mem_cons_of_mem _ (ih h)
    | _ => exact List.mem_cons_of_mem _ (ih h)

theorem not_droppedSince {cfg : Config} {evs : List Ev} {s : Conc} (h : CRun cfg evs s) (hn : NoPruning evs)
    (i : Nat) (src : Str) : ¬ DroppedSince evs i src := by
  rintro ⟨j, hj⟩
  exact no_dropped h hn j src (since_sub hj)

theorem getOrInit_none {idx : List (Str × Storage)} {src : Str} (h : idxLoad idx src = none) :
    getOrInit idx src = { sourceId := src } := by
  unfold getOrInit; rw [h]

theorem getTree_nil (a : GetArgs) : getTree .nil a = some [] := by
  unfold getTree; split <;> rfl

/-- A sequential Get at a source with this storage. -/
theorem get_getOrInit (S : Store) (src : Str) (a : GetArgs) :
    get S src a = getTree (getOrInit S.index src).tree a := by
  unfold get getOrInit
  cases idxLoad S.index src with
  | none => exact (getTree_nil a).symm
  | some s => rfl

theorem getState_of {S : Store} {src : Str} {a : GetArgs} {res : List Envelope} (h : get S src a = some res) :
    getState S src a = { S with g := { S.g with egress := S.g.egress + res.length } } := by
  unfold get at h
  unfold getState
  cases hl : idxLoad S.index src with
  | none => rw [hl] at h; cases h; simp
  | some s => rw [hl] at h; simp only at h ⊢; rw [h]

theorem replay_others {cfg : Config} {evs evs' : List Ev} {S : Store} (h : Replay cfg evs S)
    (hn : ∀ e ∈ evs', takesEffect e = false) : Replay cfg (evs ++ evs') S := by
  induction evs' generalizing evs with
  | nil => simpa using h
  | cons e evs' ih =>
    have := ih (h.other (hn e (by simp))) (fun e' he => hn e' (List.mem_cons_of_mem _ he))
    simpa using this

/-- What a step does to the sequential store: nothing, or one call. -/
inductive Adv (S : Store) : List Ev → Store → Prop where
  | quiet {evs : List Ev} (h : (evs.all fun e => !takesEffect e) = true) : Adv S evs S
  | one {e : Ev} {op : Op} {rest : List Ev} {S' : Store} (hp : Performs S e op) (hv : op.valid S)
      (he : op.exec S = some S') (h : (rest.all fun e => !takesEffect e) = true) : Adv S (e :: rest) S'

theorem Adv.replay {S S' : Store} {evs' : List Ev} (h : Adv S evs' S') {cfg : Config} {evs : List Ev}
    (hR : Replay cfg evs S) : Replay cfg (evs ++ evs') S' := by
  cases h with
  | quiet h => exact replay_others hR (by simpa using h)
  | one hp hv he h =>
    have := replay_others (hR.call hp hv he) (by simpa using h)
    simpa using this

theorem seqOp_none {e : Ev} (ht : takesEffect e = false) : seqOp e = none := by
  cases e <;> first | rfl | cases ht

theorem seqOps_none {evs : List Ev} (h : (evs.all fun e => !takesEffect e) = true) : seqOps evs = [] := by
  unfold seqOps
  rw [List.filterMap_eq_nil_iff]
  intro e he
  exact seqOp_none (by simpa using List.all_eq_true.1 h e he)

theorem Adv.run {S S' : Store} {evs' : List Ev} (h : Adv S evs' S') (hn : ∀ i n, Ev.pruning i n ∉ evs')
    {cfg : Config} {evs : List Ev} (hR : Run (newStore cfg) (seqOps evs) S) :
    Run (newStore cfg) (seqOps (evs ++ evs')) S' := by
  have happ : seqOps (evs ++ evs') = seqOps evs ++ seqOps evs' := by unfold seqOps; rw [List.filterMap_append]
  rw [happ]
  cases h with
  | quiet h => rw [seqOps_none h, List.append_nil]; exact hR
  | @one e op rest S' hp hv he h =>
    have hr := seqOps_none h
    have : seqOps (e :: rest) = [op] := by
      unfold seqOps at hr ⊢
      cases hp with
      | put i src e now => simp [seqOp, hr]
      | get i src a res hg => simp [seqOp, hr]
      | prune i n now mc order hm => exact absurd List.mem_cons_self (hn i n)
    rw [this]
    exact Run.snoc hR hv he

theorem lin_read {s : Conc} {S : Store} (h : Lin s S) {i : Nat} {t : Thread} {src : Str} {a : GetArgs} {res : List Envelope} (ht : s.threads[i]? = some t)
    (h1 : t.isPut2 = false) (hg : get S src a = some res) :
    ∃ S', Lin ({ s with g := { s.g with egress := s.g.egress + res.length } }.goto i .done) S' ∧
      Adv S [.read i src a res, .ret i] S' := by
  refine ⟨getState S src a, ?_, .one (.get i src a res hg) trivial rfl rfl⟩
  rw [getState_of hg]
  have := lin_goto (t' := .done) h ht h1 rfl
  exact ⟨this.cfg, this.look, this.none, this.count, this.expired, this.size, by
    show s.g.egress + _ = S.g.egress + _; rw [h.egress], this.ingress⟩

/-- A step outside of any removing prune. -/
theorem lin_core {cfg : Config} (hc : 1 ≤ cfg.maxPerSource) {evs evs' : List Ev} {s s' : Conc} {S : Store}
    (hr : CRun cfg evs s)
    (hatt : ∀ i c src, eventsOf i evs = [.call i c] → ¬ DroppedSince evs i src)
    (hn1 : ∀ (i n : Nat) (h : ExpHeap) (ptrs st : List (Str × Nat)), s.threads[i]? ≠ some (Thread.prune1 n h ptrs st))
    (hn2 : ∀ (i n : Nat) (h : ExpHeap) (ptrs : List (Str × Nat)), s.threads[i]? ≠ some (Thread.prune2 n h ptrs))
    (hns : ∀ i n, Ev.pruning i n ∉ evs') (h : Lin s S) (hs : CStep s evs' s') :
    ∃ S', Lin s' S' ∧ Adv S evs' S' := by
  have hp := crun_pinv hr (step_alive hs)
  have hi := crun_inv hc hr
  have hd := crun_dinv hc hr
  have att : ∀ {src : Str} {a i : Nat} {c : Call}, eventsOf i evs = [.call i c] →
      s.index.lookup src = some a ∨ DroppedSince evs i src → s.index.lookup src = some a :=
    fun he h => h.resolve_right (hatt _ _ _ he)
  have quiet : (evs'.all fun e => !takesEffect e) = true → Lin s' S →
      ∃ S', Lin s' S' ∧ Adv S evs' S' := fun h1 h2 => ⟨S, h2, .quiet h1⟩
  have crash : Lin { s with crashed := true } S :=
    ⟨h.cfg, h.look, h.none, h.count, h.expired, h.size, h.egress, h.ingress⟩
  cases hs with
  | call c hpr hcr =>
    refine quiet rfl ⟨h.cfg, h.look, h.none, h.count, h.expired, h.size, h.egress, ?_⟩
    show s.g.ingress = _ + (((s.threads ++ [c.start]).countP Thread.isPut2 : Nat) : Int)
    have : (c.start).isPut2 = false := by cases c <;> rfl
    simp [List.countP_append, this, h.ingress]
  | @putLookup i src e ht hcr =>
    refine quiet rfl ?_
    have hing : ∀ a : Nat, s.g.ingress + 1 = S.g.ingress +
        (((s.threads.set i (.put2 src a e)).countP Thread.isPut2 : Nat) : Int) := by
      intro a
      rw [countP_goto ht]
      have := h.ingress
      simp [Thread.isPut2]; omega
    unfold Conc.getOrInit
    cases hx : s.index.lookup src with
    | some a => exact ⟨h.cfg, h.look, h.none, h.count, h.expired, h.size, h.egress, hing a⟩
    | none =>
      refine ⟨h.cfg, ?_, ?_, h.count, h.expired, h.size, h.egress, hing _⟩
      · intro src' b hb
        replace hb : (s.index ++ [(src, s.heap.length)]).lookup src' = some b := hb
        rw [lookup_append_new _ _ _ _ hx] at hb
        split at hb
        · rename_i hsrc; subst hsrc
          rw [← Option.some.inj hb]
          exact ⟨_, List.getElem?_concat_length, (getOrInit_none (h.none src' hx)).symm⟩
        · obtain ⟨o, ho, hos⟩ := h.look src' b hb
          refine ⟨o, ?_, hos⟩
          show (s.heap ++ _)[b]? = _
          rw [List.getElem?_append_left (List.getElem?_eq_some_iff.1 ho).1]; exact ho
      · intro src' hb
        have hb : (s.index ++ [(src, s.heap.length)]).lookup src' = none := hb
        rw [lookup_append_new _ _ _ _ hx] at hb
        split at hb
        · cases hb
        · exact h.none src' hb
  | @putInsert i src a e st st' g' now ht ho hins hcr =>
    have hlk := att (hp.tr _ _ ht) (hd i _ ht)
    obtain ⟨o, ho', hos⟩ := h.look src a hlk
    rw [ho] at ho'; cases ho'
    simp only at hos
    obtain ⟨g2', h1, h2, h3, h4, h5, h6, h7, h8⟩ := insertOrSwap_frame (g2 := { S.g with ingress := S.g.ingress + 1 })
      hins h.count.symm h.expired.symm h.size.symm
    have hput : put now S src e = some { S with index := idxStore S.index src st', g := g2' } := by
      unfold put
      simp only
      rw [← hos, h.cfg, h1]
    refine ⟨{ S with index := idxStore S.index src st', g := g2' }, ?_,
      .one (.put i src e now) trivial hput rfl⟩
    · refine ⟨h.cfg, ?_, ?_, h2.symm, h3.symm, h4.symm, ?_, ?_⟩
      · intro src' b hb
        have hb : s.index.lookup src' = some b := hb
        by_cases hsrc : src' = src
        · subst hsrc
          rw [hlk] at hb; cases hb
          refine ⟨{ storage := st', locked := true }, ?_, ?_⟩
          · show (s.heap.set a _)[a]? = _
            rw [List.getElem?_set_self (List.getElem?_eq_some_iff.1 ho).1]
          · unfold getOrInit; simp only [idxLoad_store_same]
        · obtain ⟨o, ho2, hos2⟩ := h.look src' b hb
          have hab : a ≠ b := by
            rintro rfl
            exact hsrc (points_fun (hi.addr _ (lookup_mem hb)) (hi.addr _ (lookup_mem hlk)))
          refine ⟨o, ?_, ?_⟩
          · show (s.heap.set a _)[b]? = _
            rw [List.getElem?_set_ne hab]; exact ho2
          · rw [hos2]; unfold getOrInit; simp only [idxLoad_store_other _ _ hsrc]
      · intro src' hb
        have hb : s.index.lookup src' = none := hb
        have hsrc : src' ≠ src := by rintro rfl; rw [hlk] at hb; cases hb
        simp only [idxLoad_store_other _ _ hsrc]
        exact h.none src' hb
      · show g'.egress = g2'.egress
        rw [h5, h7]; exact h.egress
      · show g'.ingress = g2'.ingress + (((s.threads.set i _).countP Thread.isPut2 : Nat) : Int)
        rw [countP_goto ht, h6, h8]
        have := h.ingress
        simp [Thread.isPut2]; omega
  | putCrash now ht ho hi hcr => exact quiet rfl crash
  | @putFinish i a oldest loaded now o ht ho hcr =>
    refine quiet rfl ?_
    have := lin_goto (t' := .done) h ht rfl rfl
    refine ⟨this.cfg, ?_, this.none, this.count, this.expired, this.size, this.egress, this.ingress⟩
    intro src b hb
    obtain ⟨o2, ho2, hos2⟩ := h.look src b hb
    by_cases hab : a = b
    · subst hab
      rw [ho] at ho2; cases ho2
      refine ⟨{ o with locked := false }, ?_, hos2⟩
      show (s.heap.set a _)[a]? = _
      rw [List.getElem?_set_self (List.getElem?_eq_some_iff.1 ho).1]
    · refine ⟨o2, ?_, hos2⟩
      show (s.heap.set a _)[b]? = _
      rw [List.getElem?_set_ne hab]; exact ho2
  | @getMiss i src args ht hx hcr =>
    have hg : get S src args = some [] := by unfold get; rw [h.none src hx]
    obtain ⟨S', h1, h2⟩ := lin_read h ht rfl hg
    refine ⟨S', ?_, h2⟩
    simpa using h1
  | getHit ht hx hcr => exact quiet rfl (lin_goto h ht rfl rfl)
  | @getRead i src args a st res ht ho hres hcr =>
    obtain ⟨o, ho', hos⟩ := h.look src a (att (hp.tr _ _ ht) (hd i _ ht))
    rw [ho] at ho'; cases ho'
    have hg : get S src args = some res := by rw [get_getOrInit, ← hos]; exact hres
    exact lin_read h ht rfl hg
  | getCrash ht ho hr hcr => exact quiet rfl crash
  | metaStart ht hcr => exact quiet rfl (lin_goto h ht rfl rfl)
  | metaVisit ht hk hn ho hcr => exact quiet rfl (lin_goto h ht rfl rfl)
  | metaRangeEnd ht hall hp hcr => exact quiet rfl (lin_goto h ht rfl rfl)
  | metaCount ht hx ho hcr => exact quiet rfl (lin_goto h ht rfl rfl)
  | metaCrash ht hx hcr => exact quiet rfl crash
  | metaEnd ht hcr => exact quiet rfl (lin_goto h ht rfl rfl)
  | pruneNothing mc ht hn hcr => exact quiet rfl (lin_goto h ht rfl rfl)
  | pruneStart mc ht hnz hcr => exact absurd List.mem_cons_self (hns _ _)
  | pruneVisit ht hk hn ho hl hcr => exact absurd ht (hn1 _ _ _ _ _)
  | pruneVisitCrash ht hk hn ho hl hcr => exact absurd ht (hn1 _ _ _ _ _)
  | pruneRangeEnd ht hall hcr => exact absurd ht (hn1 _ _ _ _ _)
  | prunePopNone ht hpop ha ho hl hcr => exact absurd ht (hn2 _ _ _ _)
  | prunePopLast ht hpop ha ho hl hl' hcr => exact absurd ht (hn2 _ _ _ _)
  | prunePopMore ht hpop ha ho hl hl' hcr => exact absurd ht (hn2 _ _ _ _)
  | prunePopCrash ht hpop hcr => exact absurd ht (hn2 _ _ _ _)
  | pruneEnd now ht hcr => exact absurd ht (hn2 _ _ _ _)

theorem lin_step {cfg : Config} (hc : 1 ≤ cfg.maxPerSource) {evs evs' : List Ev} {s s' : Conc} {S : Store}
    (hr : CRun cfg evs s) (hn : NoPruning (evs ++ evs')) (h : Lin s S)
    (hR : Run (newStore cfg) (seqOps evs) S) (hs : CStep s evs' s') :
    ∃ S', Run (newStore cfg) (seqOps (evs ++ evs')) S' ∧ Lin s' S' := by
  have hp := crun_pinv hr (step_alive hs)
  have hn0 := noPruning_left hn
  have hns : ∀ i n, Ev.pruning i n ∉ evs' := fun i n hm => hn i n (List.mem_append_right _ hm)
  obtain ⟨S', h3, h4⟩ := lin_core hc hr (fun i _ src _ => not_droppedSince hr hn0 i src)
    (fun _ _ _ _ _ => not_prune1 hp hn0) (fun _ _ _ _ => not_prune2 hp hn0) hns h hs
  exact ⟨S', h4.run hns hR, h3⟩

theorem crun_lin {cfg : Config} (hc : 1 ≤ cfg.maxPerSource) {evs : List Ev} {s : Conc}
    (h : CRun cfg evs s) (hn : NoPruning evs) : ∃ S, Run (newStore cfg) (seqOps evs) S ∧ Lin s S := by
  induction h with
  | nil =>
    refine ⟨newStore cfg, .nil _, ⟨rfl, ?_, ?_, rfl, rfl, rfl, rfl, rfl⟩⟩
    · intro src a h; simp at h
    · intro src _; rfl
  | step hr hs ih =>
    obtain ⟨S, h1, h2⟩ := ih (noPruning_left hn)
    exact lin_step hc hr hn h2 h1 hs

end LogCache
