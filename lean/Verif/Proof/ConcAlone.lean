import Verif.Proof.ConcLin
import Verif.Proof.ConcPrune
import Verif.Proof.ConcExcl
import Verif.Proof.ConcMeta
import Verif.Proof.Truncate
/-! # Undisturbed prunes refine the sequential store -/
namespace LogCache
open Spec

/-- A prune that is removing envelopes. -/
def Thread.isRemoving : Thread → Bool
  | .prune1 .. => true
  | .prune2 .. => true
  | _ => false

/-- The state of the refinement. -/
inductive Alone (cfg : Config) (evs : List Ev) (s : Conc) : Prop where
  | idle {S : Store} (hR : Replay cfg evs S) (hl : Lin s S) (hq : ∀ t ∈ s.threads, t.isRemoving = false)
  | build {S : Store} {evs0 mid : List Ev} {i n : Nat} {h : ExpHeap} {ptrs : List (Str × Nat)} {mc : Int → Int}
      (he : evs = evs0 ++ Ev.pruning i n :: mid) (hm : ∀ e ∈ mid, takesEffect e = false)
      (hR : Replay cfg evs0 S) (hl : Lin s S) (ht : s.threads[i]? = some (.prune1 n h ptrs s.index))
      (hmc : mc S.g.count ≠ 0) (hn : n = (min (mc S.g.count) S.g.count).toNat)
      (hb : buildHeap (ptrs.map fun p => (p.1, getOrInit S.index p.1)) [] = some h)
      (hnd : (ptrs.map Prod.fst).Nodup) (hsub : ∀ p ∈ ptrs, p ∈ s.index) (hheap : h.IsHeap)
      (hkeys : (h.map Expiration.sourceId).Perm (ptrs.map Prod.fst))
  | loop {S : Store} {evs0 mid : List Ev} {i n m : Nat} {h h0 : ExpHeap} {ptrs : List (Str × Nat)} {mc : Int → Int}
      {order idx : List (Str × Storage)} {g : Globals}
      (he : evs = evs0 ++ Ev.pruning i n :: mid) (hm : ∀ e ∈ mid, takesEffect e = false)
      (hR : Replay cfg evs0 S) (hl : Lin s { S with index := idx, g := g })
      (ht : s.threads[i]? = some (.prune2 m h ptrs))
      (hmc : mc S.g.count ≠ 0) (hn : n = (min (mc S.g.count) S.g.count).toNat)
      (ho : order.Perm S.index) (hb : buildHeap order [] = some h0)
      (hloop : pruneLoop n S.g S.index h0 = pruneLoop m g idx h)
      (hheap : h.IsHeap) (hnd : (h.map Expiration.sourceId).Nodup)
      (hptr : ∀ x ∈ h, ∃ a, ptrs.lookup x.sourceId = some a ∧ s.index.lookup x.sourceId = some a)

/-- A Put that has taken effect returns: the refinement sees nothing of it. -/
theorem lin_finish {s : Conc} {S : Store} (h : Lin s S) {i a : Nat} {oldest loaded now x y : Int} {o : Obj}
    (ht : s.threads[i]? = some (.put3 a oldest loaded now)) (ho : s.heap[a]? = some o) :
    Lin ({ s with heap := s.heap.set a { o with locked := false },
                  g := { s.g with oldest := x, cachePeriod := y } }.goto i .done) S := by
  have := lin_goto (t' := .done) h ht rfl rfl
  refine ⟨this.cfg, ?_, this.none, this.count, this.expired, this.size, this.egress, this.ingress⟩
  intro src b hb
  obtain ⟨o2, ho2, hos2⟩ := h.look src b hb
  by_cases hab : a = b
  · subst hab
    rw [ho] at ho2; cases ho2
    refine ⟨{ o with locked := false }, ?_, hos2⟩
    show (s.heap.set a _)[a]? = _
    rw [List.getElem?_set_self (List.getElem?_eq_some_iff.1 ho).1]
  · refine ⟨o2, ?_, hos2⟩
    show (s.heap.set a _)[b]? = _
    rw [List.getElem?_set_ne hab]; exact ho2

theorem buildHeap_snoc {order : List (Str × Storage)} {h0 h : ExpHeap} (hb : buildHeap order h0 = some h)
    {k : Str} {st : Storage} {ts : Int} {v : Envelope} (hl : st.tree.left = some (ts, v)) :
    buildHeap (order ++ [(k, st)]) h0 = some (h.push ⟨ts, k⟩) := by
  induction order generalizing h0 with
  | nil =>
    cases hb
    simp only [List.nil_append, buildHeap, hl]
  | cons p order ih =>
    obtain ⟨k', st'⟩ := p
    simp only [List.cons_append, buildHeap] at hb ⊢
    cases hl' : st'.tree.left with
    | none => rw [hl'] at hb; cases hb
    | some q => rw [hl'] at hb; exact ih hb

theorem idxLoad_of_left {idx : List (Str × Storage)} {src : Str} {q : Int × Envelope}
    (h : (getOrInit idx src).tree.left = some q) : idxLoad idx src = some (getOrInit idx src) := by
  unfold getOrInit at h ⊢
  cases hx : idxLoad idx src with
  | none => rw [hx] at h; cases h
  | some st => rfl

theorem pushed_keys {h : ExpHeap} {x : Expiration} :
    ((h.push x).map Expiration.sourceId).Perm (x.sourceId :: h.map Expiration.sourceId) :=
  (ExpHeap.push_perm h x).map Expiration.sourceId

theorem lookup_filter_eq (idx : List (Str × Nat)) (k : Str) :
    (idx.filter (fun p => decide (p.1 ≠ k))).lookup k = none := by
  induction idx with
  | nil => rfl
  | cons p idx ih =>
    obtain ⟨k', a⟩ := p
    rw [List.filter_cons]
    by_cases hk : k' = k
    · subst hk
      rw [if_neg (by simp), ih]
    · rw [if_pos (by simpa using hk), List.lookup_cons, beq_eq_false_iff_ne.2 (fun h => hk h.symm), ih]

theorem replay_inv {cfg : Config} (hc : 1 ≤ cfg.maxPerSource) {evs : List Ev} {S : Store} (h : Replay cfg evs S) :
    Inv S ∧ S.cfg = cfg := by
  induction h with
  | new => exact ⟨inv_new cfg, rfl⟩
  | call _ hp hv he ih =>
    have := exec_inv ih.1 (by rw [ih.2]; exact hc) hv he
    exact ⟨this.1, this.2.trans ih.2⟩
  | other _ _ ih => exact ih

theorem lookup_of_nodup {idx : List (Str × Nat)} (hn : (idx.map Prod.fst).Nodup) {k : Str} {a : Nat}
    (h : (k, a) ∈ idx) : idx.lookup k = some a := by
  induction idx with
  | nil => cases h
  | cons p idx ih =>
    obtain ⟨k', b⟩ := p
    simp only [List.map_cons, List.nodup_cons] at hn
    rw [List.lookup_cons]
    rcases List.mem_cons.1 h with h | hm
    · cases h; simp
    · have : (k == k') = false := by
        rw [beq_eq_false_iff_ne]
        rintro rfl
        exact hn.1 (List.mem_map.2 ⟨(k, a), hm, rfl⟩)
      rw [this]
      exact ih hn.2 hm

/-- The order in which a range that has seen everything went through the map. -/
theorem order_perm {cfg : Config} {evs evs0 : List Ev} {s : Conc} {S : Store} (hc : 1 ≤ cfg.maxPerSource)
    (hi : CInv evs s) (hl : Lin s S) (hR : Replay cfg evs0 S) (hput : ∀ (j : Nat) (src : Str) (a : Nat) (e : Envelope), s.threads[j]? ≠ some (Thread.put2 src a e))
    {ptrs : List (Str × Nat)} (hnd : (ptrs.map Prod.fst).Nodup) (hsub : ∀ p ∈ ptrs, p ∈ s.index)
    (hall : ∀ k a, (k, a) ∈ s.index → k ∈ ptrs.map Prod.fst) :
    (ptrs.map fun p => (p.1, getOrInit S.index p.1)).Perm S.index := by
  have hnS := (replay_inv hc hR).1.idx.1
  have n1 : ∀ {l : List (Str × Storage)}, (l.map Prod.fst).Nodup → l.Nodup := fun h => List.Pairwise.of_map Prod.fst (fun a b hab hh => hab (congrArg _ hh)) h
  refine (List.perm_ext_iff_of_nodup (n1 ?_) (n1 hnS)).2 ?_
  · rw [List.map_map]
    exact hnd
  · rintro ⟨k, st⟩
    constructor
    · intro hm
      obtain ⟨p, hp, he⟩ := List.mem_map.1 hm
      obtain ⟨rfl, rfl⟩ := Prod.mk.inj he
      have hpi := hsub p hp
      have hlk : s.index.lookup p.1 = some p.2 := lookup_of_nodup hi.nodup hpi
      obtain ⟨o, ho, hos⟩ := hl.look _ _ hlk
      cases hx : idxLoad S.index p.1 with
      | none =>
        exfalso
        rw [getOrInit_none hx] at hos
        obtain ⟨j, e, hj⟩ := hi.nonempty p hpi o ho (by rw [hos]; rfl)
        exact hput _ _ _ _ hj
      | some st =>
        have : getOrInit S.index p.1 = st := by unfold getOrInit; rw [hx]
        rw [this]
        exact idxLoad_mem hx
    · intro hm
      have hx : idxLoad S.index k = some st := mem_idxLoad hnS hm
      cases hlk : s.index.lookup k with
      | none => rw [hl.none k hlk] at hx; cases hx
      | some a =>
        obtain ⟨p, hp, hpk⟩ := List.mem_map.1 (hall k a (lookup_mem hlk))
        subst hpk
        refine List.mem_map.2 ⟨p, hp, ?_⟩
        unfold getOrInit
        rw [hx]

/-! ## Steps -/

theorem prunesAlone_left {evs evs' : List Ev} (h : PrunesAlone (evs ++ evs')) : PrunesAlone evs := by
  intro pre post he
  exact h pre (post ++ evs') (by rw [he]; simp)

theorem mem_eventsOf {i : Nat} {evs : List Ev} {e : Ev} (h : evId e = i) : e ∈ evs ↔ e ∈ eventsOf i evs := by
  unfold eventsOf; rw [List.mem_filter]; simp [h]

/-- No source is dropped under a call that waits. -/
theorem alone_dropped {cfg : Config} {evs : List Ev} {s : Conc} (h : CRun cfg evs s) (hx : PrunesAlone evs)
    {i : Nat} {c : Call} {src : Str} (he : eventsOf i evs = [.call i c]) : ¬ DroppedSince evs i src := by
  rintro ⟨j, hj⟩
  obtain ⟨c', p1, p2, post, hev⟩ := since_split hj
  rw [hev] at he
  exact hx _ _ hev j (dropped_running h hev) i c (eventsOf_earlier he)

theorem removing_running {evs : List Ev} {s : Conc} (hp : PInv evs s) {i : Nat} {t : Thread}
    (ht : s.threads[i]? = some t) (hr : t.isRemoving = true) : PruneRunning evs i := by
  have htr := hp.tr i t ht
  cases t with
  | prune1 n h ptrs st =>
    obtain ⟨m, he⟩ := htr
    exact ⟨⟨m, (mem_eventsOf (i := i) rfl).2 (by rw [he]; simp)⟩, fun hm => by
      have := (mem_eventsOf (i := i) rfl).1 hm
      rw [he] at this; simp at this⟩
  | prune2 n h ptrs =>
    obtain ⟨m, ds, he⟩ := htr
    exact ⟨⟨m, (mem_eventsOf (i := i) rfl).2 (by rw [he]; simp)⟩, fun hm => by
      have := (mem_eventsOf (i := i) rfl).1 hm
      rw [he] at this; simp at this⟩
  | _ => cases hr

theorem removing_isPrune {t : Thread} (h : t.isRemoving = true) : t.isPrune = true := by
  cases t <;> first | rfl | cases h

theorem quiet_set {ts : List Thread} {i : Nat} {t' : Thread} (h : ∀ t ∈ ts, t.isRemoving = false)
    (ht : t'.isRemoving = false) : ∀ t ∈ ts.set i t', t.isRemoving = false := by
  intro t hm
  rcases List.mem_or_eq_of_mem_set hm with h1 | h1
  · exact h t h1
  · rw [h1]; exact ht

/-- Only `pruneStart` makes a prune remove. -/
theorem quiet_step {evs' : List Ev} {s s' : Conc} (h : ∀ t ∈ s.threads, t.isRemoving = false)
    (hns : ∀ i n, Ev.pruning i n ∉ evs') (hs : CStep s evs' s') : ∀ t ∈ s'.threads, t.isRemoving = false := by
  have not : ∀ {i : Nat} {t : Thread}, s.threads[i]? = some t → t.isRemoving = true → False := by
    intro i t ht hr
    rw [h t (List.mem_of_getElem? ht)] at hr; cases hr
  cases hs with
  | call c hpr hcr =>
    intro t hm
    rcases List.mem_append.1 hm with h1 | h1
    · exact h t h1
    · rw [List.mem_singleton.1 h1]; cases c <;> rfl
  | @putLookup i src e ht hcr =>
    unfold Conc.getOrInit
    cases s.index.lookup src <;> exact quiet_set h rfl
  | putInsert now ht ho hins hcr => exact quiet_set h rfl
  | putCrash now ht ho hi hcr => exact h
  | putFinish ht ho hcr => exact quiet_set h rfl
  | getMiss ht hx hcr => exact quiet_set h rfl
  | getHit ht hx hcr => exact quiet_set h rfl
  | getRead ht ho hres hcr => exact quiet_set h rfl
  | getCrash ht ho hr hcr => exact h
  | metaStart ht hcr => exact quiet_set h rfl
  | metaVisit ht hk hn ho hcr => exact quiet_set h rfl
  | metaRangeEnd ht hall hp hcr => exact quiet_set h rfl
  | metaCount ht hx ho hcr => exact quiet_set h rfl
  | metaCrash ht hx hcr => exact h
  | metaEnd ht hcr => exact quiet_set h rfl
  | pruneNothing mc ht hn hcr => exact quiet_set h rfl
  | pruneStart mc ht hnz hcr => exact absurd List.mem_cons_self (hns _ _)
  | pruneVisit ht hk hn ho hl hcr => exact (not ht rfl).elim
  | pruneVisitCrash ht hk hn ho hl hcr => exact (not ht rfl).elim
  | pruneRangeEnd ht hall hcr => exact (not ht rfl).elim
  | prunePopNone ht hpop ha ho hl hcr => exact (not ht rfl).elim
  | prunePopLast ht hpop ha ho hl hl' hcr => exact (not ht rfl).elim
  | prunePopMore ht hpop ha ho hl hl' hcr => exact (not ht rfl).elim
  | prunePopCrash ht hpop hcr => exact (not ht rfl).elim
  | pruneEnd now ht hcr => exact (not ht rfl).elim

theorem alone_idle {cfg : Config} (hc : 1 ≤ cfg.maxPerSource) {evs evs' : List Ev} {s s' : Conc} {S : Store}
    (hr : CRun cfg evs s) (hx : PrunesAlone (evs ++ evs')) (hR : Replay cfg evs S) (hl : Lin s S)
    (hq : ∀ t ∈ s.threads, t.isRemoving = false) (hs : CStep s evs' s') : Alone cfg (evs ++ evs') s' := by
  have not : ∀ {i : Nat} {t : Thread}, t.isRemoving = true → s.threads[i]? ≠ some t := by
    intro i t hr ht
    rw [hq t (List.mem_of_getElem? ht)] at hr; cases hr
  by_cases hns : ∀ i n, Ev.pruning i n ∉ evs'
  · obtain ⟨S', h3, h4⟩ := lin_core hc hr (fun i c src he => alone_dropped hr (prunesAlone_left hx) he)
      (fun _ _ _ _ _ => not rfl) (fun _ _ _ _ => not rfl) hns hl hs
    exact .idle (h4.replay hR) h3 (quiet_step hq hns hs)
  · cases hs with
    | @pruneStart i mc ht hnz hcr =>
      have hlen := (List.getElem?_eq_some_iff.1 ht).1
      refine .build (S := S) (mc := mc) (mid := []) rfl (by simp) hR (lin_goto hl ht rfl rfl)
        (List.getElem?_set_self hlen) (by rw [← hl.count]; exact hnz) ?_ rfl (by simp) (by simp) ExpHeap.heap_nil
        (List.Perm.refl _)
      rw [← hl.count]
      congr 1
      split <;> omega
    | _ => exact absurd (by simp) hns

theorem alone_call {evs : List Ev} {s : Conc} (hp : PInv evs s) {i : Nat} {t : Thread} {c : Call}
    (ht : s.threads[i]? = some t) (hr : t.isRemoving = true)
    (hx : PrunesAlone (evs ++ [.call s.threads.length c])) : False := by
  have hrun := removing_running hp ht hr
  refine hx _ [] (List.append_nil _).symm i ⟨?_, ?_⟩ s.threads.length c ?_
  · obtain ⟨n, hn⟩ := hrun.1
    exact ⟨n, List.mem_append_left _ hn⟩
  · intro hm
    rcases List.mem_append.1 hm with h1 | h1
    · exact hrun.2 h1
    · simp at h1
  · rw [eventsOf_append, hp.none _ (Nat.le_refl _)]
    simp [eventsOf, evId]

theorem mid_snoc {mid evs' : List Ev} (h : ∀ e ∈ mid, takesEffect e = false) (h' : ∀ e ∈ evs', takesEffect e = false) :
    ∀ e ∈ mid ++ evs', takesEffect e = false := by
  intro e he
  rcases List.mem_append.1 he with h1 | h1
  · exact h e h1
  · exact h' e h1

theorem alone_build {cfg : Config} (hc : 1 ≤ cfg.maxPerSource) {evs evs' : List Ev} {s s' : Conc} (hr : CRun cfg evs s)
    (hx : PrunesAlone (evs ++ evs')) (hs : CStep s evs' s') (hcr' : s'.crashed = false)
    {S : Store} {evs0 mid : List Ev} {i n : Nat} {h : ExpHeap} {ptrs : List (Str × Nat)} {mc : Int → Int}
    (he : evs = evs0 ++ Ev.pruning i n :: mid) (hm : ∀ e ∈ mid, takesEffect e = false)
    (hR : Replay cfg evs0 S) (hl : Lin s S) (ht : s.threads[i]? = some (.prune1 n h ptrs s.index))
    (hmc : mc S.g.count ≠ 0) (hn : n = (min (mc S.g.count) S.g.count).toNat)
    (hb : buildHeap (ptrs.map fun p => (p.1, getOrInit S.index p.1)) [] = some h)
    (hnd : (ptrs.map Prod.fst).Nodup) (hsub : ∀ p ∈ ptrs, p ∈ s.index) (hheap : h.IsHeap)
    (hkeys : (h.map Expiration.sourceId).Perm (ptrs.map Prod.fst)) : Alone cfg (evs ++ evs') s' := by
  have hp := crun_pinv hr (step_alive hs)
  have hi := crun_inv hc hr
  have hone := crun_onePrune hr
  have hlen := (List.getElem?_eq_some_iff.1 ht).1
  have wait : ∀ {j : Nat} {c : Call}, eventsOf j evs = [.call j c] → Alone cfg (evs ++ evs') s' := fun hj =>
    absurd hj (prunesAlone_left hx _ [] (List.append_nil _).symm i (removing_running hp ht rfl) _ _)
  have me : ∀ {j : Nat} {u : Thread}, s.threads[j]? = some u → u.isPrune = true → j = i :=
    fun hu hup => hone _ _ _ _ hu ht hup rfl
  cases hs with
  | call c hpr hcr => exact (alone_call hp ht rfl hx).elim
  | putLookup ht' hcr => exact wait (hp.tr _ _ ht')
  | putInsert now ht' ho hins hcr => exact wait (hp.tr _ _ ht')
  | putCrash now ht' ho hi hcr => cases hcr'
  | @putFinish j a oldest loaded now o ht' ho hcr =>
    have hji : j ≠ i := by rintro rfl; rw [ht] at ht'; cases ht'
    refine .build (i := i) (n := n) (evs0 := evs0) (mid := mid ++ [.ret j]) (by rw [he]; simp) (mid_snoc hm (by simp [takesEffect])) hR
      (lin_finish hl ht' ho) ?_ hmc hn hb hnd hsub hheap hkeys
    show (s.threads.set j .done)[i]? = _
    rw [List.getElem?_set_ne hji]; exact ht
  | getMiss ht' hx' hcr => exact wait (hp.tr _ _ ht')
  | getHit ht' hx' hcr => exact wait (hp.tr _ _ ht')
  | getRead ht' ho hres hcr => exact wait (hp.tr _ _ ht')
  | getCrash ht' ho hr hcr => cases hcr'
  | metaStart ht' hcr => exact wait (hp.tr _ _ ht')
  | metaVisit ht' hk hn ho hcr => exact wait (hp.tr _ _ ht')
  | metaRangeEnd ht' hall hp' hcr => exact wait (hp.tr _ _ ht')
  | metaCount ht' hx' ho hcr => exact wait (hp.tr _ _ ht')
  | metaCrash ht' hx' hcr => cases hcr'
  | metaEnd ht' hcr => exact wait (hp.tr _ _ ht')
  | pruneNothing mc ht' hn hcr => exact wait (hp.tr _ _ ht')
  | pruneStart mc ht' hnz hcr => exact wait (hp.tr _ _ ht')
  | @pruneVisit j n' h' ptrs' start k a st ts v ht' hk hnk ho hleft hcr =>
    obtain rfl := me ht' rfl
    rw [ht] at ht'; cases ht'
    have hlk := lookup_of_nodup hi.nodup hk
    obtain ⟨o, ho', hos⟩ := hl.look k a hlk
    rw [ho] at ho'; cases ho'
    refine .build (i := j) (n := n) (evs0 := evs0) (mid := mid) (by rw [he]; simp) hm hR (lin_goto hl ht rfl rfl)
      (List.getElem?_set_self hlen) hmc hn ?_ ?_ ?_ (ExpHeap.push_heap hheap _) ?_
    · rw [List.map_append]
      refine buildHeap_snoc hb (v := v) ?_
      rw [← hos]; exact hleft
    · rw [List.map_append]
      refine List.nodup_append.2 ⟨hnd, by simp, ?_⟩
      intro x hx1 y hy
      simp at hy
      rintro rfl
      exact hnk (hy ▸ hx1)
    · intro p hpm
      rcases List.mem_append.1 hpm with h1 | h1
      · exact hsub p h1
      · rw [List.mem_singleton.1 h1]; exact hk
    · rw [List.map_append]
      exact pushed_keys.trans ((hkeys.cons k).trans (List.perm_append_singleton k _).symm)
  | pruneVisitCrash ht' hk hn ho hl' hcr => cases hcr'
  | @pruneRangeEnd j n' h' ptrs' start ht' hall hcr =>
    obtain rfl := me ht' rfl
    rw [ht] at ht'; cases ht'
    have hord := order_perm hc hi hl hR (fun j src a e hj =>
      prunesAlone_left hx _ [] (List.append_nil _).symm _ (removing_running hp ht rfl) _ _ (hp.tr _ _ hj)) hnd hsub
      (fun k a hk => hall k a hk hk)
    refine .loop (i := j) (n := n) (evs0 := evs0) (mid := mid) (idx := S.index) (g := S.g) (by rw [he]; simp) hm hR (lin_goto hl ht rfl rfl)
      (List.getElem?_set_self hlen) hmc hn hord hb rfl hheap (hkeys.nodup_iff.2 hnd) ?_
    intro x hxm
    have hkm := hkeys.mem_iff.1 (List.mem_map_of_mem (f := Expiration.sourceId) hxm)
    obtain ⟨p, hpm, hpk⟩ := List.mem_map.1 hkm
    rw [← hpk]
    exact ⟨p.2, lookup_of_nodup hnd hpm, lookup_of_nodup hi.nodup (hsub p hpm)⟩
  | prunePopNone ht' hpop ha ho hl hcr => obtain rfl := me ht' rfl; rw [ht] at ht'; cases ht'
  | prunePopLast ht' hpop ha ho hl hl' hcr => obtain rfl := me ht' rfl; rw [ht] at ht'; cases ht'
  | prunePopMore ht' hpop ha ho hl hl' hcr => obtain rfl := me ht' rfl; rw [ht] at ht'; cases ht'
  | prunePopCrash ht' hpop hcr => cases hcr'
  | pruneEnd now ht' hcr => obtain rfl := me ht' rfl; rw [ht] at ht'; cases ht'

/-- The end of an undisturbed prune. -/
theorem alone_end {cfg : Config} {evs : List Ev} {s : Conc}
    {S : Store} {evs0 mid : List Ev} {j n : Nat} {h h0 : ExpHeap} {ptrs : List (Str × Nat)} {mc : Int → Int}
    {order idx : List (Str × Storage)} {g : Globals} {now : Int}
    (he : evs = evs0 ++ Ev.pruning j n :: mid) (hm : ∀ e ∈ mid, takesEffect e = false)
    (hR : Replay cfg evs0 S) (hl : Lin s { S with index := idx, g := g })
    (ht : s.threads[j]? = some (.prune2 0 h ptrs))
    (hmc : mc S.g.count ≠ 0) (hn : n = (min (mc S.g.count) S.g.count).toNat)
    (ho : order.Perm S.index) (hb : buildHeap order [] = some h0)
    (hloop : pruneLoop n S.g S.index h0 = pruneLoop 0 g idx h) :
    ∃ S', Replay cfg (evs ++ [.ret j]) S' ∧ Lin (s.pruneEnd j h now) S' ∧
      (s.pruneEnd j h now).g.oldest = S'.g.oldest ∧ (s.pruneEnd j h now).g.cachePeriod = S'.g.cachePeriod := by
  let g2 : Globals := match h.popLast with
    | none => { g with oldest := maxInt64, cachePeriod := 0 }
    | some (x, _) => { g with oldest := x.timestamp, cachePeriod := calculateCachePeriod now x.timestamp }
  have hg2 : g2.count = g.count ∧ g2.expired = g.expired ∧ g2.egress = g.egress ∧ g2.ingress = g.ingress := by
    simp only [g2]
    split <;> exact ⟨rfl, rfl, rfl, rfl⟩
  have hex : (Op.truncate now mc order).exec S =
      some { S with index := idx, g := { g2 with storeSize := g2.count } } := by
    show truncate mc order now S = _
    unfold truncate
    simp only
    have hnn : (if mc S.g.count > S.g.count then S.g.count else mc S.g.count).toNat = n := by
      rw [hn]; congr 1; split <;> omega
    rw [if_neg hmc, hb]
    simp only
    rw [hnn, hloop]
    rfl
  have hrep := replay_others ((hR.call (.prune j n now mc order hn) ho hex)) (mid_snoc hm (evs' := [.ret j]) (by simp [takesEffect]))
  refine ⟨_, by rw [he]; simpa using hrep, ?_, ?_⟩
  · have hg := lin_goto (t' := .done) hl ht rfl rfl
    have hsg : (s.pruneEnd j h now).g.count = s.g.count ∧ (s.pruneEnd j h now).g.expired = s.g.expired ∧
        (s.pruneEnd j h now).g.egress = s.g.egress ∧ (s.pruneEnd j h now).g.ingress = s.g.ingress := by
      unfold Conc.pruneEnd
      cases h.popLast <;> exact ⟨rfl, rfl, rfl, rfl⟩
    refine ⟨hl.cfg, hl.look, hl.none, ?_, ?_, ?_, ?_, ?_⟩
    · exact hsg.1.trans (hl.count.trans hg2.1.symm)
    · exact hsg.2.1.trans (hl.expired.trans hg2.2.1.symm)
    · show s.g.count = g2.count
      exact hl.count.trans hg2.1.symm
    · exact hsg.2.2.1.trans (hl.egress.trans hg2.2.2.1.symm)
    · rw [hsg.2.2.2]
      show (s.g.ingress : Int) = (g2.ingress : Int) + _
      rw [hg2.2.2.2]
      exact hg.ingress
  · simp only [g2]
    unfold Conc.pruneEnd
    cases h.popLast <;> exact ⟨rfl, rfl⟩

theorem alone_loop {cfg : Config} (hc : 1 ≤ cfg.maxPerSource) {evs evs' : List Ev} {s s' : Conc} (hr : CRun cfg evs s)
    (hx : PrunesAlone (evs ++ evs')) (hs : CStep s evs' s') (hcr' : s'.crashed = false)
    {S : Store} {evs0 mid : List Ev} {i n m : Nat} {h h0 : ExpHeap} {ptrs : List (Str × Nat)} {mc : Int → Int}
    {order idx : List (Str × Storage)} {g : Globals}
    (he : evs = evs0 ++ Ev.pruning i n :: mid) (hm : ∀ e ∈ mid, takesEffect e = false)
    (hR : Replay cfg evs0 S) (hl : Lin s { S with index := idx, g := g })
    (ht : s.threads[i]? = some (.prune2 m h ptrs))
    (hmc : mc S.g.count ≠ 0) (hn : n = (min (mc S.g.count) S.g.count).toNat)
    (ho : order.Perm S.index) (hb : buildHeap order [] = some h0)
    (hloop : pruneLoop n S.g S.index h0 = pruneLoop m g idx h)
    (hheap : h.IsHeap) (hnd : (h.map Expiration.sourceId).Nodup)
    (hptr : ∀ x ∈ h, ∃ a, ptrs.lookup x.sourceId = some a ∧ s.index.lookup x.sourceId = some a) :
    Alone cfg (evs ++ evs') s' := by
  have hp := crun_pinv hr (step_alive hs)
  have hi := crun_inv hc hr
  have hone := crun_onePrune hr
  have hlen := (List.getElem?_eq_some_iff.1 ht).1
  have wait : ∀ {j : Nat} {c : Call}, eventsOf j evs = [.call j c] → Alone cfg (evs ++ evs') s' := fun hj =>
    absurd hj (prunesAlone_left hx _ [] (List.append_nil _).symm i (removing_running hp ht rfl) _ _)
  have me : ∀ {j : Nat} {u : Thread}, s.threads[j]? = some u → u.isPrune = true → j = i :=
    fun hu hup => hone _ _ _ _ hu ht hup rfl
  have popped : ∀ {x : Expiration} {h' : ExpHeap} {a : Nat} {st : Storage}, h.pop = some (x, h') →
      ptrs.lookup x.sourceId = some a → s.heap[a]? = some { storage := st } →
      h'.IsHeap ∧ (h'.map Expiration.sourceId).Nodup ∧ x.sourceId ∉ h'.map Expiration.sourceId ∧
      (∀ y ∈ h', y ∈ h) ∧ s.index.lookup x.sourceId = some a ∧ st = getOrInit idx x.sourceId := by
    intro x h' a st hpop ha hst
    obtain ⟨hperm, hh', -⟩ := ExpHeap.pop_spec hheap hpop
    have hnd' := ((hperm.map Expiration.sourceId).nodup_iff).2 hnd
    simp only [List.map_cons, List.nodup_cons] at hnd'
    obtain ⟨b, hb1, hb2⟩ := hptr x (hperm.mem_iff.1 (by simp))
    rw [ha] at hb1; cases hb1
    obtain ⟨o, ho1, ho2⟩ := hl.look _ _ hb2
    rw [hst] at ho1; cases ho1
    exact ⟨hh', hnd'.2, hnd'.1, fun y hy => hperm.mem_iff.1 (List.mem_cons_of_mem _ hy), hb2, ho2⟩
  cases hs with
  | call c hpr hcr => exact (alone_call hp ht rfl hx).elim
  | putLookup ht' hcr => exact wait (hp.tr _ _ ht')
  | putInsert now ht' ho hins hcr => exact wait (hp.tr _ _ ht')
  | putCrash now ht' ho hi hcr => cases hcr'
  | @putFinish j a oldest loaded now o ht' ho' hcr =>
    have hji : j ≠ i := by rintro rfl; rw [ht] at ht'; cases ht'
    refine .loop (i := i) (n := n) (evs0 := evs0) (mid := mid ++ [.ret j]) (by rw [he]; simp) (mid_snoc hm (by simp [takesEffect])) hR
      (lin_finish hl ht' ho') ?_ hmc hn ho hb hloop hheap hnd hptr
    show (s.threads.set j .done)[i]? = _
    rw [List.getElem?_set_ne hji]; exact ht
  | getMiss ht' hx' hcr => exact wait (hp.tr _ _ ht')
  | getHit ht' hx' hcr => exact wait (hp.tr _ _ ht')
  | getRead ht' ho hres hcr => exact wait (hp.tr _ _ ht')
  | getCrash ht' ho hr hcr => cases hcr'
  | metaStart ht' hcr => exact wait (hp.tr _ _ ht')
  | metaVisit ht' hk hn ho hcr => exact wait (hp.tr _ _ ht')
  | metaRangeEnd ht' hall hp' hcr => exact wait (hp.tr _ _ ht')
  | metaCount ht' hx' ho hcr => exact wait (hp.tr _ _ ht')
  | metaCrash ht' hx' hcr => cases hcr'
  | metaEnd ht' hcr => exact wait (hp.tr _ _ ht')
  | pruneNothing mc ht' hn hcr => exact wait (hp.tr _ _ ht')
  | pruneStart mc ht' hnz hcr => exact wait (hp.tr _ _ ht')
  | pruneVisit ht' hk hn ho hl hcr => obtain rfl := me ht' rfl; rw [ht] at ht'; cases ht'
  | pruneVisitCrash ht' hk hn ho hl' hcr => cases hcr'
  | pruneRangeEnd ht' hall hcr => obtain rfl := me ht' rfl; rw [ht] at ht'; cases ht'
  | @prunePopNone j n' h1 h' ptrs' x a st ht' hpop ha hst hleft hcr =>
    obtain rfl := me ht' rfl
    rw [ht] at ht'; cases ht'
    obtain ⟨hh', hnd', hx', hsub, hlk, hso⟩ := popped hpop ha hst
    refine .loop (i := j) (n := n) (evs0 := evs0) (mid := mid) (by rw [he]; simp) hm hR (lin_goto hl ht rfl rfl) (List.getElem?_set_self hlen)
      hmc hn ho hb ?_ hh' hnd' (fun y hy => hptr y (hsub y hy))
    rw [hloop]
    simp only [pruneLoop, hpop]
    have : removeOldestEnvelope g idx x.sourceId = (g, idx, none) := by
      unfold removeOldestEnvelope
      unfold getOrInit at hso
      cases hz : idxLoad idx x.sourceId with
      | none => rfl
      | some st' =>
        rw [hz] at hso
        simp only at hso ⊢
        rw [← hso, hleft]
    rw [this]
  | @prunePopLast j n' h1 h' ptrs' x a st k v ht' hpop ha hst hleft hleft' hcr =>
    obtain rfl := me ht' rfl
    rw [ht] at ht'; cases ht'
    obtain ⟨hh', hnd', hx', hsub, hlk, hso⟩ := popped hpop ha hst
    have hload : idxLoad idx x.sourceId = some st := by
      rw [hso] at hleft ⊢
      exact idxLoad_of_left hleft
    refine .loop (i := j) (n := n) (evs0 := evs0) (mid := mid ++ [.dropped j x.sourceId]) (idx := idxDelete idx x.sourceId)
      (g := { g with count := g.count - 1, expired := g.expired + 1 }) (by rw [he]; simp)
      (mid_snoc hm (by simp [takesEffect])) hR ?_ (List.getElem?_set_self hlen) hmc hn ho hb ?_ hh' hnd' ?_
    · have hg := lin_goto (t' := .prune2 n' h' ptrs) hl ht rfl rfl
      refine ⟨hl.cfg, ?_, ?_, by show s.g.count - 1 = _; rw [hl.count], by show s.g.expired + 1 = _; rw [hl.expired],
        hl.size, hl.egress, hg.ingress⟩
      · intro src b hb
        replace hb : (s.index.filter (fun p => p.1 ≠ x.sourceId)).lookup src = some b := hb
        by_cases hsrc : src = x.sourceId
        · rw [hsrc, lookup_filter_eq] at hb; cases hb
        · rw [lookup_filter_ne hsrc] at hb
          obtain ⟨o2, ho2, hos2⟩ := hl.look src b hb
          have hab : a ≠ b := by
            rintro rfl
            exact hsrc (points_fun (hi.addr _ (lookup_mem hb)) (hi.addr _ (lookup_mem hlk)))
          refine ⟨o2, ?_, ?_⟩
          · show (s.heap.set a _)[b]? = _
            rw [List.getElem?_set_ne hab]; exact ho2
          · rw [hos2]; unfold getOrInit; simp only [idxLoad_delete_other _ hsrc]
      · intro src hb
        replace hb : (s.index.filter (fun p => p.1 ≠ x.sourceId)).lookup src = none := hb
        by_cases hsrc : src = x.sourceId
        · rw [hsrc]; exact idxLoad_delete_same _ _
        · rw [lookup_filter_ne hsrc] at hb
          simp only [idxLoad_delete_other _ hsrc]
          exact hl.none src hb
    · rw [hloop]
      simp only [pruneLoop, hpop]
      have : removeOldestEnvelope g idx x.sourceId =
          ({ g with count := g.count - 1, expired := g.expired + 1 }, idxDelete idx x.sourceId, none) := by
        unfold removeOldestEnvelope
        simp only [hload, hleft, hleft']
      rw [this]
    · intro y hy
      obtain ⟨b, hb1, hb2⟩ := hptr y (hsub y hy)
      refine ⟨b, hb1, ?_⟩
      show (s.index.filter (fun p => p.1 ≠ x.sourceId)).lookup y.sourceId = some b
      rw [lookup_filter_ne]
      · exact hb2
      · intro heq
        exact hx' (heq ▸ List.mem_map_of_mem hy)
  | @prunePopMore j n' h1 h' ptrs' x a st k k' v v' ht' hpop ha hst hleft hleft' hcr =>
    obtain rfl := me ht' rfl
    rw [ht] at ht'; cases ht'
    obtain ⟨hh', hnd', hx', hsub, hlk, hso⟩ := popped hpop ha hst
    have hload : idxLoad idx x.sourceId = some st := by
      rw [hso] at hleft ⊢
      exact idxLoad_of_left hleft
    refine .loop (i := j) (n := n) (evs0 := evs0) (mid := mid) (idx := idxStore idx x.sourceId { st with tree := st.tree.remove k, info :=
        { st.info with expired := st.info.expired + 1, oldest := k' } })
      (g := { g with count := g.count - 1, expired := g.expired + 1 }) (by rw [he]; simp)
      hm hR ?_ (List.getElem?_set_self hlen) hmc hn ho hb ?_ (ExpHeap.push_heap hh' _) ?_ ?_
    · have hg := lin_goto (t' := .prune2 n' (h'.push ⟨k', x.sourceId⟩) ptrs) hl ht rfl rfl
      refine ⟨hl.cfg, ?_, ?_, by show s.g.count - 1 = _; rw [hl.count], by show s.g.expired + 1 = _; rw [hl.expired],
        hl.size, hl.egress, hg.ingress⟩
      · intro src b hb
        replace hb : s.index.lookup src = some b := hb
        by_cases hsrc : src = x.sourceId
        · subst hsrc
          rw [hlk] at hb; cases hb
          refine ⟨_, List.getElem?_set_self (List.getElem?_eq_some_iff.1 hst).1, ?_⟩
          unfold getOrInit; simp only [idxLoad_store_same]
        · obtain ⟨o2, ho2, hos2⟩ := hl.look src b hb
          have hab : a ≠ b := by
            rintro rfl
            exact hsrc (points_fun (hi.addr _ (lookup_mem hb)) (hi.addr _ (lookup_mem hlk)))
          refine ⟨o2, ?_, ?_⟩
          · show (s.heap.set a _)[b]? = _
            rw [List.getElem?_set_ne hab]; exact ho2
          · rw [hos2]; unfold getOrInit; simp only [idxLoad_store_other _ _ hsrc]
      · intro src hb
        replace hb : s.index.lookup src = none := hb
        have hsrc : src ≠ x.sourceId := by rintro rfl; rw [hlk] at hb; cases hb
        simp only [idxLoad_store_other _ _ hsrc]
        exact hl.none src hb
    · rw [hloop]
      simp only [pruneLoop, hpop]
      have : removeOldestEnvelope g idx x.sourceId =
          ({ g with count := g.count - 1, expired := g.expired + 1 },
            idxStore idx x.sourceId { st with tree := st.tree.remove k, info :=
              { st.info with expired := st.info.expired + 1, oldest := k' } }, some k') := by
        unfold removeOldestEnvelope
        simp only [hload, hleft, hleft']
      rw [this]
    · refine (pushed_keys (h := h') (x := ⟨k', x.sourceId⟩)).nodup_iff.2 ?_
      exact List.nodup_cons.2 ⟨hx', hnd'⟩
    · intro y hy
      rcases List.mem_cons.1 ((ExpHeap.push_perm h' ⟨k', x.sourceId⟩).mem_iff.1 hy) with h2 | h2
      · rw [h2]; exact ⟨a, ha, hlk⟩
      · exact hptr y (hsub y h2)
  | prunePopCrash ht' hpop hcr => cases hcr'
  | @pruneEnd j h1 ptrs' now ht' hcr =>
    obtain rfl := me ht' rfl
    rw [ht] at ht'; cases ht'
    obtain ⟨S', hR', hl', -⟩ := alone_end (now := now) he hm hR hl ht hmc hn ho hb hloop
    refine .idle hR' hl' ?_
    intro t htm
    obtain ⟨k, hk, hkt⟩ := List.getElem_of_mem htm
    have hk2 : (s.threads.set j .done)[k]? = some t := by
      rw [← hkt]; exact List.getElem?_eq_getElem hk
    by_cases hkj : j = k
    · subst hkj
      rw [List.getElem?_set_self hlen] at hk2; cases hk2; rfl
    · rw [List.getElem?_set_ne hkj] at hk2
      cases hrem : t.isRemoving with
      | false => rfl
      | true => exact absurd (me hk2 (removing_isPrune hrem)).symm hkj

theorem crun_alone {cfg : Config} (hc : 1 ≤ cfg.maxPerSource) {evs : List Ev} {s : Conc} (h : CRun cfg evs s)
    (hx : PrunesAlone evs) (hcr : s.crashed = false) : Alone cfg evs s := by
  induction h with
  | nil => exact .idle .new ⟨rfl, by simp, fun _ _ => rfl, rfl, rfl, rfl, rfl, rfl⟩ (by simp)
  | step hr hs ih =>
    cases ih (prunesAlone_left hx) (step_alive hs) with
    | idle hR hl hq => exact alone_idle hc hr hx hR hl hq hs
    | build he hm hR hl ht hmc hn hb hnd hsub hheap hkeys =>
      exact alone_build hc hr hx hs hcr he hm hR hl ht hmc hn hb hnd hsub hheap hkeys
    | loop he hm hR hl ht hmc hn ho hb hloop hheap hnd hptr =>
      exact alone_loop hc hr hx hs hcr he hm hR hl ht hmc hn ho hb hloop hheap hnd hptr

theorem alone_quiet {cfg : Config} {evs : List Ev} {s : Conc} (hp : PInv evs s) (h : Alone cfg evs s)
    (hq : ∀ i, ¬ PruneRunning evs i) : ∃ S, Replay cfg evs S ∧ Lin s S := by
  cases h with
  | idle hR hl hq => exact ⟨_, hR, hl⟩
  | build he hm hR hl ht => exact absurd (removing_running hp ht rfl) (hq _)
  | loop he hm hR hl ht => exact absurd (removing_running hp ht rfl) (hq _)

theorem alone_return {cfg : Config} (hc : 1 ≤ cfg.maxPerSource) {evs : List Ev} {s s' : Conc} (hr : CRun cfg evs s)
    (hx : PrunesAlone evs) {i : Nat} (hrun : PruneRunning evs i) (hs : CStep s [.ret i] s') :
    ∃ S, Replay cfg (evs ++ [.ret i]) S ∧ Lin s' S ∧ s'.g.oldest = S.g.oldest ∧
      s'.g.cachePeriod = S.g.cachePeriod := by
  have hcr := step_alive hs
  have hp := crun_pinv hr hcr
  have hal := crun_alone hc hr hx hcr
  obtain ⟨⟨n, hn⟩, -⟩ := hrun
  have hpr : Ev.pruning i n ∈ eventsOf i evs := (mem_eventsOf (i := i) rfl).1 hn
  generalize hz : [Ev.ret i] = z at hs
  cases hs <;> simp at hz
  · rename_i ht _ _
    subst hz
    obtain ⟨src, e, now, htr⟩ := hp.tr _ _ ht
    rw [htr] at hpr; simp at hpr
  · rename_i ht _ _
    subst hz
    have htr := hp.tr _ _ ht
    replace htr : eventsOf i evs = [.call i .prune] := htr
    rw [htr] at hpr; simp at hpr
  · rename_i j h ptrs now ht _
    subst hz
    cases hal with
    | idle hR hl hq => exact absurd (hq _ (List.mem_of_getElem? ht)) (by simp [Thread.isRemoving])
    | build he hm hR hl ht' =>
      have := crun_onePrune hr _ _ _ _ ht ht' rfl rfl
      subst this
      rw [ht] at ht'; cases ht'
    | loop he hm hR hl ht' hmc hn ho hb hloop hheap hnd hptr =>
      have := crun_onePrune hr _ _ _ _ ht ht' rfl rfl
      subst this
      rw [ht] at ht'; cases ht'
      exact alone_end he hm hR hl ht hmc hn ho hb hloop

theorem replay_run {cfg : Config} {evs : List Ev} {S : Store} (h : Replay cfg evs S) :
    ∃ ops, Run (newStore cfg) ops S ∧ ops.filter (fun op => !op.isPrune) = seqOps evs ∧
      (ops.filter Op.isPrune).length = (evs.filter fun | .pruning .. => true | _ => false).length := by
  induction h with
  | new => exact ⟨[], .nil _, rfl, rfl⟩
  | @call evs S S' e op _ hp hv he ih =>
    obtain ⟨ops, h1, h2, h3⟩ := ih
    refine ⟨ops ++ [op], h1.snoc hv he, ?_, ?_⟩
    · rw [List.filter_append, h2]
      unfold seqOps
      rw [List.filterMap_append]
      cases hp <;> rfl
    · rw [List.filter_append, List.length_append, h3, List.filter_append, List.length_append]
      cases hp <;> rfl
  | @other evs S e _ hn ih =>
    obtain ⟨ops, h1, h2, h3⟩ := ih
    refine ⟨ops, h1, ?_, ?_⟩
    · rw [h2]
      unfold seqOps
      rw [List.filterMap_append]
      cases e <;> first | (cases hn; done) | simp [seqOp]
    · rw [h3, List.filter_append]
      cases e <;> first | (cases hn; done) | simp

end LogCache
