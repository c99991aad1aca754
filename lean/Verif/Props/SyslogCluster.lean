import Verif.Spec.SyslogCluster
import Verif.Props.Cluster
import Mathlib.Data.List.Perm.Subperm

/-!
# Property theorems about what syslog servers write to a cluster (C129)
-/

namespace LogCache
open Spec

theorem destined_perm (L : Str → List Nat) (i : Nat) (evs : List CEvent) (src : Str) :
    ((evs.flatMap (destined (fun _ => L) i)).filter (fun e => e.sourceId = src)).Perm
      ((sentByClients evs src).flatMap (fun e => List.replicate ((L src).count i) e) ++ sentBySyslog evs i src) := by
  induction evs with
  | nil => exact List.Perm.refl _
  | cons ev t ih =>
    unfold sentByClients sentBySyslog at *
    rw [List.flatMap_cons, List.flatMap_cons, List.flatMap_cons, List.filter_append, List.flatMap_append]
    cases ev with
    | client j req =>
      by_cases hl : req.localOnly = true
      · by_cases hj : j = i
        · simp only [destined, hl, hj, and_self, if_true, List.flatMap_nil, List.nil_append]
          refine (ih.append_left _).trans ?_
          rw [← List.append_assoc, ← List.append_assoc]
          exact List.perm_append_comm.append_right _
        · simpa [destined, hl, hj] using ih
      · simp only [destined, hl, Bool.false_eq_true, if_false, false_and, List.nil_append]
        rw [filter_replicate src (fun s => (L s).count i), List.append_assoc]
        exact ih.append_left _
    | deliver => simpa [destined] using ih
    | lose => simpa [destined] using ih
    | retable => simpa [destined] using ih

theorem sent_sublist (evs : List CEvent) (i : Nat) (src : Str) :
    (sentByClients evs src ++ sentBySyslog evs i src).Subperm (clientSent evs src) := by
  unfold sentByClients sentBySyslog clientSent
  induction evs with
  | nil => exact List.Subperm.refl _
  | cons ev t ih =>
    simp only [List.flatMap_cons]
    cases ev with
    | client j req =>
      by_cases hl : req.localOnly = true
      · by_cases hj : j = i
        · simp only [hl, hj, and_self, if_true, List.nil_append]
          refine List.Subperm.trans ?_ ((List.subperm_append_left _).2 ih)
          rw [← List.append_assoc, ← List.append_assoc]
          exact (List.perm_append_comm.append_right _).subperm
        · simp only [hl, hj, and_false, if_true, if_false, List.nil_append]
          exact ih.trans (List.sublist_append_right _ _).subperm
      · simp only [hl, Bool.false_eq_true, if_false, false_and, List.nil_append]
        rw [List.append_assoc]
        exact (List.subperm_append_left _).2 ih
    | deliver => simpa using ih
    | lose => simpa using ih
    | retable => simpa using ih

/-- All nodes hold the table `L`, nothing was lost and nothing is in flight.  A Read is
answered by an owner of the source, with all that clients sent for it and with what a syslog
server sent to that very node. -/
theorem C129_owner_partial {cfg : Config} (hc : 1 ≤ cfg.maxPerSource) {n : Nat}
    {L : Str → List Nat} {evs : List CEvent} {c : Cluster}
    (h : CRun (newCluster cfg n (fun _ => L)) evs c) (hr : Reliable evs)
    (hq : ∀ j i, c.queue j i = []) (hLn : ∀ s, (L s).Nodup)
    (hd : ∀ s, ((clientSent evs s).map Envelope.timestamp).Nodup)
    {src : Str} (hL : L src ≠ []) (hcap : ((clientSent evs src).length : Int) ≤ cfg.maxPerSource)
    (j : Nat) :
    (∃ hops r, ReadAt c.lk src j hops r) ∧
    ∀ hops r, ReadAt c.lk src j hops r → ∃ i, r = some i ∧ i ∈ L src ∧ (j ∈ L src → i = j) ∧
      ∃ log : List Envelope, log.Perm (sentByClients evs src ++ sentBySyslog evs i src) ∧
        log.Pairwise (fun x y => x.timestamp ≤ y.timestamp) ∧
        ∀ compile now (req : ReadRequest), req.sourceId = src → (∀ k, EType.other k ∉ req.types) →
          (∃ err, localRead compile now (c.store i) req = some (.error err)) ∨
          localRead compile now (c.store i) req = some (.ok
            ((((((if req.descending then log.reverse else log).filter
                (inWindow req.start (if req.stop = 0 then now else req.stop))).filterMap
                (project (if req.nameFilter = [] then none else compile req.nameFilter))).filter
                (fun e => decide (∀ t ∈ req.types, t = .any) ||
                  decide (∃ t ∈ req.types, kind e = some t)))).take
              (if req.limit = 0 then 100 else req.limit).toNat)) := by
  obtain ⟨hn, hlk⟩ := crun_fixed h hr
  rw [hlk]
  refine ⟨readAt_total L src j, ?_⟩
  intro hops r hread
  rcases readAt_agree hread with ⟨h1, _, _⟩ | ⟨i, hi, rfl, hh, hij⟩
  · exact absurd h1 hL
  refine ⟨i, rfl, hi, fun hj => (hij hj).1, ?_⟩
  obtain ⟨ops, hrun, hnp, hputs⟩ := crun_store h hr i
  have hpend : pending c i = [] := by
    unfold pending
    simp [hq]
  have hcons := crun_conserve h hr i
  rw [hpend, List.append_nil] at hcons
  have hp : ∀ s, (putsOf ops s).Perm
      ((sentByClients evs s).flatMap (fun e => List.replicate ((L s).count i) e) ++ sentBySyslog evs i s) := by
    intro s
    rw [hputs]
    exact (hcons.filter _).trans (destined_perm L i evs s)
  have hdist : DistinctTs ops := by
    intro s
    have := ((hp s).map Envelope.timestamp)
    rw [this.nodup_iff]
    have hcnt := List.nodup_iff_count.1 (hLn s) i
    obtain ⟨l, hl1, hl2⟩ := (sent_sublist evs i s)
    have hnd := ((hl1.map Envelope.timestamp).nodup_iff).1 ((hd s).sublist (hl2.map _))
    rcases Nat.eq_zero_or_pos ((L s).count i) with h0 | h0
    · rw [h0, flatMap_replicate_zero]
      rw [List.map_append] at hnd
      exact (List.nodup_append.1 hnd).2.1
    · rw [show (L s).count i = 1 by omega, flatMap_replicate_one]
      exact hnd
  have hone : (L src).count i = 1 := by
    have := List.nodup_iff_count.1 (hLn src) i
    have := List.count_pos_iff.2 hi
    omega
  have hpsrc := hp src
  rw [hone, flatMap_replicate_one] at hpsrc
  obtain ⟨A, hA, hans⟩ := C26_read_api hc hrun hdist
  refine ⟨A src, ?_, logRun_sorted hA src, ?_⟩
  · refine (logRun_keeps hA hnp src ?_).trans hpsrc
    have := (sent_sublist evs i src).length_le
    rw [hpsrc.length_eq]
    omega
  · intro compile now req hsrc hk
    subst hsrc
    exact hans compile now req hk

/-- If the node of the syslog servers is the only owner of the source, nothing is missing. -/
theorem C129_own_node {evs : List CEvent} {i : Nat} {src : Str}
    (h : ∀ j req, CEvent.client j req ∈ evs → req.localOnly = true → j = i ∨
      ∀ e ∈ req.envelopes.getD [], e.sourceId ≠ src) :
    (sentByClients evs src ++ sentBySyslog evs i src).Perm (clientSent evs src) := by
  unfold sentByClients sentBySyslog clientSent
  induction evs with
  | nil => exact List.Perm.refl _
  | cons ev t ih =>
    have ih := ih (fun j req hm => h j req (List.mem_cons_of_mem _ hm))
    simp only [List.flatMap_cons]
    cases ev with
    | client j req =>
      by_cases hl : req.localOnly = true
      · by_cases hj : j = i
        · simp only [hl, hj, and_self, if_true, List.nil_append]
          refine List.Perm.trans ?_ (ih.append_left _)
          rw [← List.append_assoc, ← List.append_assoc]
          exact List.perm_append_comm.append_right _
        · have hn := (h j req List.mem_cons_self hl).resolve_left hj
          have : (req.envelopes.getD []).filter (fun e => decide (e.sourceId = src)) = [] := by
            rw [List.filter_eq_nil_iff]
            intro e he
            simpa using hn e he
          simp only [hl, hj, and_false, if_true, if_false, List.nil_append, this]
          exact ih
      · simp only [hl, Bool.false_eq_true, if_false, false_and, List.nil_append]
        rw [List.append_assoc]
        exact ih.append_left _
    | deliver => simpa using ih
    | lose => simpa using ih
    | retable => simpa using ih

/-- A run with a syslog server at node 0: the source belongs to node 1, and no Read, entering
at any node, with any request, returns the envelope that the server wrote and node 0 stored. -/
theorem C129_elsewhere_false : ∃ (c : Cluster) (evs : List CEvent),
    CRun (newCluster { maxPerSource := 5 } 2 (fun _ _ => [1])) evs c ∧ Reliable evs ∧ ClientsAndSyslog evs ∧
    (∀ j i, c.queue j i = []) ∧ clientSent evs [] = [logAt 3] ∧
    ∀ j hops r, ReadAt c.lk [] j hops r → ∃ i, r = some i ∧
      ∀ compile now (req : ReadRequest), req.sourceId = [] →
        (∃ err, localRead compile now (c.store i) req = some (.error err)) ∨
        localRead compile now (c.store i) req = some (.ok []) := by
  have hrun : ∃ c, CRun (newCluster { maxPerSource := 5 } 2 (fun _ _ => [1])) ([] ++ [.client 0 (syslogWrite [logAt 3])]) c ∧
      (∀ j i, c.queue j i = []) ∧ c.store 1 = newStore { maxPerSource := 5 } := by
    refine ⟨_, CRun.snoc (CRun.nil _) (.client (by decide)
      ⟨fun _ => true, _, _, .localOnly _ rfl, .cons 0 rfl (.nil _), rfl⟩), ?_, rfl⟩
    intro j i
    simp only [newCluster]
    by_cases h1 : j = 0 <;> by_cases h2 : i = 0 <;> simp_all [sentTo]
    intro h; exact absurd h.symm h2
  obtain ⟨c, hc, hq, hs⟩ := hrun
  have hrel : Reliable ([] ++ [CEvent.client 0 (syslogWrite [logAt 3])]) := by
    intro ev hev
    simp at hev
    subst hev
    trivial
  refine ⟨c, _, hc, hrel, ?_, hq, by decide, ?_⟩
  · intro j req hm
    simp at hm
    exact .inr ⟨_, hm.2⟩
  intro j hops r hread
  rw [(crun_fixed hc hrel).2] at hread
  rcases readAt_agree (L := fun _ => [1]) hread with ⟨h1, _, _⟩ | ⟨i, hi, rfl, _, _⟩
  · cases h1
  refine ⟨i, rfl, ?_⟩
  have : i = 1 := by simpa using hi
  subst this
  intro compile now req hreq
  rw [hs]
  unfold localRead
  cases readArgs compile now req with
  | error e => exact .inl ⟨e, rfl⟩
  | ok a => right; rw [hreq]; rfl

/-- The same run with node 0 the owner: the envelope is there. -/
example : ∃ (c : Cluster) (evs : List CEvent),
    CRun (newCluster { maxPerSource := 5 } 2 (fun _ _ => [0])) evs c ∧ Reliable evs ∧ ClientsAndSyslog evs ∧
    (∀ j i, c.queue j i = []) ∧ clientSent evs [] = [logAt 3] ∧
    localRead (fun _ => none) 9 (c.store 0) { sourceId := [] } = some (.ok [logAt 3]) := by
  refine ⟨_, [] ++ [.client 0 (syslogWrite [logAt 3])], CRun.snoc (CRun.nil _) (.client (by decide)
      ⟨fun _ => true, _, _, .localOnly _ rfl, .cons 0 rfl (.nil _), rfl⟩), ?_, ?_, ?_, by decide, rfl⟩
  · intro ev hev
    simp at hev
    subst hev
    trivial
  · intro j req hm
    simp at hm
    exact .inr ⟨_, hm.2⟩
  · intro j i
    simp only [newCluster]
    by_cases h1 : j = 0 <;> by_cases h2 : i = 0 <;> simp_all [sentTo]
    intro h; exact absurd h.symm h2

end LogCache
