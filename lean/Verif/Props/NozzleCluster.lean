import Verif.Spec.NozzleCluster
import Verif.Props.Nozzle
import Verif.Props.Cluster
import Mathlib.Data.List.Perm.Subperm

/-!
# Property theorems about what a nozzle writes to a cluster (C136)
-/

namespace LogCache
open Spec

theorem fed_nozzle {j : Nat} {c0 : Cluster} {nevs : List (NozEvent Envelope)} {evs others : List CEvent}
    {s : Nozzle Envelope} {c : Cluster} (h : FedRun j c0 nevs evs others s c) : NozRun nevs s := by
  induction h with
  | nil => exact .nil
  | own _ hs _ ih => exact .step ih hs
  | sent _ hs _ ih => exact .step ih hs
  | late _ hs _ ih => exact .step ih hs
  | other _ _ ih => exact ih

theorem fed_cluster {j : Nat} {c0 : Cluster} {nevs : List (NozEvent Envelope)} {evs others : List CEvent}
    {s : Nozzle Envelope} {c : Cluster} (h : FedRun j c0 nevs evs others s c) : CRun c0 evs c := by
  induction h with
  | nil => exact .nil _
  | own _ _ _ ih => exact ih
  | sent _ _ hc ih => exact .snoc ih hc
  | late _ _ hc ih => exact .snoc ih hc
  | other _ hc ih => exact .snoc ih hc

theorem fed_requests {j : Nat} {c0 : Cluster} {nevs : List (NozEvent Envelope)} {evs others : List CEvent}
    {s : Nozzle Envelope} {c : Cluster} (h : FedRun j c0 nevs evs others s c)
    (ho : ∀ i req, CEvent.client i req ∈ others → req.localOnly = false) :
    ∀ i req, CEvent.client i req ∈ evs → req.localOnly = false := by
  induction h with
  | nil => exact ho
  | own _ _ _ ih => exact ih ho
  | sent _ _ _ ih | late _ _ _ ih =>
    intro i req hm
    rcases List.mem_append.1 hm with hm | hm
    · exact ih ho i req hm
    · cases List.mem_singleton.1 hm; rfl
  | other _ _ ih =>
    intro i req hm
    rcases List.mem_append.1 hm with hm | hm
    · exact ih (fun i req h => ho i req (List.mem_append_left _ h)) i req hm
    · exact ho i req (List.mem_append_right _ hm)

theorem no_delivered {nev : List (NozEvent Envelope)} (h : ∀ b, NozEvent.delivered b ∉ nev) : Noz.delivered nev = [] := by
  unfold Noz.delivered
  rw [List.filterMap_eq_nil_iff]
  intro ev hev
  cases ev with
  | delivered b => exact absurd hev (h b)
  | _ => rfl

theorem clientSent_snoc (evs : List CEvent) (ev : CEvent) (src : Str) :
    clientSent (evs ++ [ev]) src = clientSent evs src ++ clientSent [ev] src := by
  unfold clientSent; rw [List.flatMap_append]

/-- What clients sent is what the nozzle delivered, some of what it counts as errors, and
what others sent. -/
theorem fed_sent {j : Nat} {c0 : Cluster} {nevs : List (NozEvent Envelope)} {evs others : List CEvent}
    {s : Nozzle Envelope} {c : Cluster} (h : FedRun j c0 nevs evs others s c) :
    ∃ late, List.Sublist late (Noz.failed nevs) ∧ ∀ src, (clientSent evs src).Perm
      (ofSource src (Noz.delivered nevs).flatten ++ (ofSource src late.flatten ++ clientSent others src)) := by
  induction h with
  | nil => exact ⟨[], List.Sublist.refl _, fun _ => List.Perm.refl _⟩
  | @own nevs evs others s c nev s' _ _ hn ih =>
    obtain ⟨late, hl, hp⟩ := ih
    have hd : Noz.delivered (nevs ++ nev) = Noz.delivered nevs := by
      rw [show Noz.delivered (nevs ++ nev) = Noz.delivered nevs ++ Noz.delivered nev from List.filterMap_append,
        no_delivered hn, List.append_nil]
    have hf : Noz.failed (nevs ++ nev) = Noz.failed nevs ++ Noz.failed nev := List.filterMap_append
    exact ⟨late, hf ▸ hl.trans (List.sublist_append_left _ _), fun src => by rw [hd]; exact hp src⟩
  | @sent nevs evs others s c b s' c' _ _ _ ih =>
    obtain ⟨late, hl, hp⟩ := ih
    have hd : Noz.delivered (nevs ++ [.delivered b]) = Noz.delivered nevs ++ [b] := by
      rw [show Noz.delivered (nevs ++ [.delivered b]) = Noz.delivered nevs ++ Noz.delivered [.delivered b] from
        List.filterMap_append]; rfl
    have hf : Noz.failed (nevs ++ [.delivered b]) = Noz.failed nevs := by
      rw [show Noz.failed (nevs ++ [.delivered b]) = Noz.failed nevs ++ Noz.failed [.delivered b] from
        List.filterMap_append]; simp [Noz.failed]
    refine ⟨late, hf ▸ hl, fun src => ?_⟩
    rw [clientSent_snoc, hd, List.flatten_append]
    have e : clientSent [CEvent.client j (nozzleWrite b)] src = ofSource src b := by
      simp [clientSent, nozzleWrite, ofSource]
    have e2 : ofSource src ((Noz.delivered nevs).flatten ++ [b].flatten) =
        ofSource src (Noz.delivered nevs).flatten ++ ofSource src b := by
      simp [ofSource]
    rw [e, e2, List.append_assoc]
    refine ((hp src).append_right _).trans ?_
    rw [List.append_assoc]
    exact List.Perm.append_left _ List.perm_append_comm
  | @late nevs evs others s c b s' c' _ _ _ ih =>
    obtain ⟨late, hl, hp⟩ := ih
    have hd : Noz.delivered (nevs ++ [.failed b]) = Noz.delivered nevs := by
      rw [show Noz.delivered (nevs ++ [.failed b]) = Noz.delivered nevs ++ Noz.delivered [.failed b] from
        List.filterMap_append]; simp [Noz.delivered]
    have hf : Noz.failed (nevs ++ [.failed b]) = Noz.failed nevs ++ [b] := by
      rw [show Noz.failed (nevs ++ [.failed b]) = Noz.failed nevs ++ Noz.failed [.failed b] from
        List.filterMap_append]; rfl
    refine ⟨late ++ [b], hf ▸ hl.append_right _, fun src => ?_⟩
    rw [clientSent_snoc, hd, List.flatten_append]
    have e : clientSent [CEvent.client j (nozzleWrite b)] src = ofSource src b := by
      simp [clientSent, nozzleWrite, ofSource]
    have e2 : ofSource src (late.flatten ++ [b].flatten) = ofSource src late.flatten ++ ofSource src b := by
      simp [ofSource]
    rw [e, e2]
    refine ((hp src).append_right _).trans ?_
    simp only [List.append_assoc]
    exact List.Perm.append_left _ (List.Perm.append_left _ List.perm_append_comm)
  | @other nevs evs others s c ev c' _ _ ih =>
    obtain ⟨late, hl, hp⟩ := ih
    refine ⟨late, hl, fun src => ?_⟩
    rw [clientSent_snoc, clientSent_snoc]
    refine ((hp src).append_right _).trans ?_
    simp only [List.append_assoc]
    exact List.Perm.refl _

/-- What was lost or dropped. -/
def nozzleRest (nevs : List (NozEvent Envelope)) : List Envelope :=
  nevs.flatMap fun | .lost es => es | .dropped b => b | _ => []

theorem consumed_split (nevs : List (NozEvent Envelope)) :
    (Noz.consumed nevs).Perm (nozzleRest nevs ++ (Noz.queued nevs).flatten) := by
  induction nevs with
  | nil => exact List.Perm.refl _
  | cons ev t ih =>
    unfold Noz.consumed nozzleRest Noz.queued at *
    cases ev with
    | received e => simpa using ih
    | lost es => simpa using ih.append_left es
    | queued b =>
      simp only [List.flatMap_cons, List.filterMap_cons, List.flatten_cons, List.nil_append]
      refine (ih.append_left b).trans ?_
      rw [← List.append_assoc, ← List.append_assoc]
      exact List.perm_append_comm.append_right _
    | dropped b => simpa using ih.append_left b
    | delivered b => simpa using ih
    | failed b => simpa using ih

/-- If the counters of received and delivered envelopes agree, all were delivered and there
was no error. -/
theorem idle_counts {nevs : List (NozEvent Envelope)} {s : Nozzle Envelope} (h : NozRun nevs s) (hi : NozzleIdle s)
    (he : s.egress = s.ingress) : (Noz.received nevs).Perm (Noz.delivered nevs).flatten ∧ (Noz.failed nevs).flatten = [] := by
  obtain ⟨hb, hp, hc, hf, hrd, hsn, _⟩ := hi
  obtain ⟨h1, h2⟩ := C71_conservation h
  obtain ⟨_, c1, c2, _⟩ := C71_counters h
  replace c1 := c1 hrd
  replace c2 := c2 hsn
  rw [hb, hp, List.append_nil, List.append_nil] at h1
  rw [hc, hf, List.nil_append, List.nil_append] at h2
  have hq : (Noz.consumed nevs).Perm (nozzleRest nevs ++ (Noz.queued nevs).flatten) := consumed_split nevs
  have hall := h1.trans (hq.trans ((h2.flatten).append_left _))
  rw [List.flatten_append] at hall
  have hlen := hall.length_eq
  simp only [List.length_append] at hlen
  have hr : nozzleRest nevs = [] := List.length_eq_zero_iff.1 (by omega)
  have hfa : (Noz.failed nevs).flatten = [] := List.length_eq_zero_iff.1 (by omega)
  rw [hr, hfa, List.nil_append, List.append_nil] at hall
  exact ⟨hall, hfa⟩

/-- All nodes hold the table `L`, and nothing was lost between the nodes and nothing is in
flight.  A Read, whichever node it enters at, is answered with the requested part of what the
nozzle counts as delivered, of what others sent, and possibly of batches it counts as
errors. -/
theorem C136_delivered_partial {cfg : Config} (hc : 1 ≤ cfg.maxPerSource) {n j : Nat} {L : Str → List Nat}
    {nevs : List (NozEvent Envelope)} {evs others : List CEvent} {s : Nozzle Envelope} {c : Cluster}
    (h : FedRun j (newCluster cfg n (fun _ => L)) nevs evs others s c) (hr : Reliable evs)
    (ho : ∀ i req, CEvent.client i req ∈ others → req.localOnly = false)
    (hq : ∀ j i, c.queue j i = []) (hLn : ∀ s, (L s).Nodup)
    (hd : ∀ s, ((clientSent evs s).map Envelope.timestamp).Nodup)
    {src : Str} (hL : L src ≠ []) (hcap : ((clientSent evs src).length : Int) ≤ cfg.maxPerSource) (k : Nat) :
    (∃ hops r, ReadAt c.lk src k hops r) ∧
    ∃ late, List.Sublist late (Noz.failed nevs) ∧
    ∀ hops r, ReadAt c.lk src k hops r → ∃ i, r = some i ∧ i ∈ L src ∧
      ∃ log : List Envelope,
        log.Perm (ofSource src (Noz.delivered nevs).flatten ++ (ofSource src late.flatten ++ clientSent others src)) ∧
        log.Pairwise (fun x y => x.timestamp ≤ y.timestamp) ∧
        ∀ compile now (req : ReadRequest), req.sourceId = src → (∀ k, EType.other k ∉ req.types) →
          (∃ err, localRead compile now (c.store i) req = some (.error err)) ∨
          localRead compile now (c.store i) req = some (.ok
            ((((((if req.descending then log.reverse else log).filter
                (inWindow req.start (if req.stop = 0 then now else req.stop))).filterMap
                (project (if req.nameFilter = [] then none else compile req.nameFilter))).filter
                (fun e => decide (∀ t ∈ req.types, t = .any) ||
                  decide (∃ t ∈ req.types, kind e = some t)))).take
              (if req.limit = 0 then 100 else req.limit).toNat)) := by
  obtain ⟨h1, h2⟩ := C35_read_your_writes hc (fed_cluster h) hr (fed_requests h ho) hq hLn hd hL hcap k
  obtain ⟨late, hl, hp⟩ := fed_sent h
  refine ⟨h1, late, hl, ?_⟩
  intro hops r hread
  obtain ⟨_, i, hi, hiL, log, hlog, hrest⟩ := h2 hops r hread
  exact ⟨i, hi, hiL, log, hlog.trans (hp src), hrest⟩

/-- If moreover the nozzle is idle and has delivered as many envelopes as it received, every
envelope it received is there. -/
theorem C136_counts_partial {cfg : Config} (hc : 1 ≤ cfg.maxPerSource) {n j : Nat} {L : Str → List Nat}
    {nevs : List (NozEvent Envelope)} {evs others : List CEvent} {s : Nozzle Envelope} {c : Cluster}
    (h : FedRun j (newCluster cfg n (fun _ => L)) nevs evs others s c) (hr : Reliable evs)
    (ho : ∀ i req, CEvent.client i req ∈ others → req.localOnly = false)
    (hq : ∀ j i, c.queue j i = []) (hLn : ∀ s, (L s).Nodup)
    (hd : ∀ s, ((clientSent evs s).map Envelope.timestamp).Nodup)
    {src : Str} (hL : L src ≠ []) (hcap : ((clientSent evs src).length : Int) ≤ cfg.maxPerSource)
    (hidle : NozzleIdle s) (hcount : s.egress = s.ingress) (k : Nat) :
    (∃ hops r, ReadAt c.lk src k hops r) ∧
    ∀ hops r, ReadAt c.lk src k hops r → ∃ i, r = some i ∧ i ∈ L src ∧
      ∃ log : List Envelope, log.Perm (ofSource src (Noz.received nevs) ++ clientSent others src) ∧
        log.Pairwise (fun x y => x.timestamp ≤ y.timestamp) ∧
        ∀ compile now (req : ReadRequest), req.sourceId = src → (∀ k, EType.other k ∉ req.types) →
          (∃ err, localRead compile now (c.store i) req = some (.error err)) ∨
          localRead compile now (c.store i) req = some (.ok
            ((((((if req.descending then log.reverse else log).filter
                (inWindow req.start (if req.stop = 0 then now else req.stop))).filterMap
                (project (if req.nameFilter = [] then none else compile req.nameFilter))).filter
                (fun e => decide (∀ t ∈ req.types, t = .any) ||
                  decide (∃ t ∈ req.types, kind e = some t)))).take
              (if req.limit = 0 then 100 else req.limit).toNat)) := by
  obtain ⟨h1, late, hl, h2⟩ := C136_delivered_partial hc h hr ho hq hLn hd hL hcap k
  obtain ⟨hrec, hfail⟩ := idle_counts (fed_nozzle h) hidle hcount
  refine ⟨h1, ?_⟩
  intro hops r hread
  obtain ⟨i, hi, hiL, log, hlog, hrest⟩ := h2 hops r hread
  refine ⟨i, hi, hiL, log, hlog.trans ?_, hrest⟩
  have hlate : late.flatten = [] := by
    rw [List.flatten_eq_nil_iff] at hfail ⊢
    exact fun l hm => hfail l (hl.subset hm)
  rw [hlate]
  exact (hrec.symm.filter _).append_right _

/-- One envelope on its way through the nozzle: received, batched, taken by a worker. -/
theorem nozzle_one (c0 : Cluster) (e : Envelope) :
    FedRun 0 c0 (((([] ++ [.received e]) ++ []) ++ [.queued [e]]) ++ []) [] []
      (⟨[], [], [], [[e]], 1, 0, 0, 0, [], 0⟩ : Nozzle Envelope) c0 := by
  refine .own (.own (.own (.own .nil (.receive _ e rfl) (by simp)) (.count _ rfl) (by simp))
    (s' := ⟨[], [], [[e]], [], 1, 0, 0, 0, [], 0⟩) ?_ (by simp)) (.take _ [e] [] rfl) (by simp)
  exact NozStep.batch (⟨[e], [], [], [], 1, 0, 0, 0, [], 0⟩ : Nozzle Envelope) true

/-- The nozzle sends it to node 0, which hands it to the buffer for node 1. -/
theorem nozzle_two : ∃ (c : Cluster) (nevs : List (NozEvent Envelope)),
    FedRun 0 (newCluster { maxPerSource := 5 } 2 (fun _ _ => [1])) nevs [.client 0 (nozzleWrite [logAt 3])] []
      (⟨[], [], [], [], 1, 1, 0, 0, [], 0⟩ : Nozzle Envelope) c ∧ Noz.received nevs = [logAt 3] ∧ c.n = 2 ∧
    (∀ k, c.lk k = fun _ => [1]) ∧ (∀ k, c.store k = newStore { maxPerSource := 5 }) ∧
    ∀ a b, c.queue a b = if a = 0 ∧ b = 1 then [logAt 3] else [] := by
  refine ⟨_, _, .own (.sent (nozzle_one _ (logAt 3)) (.deliver _ [] [] [logAt 3] rfl) (.client (by decide)
    ⟨fun _ => true, _, _, .proxied _ rfl [logAt 3] rfl [(1, [logAt 3])] (by decide), .nil _, rfl⟩))
    (.countSent _ [] [] 1 rfl) (by simp), by simp [Noz.received], rfl,
    fun _ => rfl, ?_, ?_⟩
  · intro k; simp [newCluster]
  · intro a b
    simp only [newCluster]
    by_cases h1 : a = 0 <;> by_cases h2 : b = 1 <;> simp_all [sentTo]
    intro _ h; exact absurd h.symm h2

/-- The hypotheses are met: node 0 passes the envelope on, and node 1 answers with it. -/
example : ∃ (c : Cluster) (nevs : List (NozEvent Envelope)) (evs others : List CEvent) (s : Nozzle Envelope),
    FedRun 0 (newCluster { maxPerSource := 5 } 2 (fun _ _ => [1])) nevs evs others s c ∧ Reliable evs ∧
    (∀ i req, CEvent.client i req ∈ others → req.localOnly = false) ∧ (∀ j i, c.queue j i = []) ∧
    clientSent evs [] = [logAt 3] ∧ NozzleIdle s ∧ s.egress = s.ingress ∧
    localRead (fun _ => none) 9 (c.store 1) { sourceId := [] } = some (.ok [logAt 3]) := by
  obtain ⟨c, nevs, h, _, hn, _, hs, hq⟩ := nozzle_two
  refine ⟨_, _, _, _, _, .other h (.deliver (i := 1) (j := 0) (batch := [logAt 3]) (rest := []) (by omega) (by omega) (by decide)
    (by rw [hq]; rfl) ⟨fun _ => true, ⟨[(1, batchedWrite [logAt 3])], true⟩, _, ?_, .cons 0 (by
      show put 0 (c.store 1) [] (logAt 3) = _
      rw [hs]; rfl) (.nil _), rfl⟩), ?_, ?_, ?_, ?_, ⟨rfl, rfl, rfl, rfl, rfl, rfl, rfl⟩, rfl, ?_⟩
  · have := IngressSend.localOnly (lookup := c.lk 1) (nClients := c.n) (localIdx := 1) (clientOk := fun _ => true)
      (batchedWrite [logAt 3]) rfl
    rwa [if_pos (by omega)] at this
  · intro ev hev
    simp at hev
    rcases hev with rfl | rfl <;> trivial
  · intro i req hev
    simp at hev
  · intro a b
    simp only [hq]
    by_cases h1 : a = 0 <;> by_cases h2 : b = 1 <;> by_cases h3 : a = 1 <;> simp_all [sentTo]
    intro h; exact absurd h.symm h2
  · decide
  · rfl

/-- But what node 0 hands on can be lost.  The nozzle is idle, has counted one envelope
received, one delivered and no error, nothing is in flight, and no Read returns it. -/
theorem C136_lost_false : ∃ (c : Cluster) (nevs : List (NozEvent Envelope)) (evs others : List CEvent) (s : Nozzle Envelope),
    FedRun 0 (newCluster { maxPerSource := 5 } 2 (fun _ _ => [1])) nevs evs others s c ∧
    Noz.received nevs = [logAt 3] ∧ NozzleIdle s ∧ s.ingress = 1 ∧ s.egress = 1 ∧ s.err = 0 ∧
    (∀ j i, c.queue j i = []) ∧
    ∀ j hops r, ReadAt c.lk [] j hops r → ∃ i, r = some i ∧
      ∀ compile now (req : ReadRequest), req.sourceId = [] →
        (∃ err, localRead compile now (c.store i) req = some (.error err)) ∨
        localRead compile now (c.store i) req = some (.ok []) := by
  obtain ⟨c, nevs, h, hrec, hn, hlk, hs, hq⟩ := nozzle_two
  refine ⟨_, _, _, _, _, .other h (.lose (j := 0) (i := 1) (q := []) (List.nil_sublist _)), hrec, ⟨rfl, rfl, rfl, rfl, rfl, rfl, rfl⟩,
    rfl, rfl, rfl, ?_, ?_⟩
  · intro a b
    simp only [hq]
    split <;> simp_all
  intro j hops r hread
  have hlk : c.lk = fun _ _ => [1] := funext hlk
  simp only [hlk] at hread
  rcases readAt_agree (L := fun _ => [1]) hread with ⟨h1, _, _⟩ | ⟨i, hi, rfl, _, _⟩
  · cases h1
  refine ⟨i, rfl, ?_⟩
  intro compile now req hreq
  simp only [hs]
  unfold localRead
  cases readArgs compile now req with
  | error e => exact .inl ⟨e, rfl⟩
  | ok a => right; rw [hreq]; rfl

end LogCache
