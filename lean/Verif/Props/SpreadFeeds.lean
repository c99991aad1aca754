import Verif.Props.Heal
import Verif.Props.SyslogCluster
import Verif.Props.NozzleCluster
/-!
# What syslog servers and nozzles write, when some envelopes have the same time (C129, C136)
-/
namespace LogCache
open Spec

theorem returnsAll_perm {st : Store} {src : Str} {a b : List Envelope} (h : ReturnsAll st src a) (hp : a.Perm b) :
    ReturnsAll st src b := by
  obtain ⟨log, h1, h2, h3⟩ := h
  unfold ReturnsAll
  rw [← hp.length_eq]
  exact ⟨log, h1.trans hp, h2, h3⟩

/-- As `C129_owner_partial`, for envelopes that may have the same time: only those of the source
that is read have to be spread out. -/
theorem C129_spread_partial {cfg : Config} (hc : 1 ≤ cfg.maxPerSource) {n : Nat}
    {L : Str → List Nat} {evs : List CEvent} {c : Cluster}
    (h : Spec.CRun (newCluster cfg n (fun _ => L)) evs c) (hr : Reliable evs)
    (hq : ∀ j i, c.queue j i = []) {src : Str} (hLn : (L src).Nodup) (hL : L src ≠ [])
    (hs : Spread (clientSent evs src)) (hfew : ∀ ts, howMany (clientSent evs src) ts ≤ cfg.maxFudge)
    (hcap : ((clientSent evs src).length : Int) ≤ cfg.maxPerSource) (j : Nat) :
    (∃ hops r, ReadAt c.lk src j hops r) ∧
    ∀ hops r, ReadAt c.lk src j hops r → ∃ i, r = some i ∧ i ∈ L src ∧ (j ∈ L src → i = j) ∧
      ReturnsAll (c.store i) src (sentByClients evs src ++ sentBySyslog evs i src) := by
  obtain ⟨hn, hlk⟩ := crun_fixed h hr
  rw [hlk]
  refine ⟨readAt_total L src j, ?_⟩
  intro hops r hread
  rcases readAt_agree hread with ⟨h1, _, _⟩ | ⟨i, hi, rfl, hh, hij⟩
  · exact absurd h1 hL
  refine ⟨i, rfl, hi, fun hj => (hij hj).1, ?_⟩
  obtain ⟨ops, hrun, hnp, hputs⟩ := crun_store h hr i
  have hpend : pending c i = [] := by
    unfold pending
    simp [hq]
  have hcons := crun_conserve h hr i
  rw [hpend, List.append_nil] at hcons
  have hone : (L src).count i = 1 := by
    have := List.nodup_iff_count.1 hLn i
    have := List.count_pos_iff.2 hi
    omega
  have hp : (putsOf ops src).Perm (sentByClients evs src ++ sentBySyslog evs i src) := by
    rw [hputs]
    have := (hcons.filter _).trans (destined_perm L i evs src)
    rwa [hone, flatMap_replicate_one] at this
  have hall : SomeOf (sentByClients evs src ++ sentBySyslog evs i src) (clientSent evs src) := by
    obtain ⟨l, hl1, hl2⟩ := sent_sublist evs i src
    obtain ⟨rest, hrest⟩ := someOf_sublist hl2
    exact ⟨rest, (hl1.symm.append_right rest).trans hrest⟩
  refine returnsAll_of hc hrun hnp hp (spread_some hall hs)
    (fun ts => Nat.le_trans (howMany_some hall ts) (hfew ts)) ?_
  obtain ⟨rest, hrest⟩ := hall
  have := hrest.length_eq
  rw [List.length_append] at this
  omega

/-- As `C136_delivered_partial`, for envelopes that may have the same time. -/
theorem C136_spread_partial {cfg : Config} (hc : 1 ≤ cfg.maxPerSource) {n j : Nat} {L : Str → List Nat}
    {nevs : List (NozEvent Envelope)} {evs others : List CEvent} {s : Nozzle Envelope} {c : Cluster}
    (h : FedRun j (newCluster cfg n (fun _ => L)) nevs evs others s c) (hr : Reliable evs)
    (ho : ∀ i req, CEvent.client i req ∈ others → req.localOnly = false)
    (hq : ∀ j i, c.queue j i = []) {src : Str} (hLn : (L src).Nodup) (hL : L src ≠ [])
    (hs : Spread (clientSent evs src)) (hfew : ∀ ts, howMany (clientSent evs src) ts ≤ cfg.maxFudge)
    (hcap : ((clientSent evs src).length : Int) ≤ cfg.maxPerSource) (k : Nat) :
    (∃ hops r, ReadAt c.lk src k hops r) ∧
    ∃ late, List.Sublist late (Noz.failed nevs) ∧
    ∀ hops r, ReadAt c.lk src k hops r → ∃ i, r = some i ∧ i ∈ L src ∧
      ReturnsAll (c.store i) src
        (ofSource src (Noz.delivered nevs).flatten ++ (ofSource src late.flatten ++ clientSent others src)) := by
  obtain ⟨h1, h2⟩ := C35_spread hc (fed_cluster h) hr (fed_requests h ho) hq hLn hL hs hfew hcap k
  obtain ⟨late, hl, hp⟩ := fed_sent h
  refine ⟨h1, late, hl, ?_⟩
  intro hops r hread
  obtain ⟨_, i, hi, hiL, hall⟩ := h2 hops r hread
  exact ⟨i, hi, hiL, returnsAll_perm hall (hp src)⟩

/-- As `C136_counts_partial`, for envelopes that may have the same time. -/
theorem C136_counts_spread_partial {cfg : Config} (hc : 1 ≤ cfg.maxPerSource) {n j : Nat} {L : Str → List Nat}
    {nevs : List (NozEvent Envelope)} {evs others : List CEvent} {s : Nozzle Envelope} {c : Cluster}
    (h : FedRun j (newCluster cfg n (fun _ => L)) nevs evs others s c) (hr : Reliable evs)
    (ho : ∀ i req, CEvent.client i req ∈ others → req.localOnly = false)
    (hq : ∀ j i, c.queue j i = []) {src : Str} (hLn : (L src).Nodup) (hL : L src ≠ [])
    (hs : Spread (clientSent evs src)) (hfew : ∀ ts, howMany (clientSent evs src) ts ≤ cfg.maxFudge)
    (hcap : ((clientSent evs src).length : Int) ≤ cfg.maxPerSource)
    (hidle : NozzleIdle s) (hcount : s.egress = s.ingress) (k : Nat) :
    (∃ hops r, ReadAt c.lk src k hops r) ∧
    ∀ hops r, ReadAt c.lk src k hops r → ∃ i, r = some i ∧ i ∈ L src ∧
      ReturnsAll (c.store i) src (ofSource src (Noz.received nevs) ++ clientSent others src) := by
  obtain ⟨h1, late, hl, h2⟩ := C136_spread_partial hc h hr ho hq hLn hL hs hfew hcap k
  obtain ⟨hrec, hfail⟩ := idle_counts (fed_nozzle h) hidle hcount
  refine ⟨h1, ?_⟩
  intro hops r hread
  obtain ⟨i, hi, hiL, hall⟩ := h2 hops r hread
  refine ⟨i, hi, hiL, returnsAll_perm hall ?_⟩
  have hlate : late.flatten = [] := by
    rw [List.flatten_eq_nil_iff] at hfail ⊢
    exact fun l hm => hfail l (hl.subset hm)
  rw [hlate]
  exact (hrec.symm.filter _).append_right _

/-- Two lines of one time and a later one, written by a syslog server to the owner. -/
example : ∃ (c : Cluster) (evs : List CEvent),
    Spec.CRun (newCluster { maxPerSource := 5 } 2 (fun _ _ => [0])) evs c ∧ Reliable evs ∧
    (∀ j i, c.queue j i = []) ∧ clientSent evs [] = [logAt 3 "p", logAt 5 "r", logAt 3 "q"] ∧
    sentByClients evs [] = [] ∧ sentBySyslog evs 0 [] = [logAt 3 "p", logAt 5 "r", logAt 3 "q"] ∧
    Spread (clientSent evs []) ∧ (∀ ts, howMany (clientSent evs []) ts ≤ ({ maxPerSource := 5 } : Config).maxFudge) ∧
    localRead (fun _ => none) 9 (c.store 0) { sourceId := [] } = some (.ok [logAt 3 "p", logAt 3 "q", logAt 5 "r"]) := by
  refine ⟨_, [] ++ [.client 0 (syslogWrite [logAt 3 "p", logAt 5 "r", logAt 3 "q"])], CRun.snoc (CRun.nil _) (.client (by decide)
      ⟨fun _ => true, _, _, .localOnly _ rfl, .cons 0 rfl (.cons 0 rfl (.cons 0 rfl (.nil _))), rfl⟩), ?_, ?_, by decide,
      by decide, by decide, by unfold Spread; decide, ?_, by rfl⟩
  · intro ev hev
    simp at hev
    subst hev
    trivial
  · intro j i
    simp only [newCluster]
    by_cases h1 : j = 0 <;> by_cases h2 : i = 0 <;> simp_all [sentTo]
    intro h; exact absurd h.symm h2
  · intro ts
    refine Nat.le_trans (List.length_filter_le ..) ?_
    decide

/-- Two envelopes of one time, received by a nozzle, sent in one batch to the owner. -/
example : ∃ (c : Cluster) (nevs : List (NozEvent Envelope)) (evs others : List CEvent) (s : Nozzle Envelope),
    FedRun 1 (newCluster { maxPerSource := 5 } 2 (fun _ _ => [1])) nevs evs others s c ∧ Reliable evs ∧
    (∀ i req, CEvent.client i req ∈ others → req.localOnly = false) ∧ (∀ j i, c.queue j i = []) ∧
    clientSent evs [] = [logAt 3 "p", logAt 3 "q"] ∧ Spread (clientSent evs []) ∧
    (∀ ts, howMany (clientSent evs []) ts ≤ ({ maxPerSource := 5 } : Config).maxFudge) ∧
    NozzleIdle s ∧ s.egress = s.ingress ∧ Noz.received nevs = [logAt 3 "p", logAt 3 "q"] ∧
    localRead (fun _ => none) 9 (c.store 1) { sourceId := [] } = some (.ok [logAt 3 "p", logAt 3 "q"]) := by
  refine ⟨_, _, _, _, _, .own (.sent (.own (.own (.own (.own (.own (.own (.own .nil (.receive _ (logAt 3 "p") rfl) (by simp))
      (.count _ rfl) (by simp)) (.receive _ (logAt 3 "q") rfl) (by simp)) (.count _ rfl) (by simp)) (NozStep.batch _ false) (by simp [batcherIter, batchChannelSize, nozzleFlush]))
      (NozStep.batch _ true) (by simp [batcherIter, batchChannelSize, nozzleFlush])) (.take _ [logAt 3 "p", logAt 3 "q"] [] rfl) (by simp))
      (.deliver _ [] [] [logAt 3 "p", logAt 3 "q"] rfl) (.client (by decide)
        ⟨fun _ => true, _, _, .proxied _ rfl [logAt 3 "p", logAt 3 "q"] rfl [(1, [logAt 3 "p", logAt 3 "q"])] (by decide),
          .cons 0 rfl (.cons 0 rfl (.nil _)), rfl⟩)) (.countSent _ [] [] 2 rfl) (by simp), ?_, ?_, ?_, by decide, by unfold Spread; decide, ?_,
      ⟨rfl, rfl, rfl, rfl, rfl, rfl, rfl⟩, rfl, rfl, by rfl⟩
  · intro ev hev
    simp at hev
    subst hev
    trivial
  · intro i req hev
    simp at hev
  · intro a b
    simp only [newCluster]
    by_cases h1 : a = 1 <;> by_cases h2 : b = 1 <;> simp_all [sentTo]
    intro h; exact absurd h.symm h2
  · intro ts
    refine Nat.le_trans (List.length_filter_le ..) ?_
    decide

end LogCache
