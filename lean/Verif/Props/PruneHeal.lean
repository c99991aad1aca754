import Verif.Proof.PruneHeal
/-!
# A cluster that has pruned recovers too (C156)
-/
namespace LogCache
open Spec

/-- What an owner of a source holds when the cluster has recovered: all that was sent for it since
then, and some of what was sent before. -/
theorem pruned_holds {cfg : Config} (hc : 1 ≤ cfg.maxPerSource) {n : Nat} {L : Str → List Nat}
    {pre : List PruneEvent} {post : List XEvent} {c : Cluster}
    (h : PruneRun cfg (newCluster cfg n (fun _ => L)) (pre ++ post.map .step) c) (hf : FairTables L (stepsOf pre))
    {src : Str} {owners : List Nat} (hL : ∀ j, j < n → tablesAfter L (stepsOf pre) j src = owners)
    (hlt : ∀ k ∈ owners, k < n) (hcalm : Calm owners src post)
    (hq : ∀ i k, ∀ e ∈ c.queue i k, e.sourceId ≠ src)
    (hs : Spread (sentBy (stepsOf pre ++ post) src))
    (hfew : ∀ ts, howMany (sentBy (stepsOf pre ++ post) src) ts ≤ cfg.maxFudge)
    (hcap : ((sentBy (stepsOf pre ++ post) src).length : Int) ≤ cfg.maxPerSource) {k : Nat} (hk : k ∈ owners) :
    ∃ old, SomeOf old (sentBy (stepsOf pre) src) ∧ ((c.store k).envelopes src).Perm (old ++ sentBy post src) ∧
      ∃ ops, Run (newStore cfg) ops (c.store k) ∧ Spread (putsOf ops src) := by
  obtain ⟨⟨s0, hx⟩, -⟩ := prune_books hc h
  have hst : stepsOf (pre ++ post.map .step) = stepsOf pre ++ post := by
    have := stepsOf_step post
    unfold stepsOf at this ⊢
    rw [List.filterMap_append, this]
  rw [hst] at hx
  have hnd : owners.Nodup := by
    rw [← hL k (hlt k hk)]; exact fairTables_nodup hf k src
  have hone : owners.count k = 1 := by
    have := List.nodup_iff_count.1 hnd k
    have := List.count_pos_iff.2 hk
    omega
  obtain ⟨way, ho, hp⟩ := calm_new hx hf hL hcalm hone (fun i => hq i k)
  obtain ⟨ops1, ops2, st1, l, g1, g2, g3, g4, g5, g6⟩ := prune_tail hc h k (fun lost hm => hcalm _ hm)
  rw [g4, List.filter_append, ← g5 src, ← g6 src] at hp
  rw [← g5 src] at ho
  have hall : SomeOf (putsOf (ops1 ++ ops2) src) (sentBy (stepsOf pre ++ post) src) := by
    have : sentBy (stepsOf pre ++ post) src = sentBy (stepsOf pre) src ++ sentBy post src := by simp [sentBy]
    rw [this, putsOf_append]
    obtain ⟨r, hr⟩ := someOf_append ho (b := sentBy post src) (y := sentBy post src) ⟨[], by rw [List.append_nil]⟩
    exact ⟨r, (hp.append_right r).trans hr⟩
  have hsp := spread_some hall hs
  have hlen : ((putsOf (ops1 ++ ops2) src).length : Int) ≤ cfg.maxPerSource := by
    obtain ⟨r, hr⟩ := hall
    have := hr.length_eq
    rw [List.length_append] at this
    omega
  have hkeep := spread_after hc g1 g2 g3 src hsp (fun ts => Nat.le_trans (howMany_some hall ts) (hfew ts)) hlen
  have hnew : (putsOf ops2 src).Perm (way ++ sentBy post src) := by
    rw [List.append_assoc] at hp
    exact (List.perm_append_left_iff _).1 hp
  refine ⟨st1.envelopes src ++ way, ?_, ?_, _, run_comp g1 g2, hsp⟩
  · obtain ⟨r, hr⟩ := someOf_append (stored_sub_put hc g1 src) (b := way) (y := way) ⟨[], by rw [List.append_nil]⟩
    obtain ⟨r', hr'⟩ := ho
    exact ⟨r ++ r', by rw [← List.append_assoc]; exact (hr.append_right r').trans hr'⟩
  · rw [List.append_assoc]
    exact hkeep.trans (hnew.append_left _)


/-- **Recovery, whatever was pruned before.** As `C156_recovers_partial`, but in the history before
the recovery nodes may also have pruned their stores, at any time and by any amount. A run that meets all this is `recovered_pruned` in
`Verif/Props/UserCrash.lean`. -/
theorem C156_pruned_partial {cfg : Config} (hc : 1 ≤ cfg.maxPerSource) {n : Nat} {L : Str → List Nat}
    {pre : List PruneEvent} {post : List XEvent} {c : Cluster}
    (h : PruneRun cfg (newCluster cfg n (fun _ => L)) (pre ++ post.map .step) c) (hf : FairTables L (stepsOf pre))
    {src : Str} {owners : List Nat} (hL : ∀ j, j < n → tablesAfter L (stepsOf pre) j src = owners)
    (hne : owners ≠ []) (hlt : ∀ k ∈ owners, k < n) (hcalm : Calm owners src post)
    (hq : ∀ i k, ∀ e ∈ c.queue i k, e.sourceId ≠ src)
    (hs : Spread (sentBy (stepsOf pre ++ post) src))
    (hfew : ∀ ts, howMany (sentBy (stepsOf pre ++ post) src) ts ≤ cfg.maxFudge)
    (hcap : ((sentBy (stepsOf pre ++ post) src).length : Int) ≤ cfg.maxPerSource) {j : Nat} (hj : j < n) :
    (∃ hops r, ReadAt c.lk src j hops r) ∧
    ∀ hops r, ReadAt c.lk src j hops r → hops ≤ 1 ∧ ∃ k ∈ owners, r = some k ∧
      ∃ old, SomeOf old (sentBy (stepsOf pre) src) ∧ ReturnsAll (c.store k) src (old ++ sentBy post src) := by
  obtain ⟨⟨s0, hx⟩, -⟩ := prune_books hc h
  have hst : stepsOf (pre ++ post.map .step) = stepsOf pre ++ post := by
    have := stepsOf_step post
    unfold stepsOf at this ⊢
    rw [List.filterMap_append, this]
  rw [hst] at hx
  have hlk : c.lk = tablesAfter L (stepsOf pre ++ post) := (C154_accounts hx 0).1
  have htab := (calm_books hx hL hcalm).1
  rw [← hlk] at htab
  obtain ⟨r1, r2⟩ := readAt_owners htab hlt hne hj
  refine ⟨r1, fun hops r hr => ?_⟩
  obtain ⟨e1, k, hk, e2⟩ := r2 hops r hr
  refine ⟨e1, k, hk, e2, ?_⟩
  obtain ⟨old, ho, hp, ops, o1, o2⟩ := pruned_holds hc h hf hL hlt hcalm hq hs hfew hcap hk
  exact ⟨old, ho, returnsAll_holds hc o1 o2 hp⟩

end LogCache
