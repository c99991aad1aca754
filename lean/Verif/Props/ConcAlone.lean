import Verif.Proof.ConcAlone
import Verif.Props.Conc
/-! # C141: Puts, reads and prunes together -/
namespace LogCache
open Spec

/-- The events of a run in which a prune drops a source under a Put. -/
def lostEvents : List Ev :=
  [.call 0 (.put srcA (logAt 1)), .commit 0 srcA (logAt 1) 10, .ret 0,
    .call 1 (.put srcB (logAt 2)), .commit 1 srcB (logAt 2) 10, .ret 1, .call 2 (.put srcA (logAt 3)),
    .call 3 .prune, .pruning 3 1, .dropped 3 srcA, .ret 3, .commit 2 srcA (logAt 3) 10, .ret 2]

def lostMoves : List Move :=
  twoPuts ++ [.call (.put srcA (logAt 3)), .go 2] ++ pruneMoves 3 [srcA, srcB] ++ [.go 2, .go 2]

/-- Puts, reads and prunes together are not linearizable: no history of the sequential store with
these Puts, in whatever order and with whatever reads and prunes, leaves the same envelopes and the
same count. -/
theorem C141_false : ∃ s, CRun five lostEvents s ∧ (∀ i, ¬ PruneRunning lostEvents i) ∧ PutsReturned lostEvents ∧
    ¬ ∃ ops S, Run (newStore five) ops S ∧ (∀ src, (putsOf ops src).Perm (putsOf (seqOps lostEvents) src)) ∧
      (∀ src, storedAt s src = S.entries src) ∧ s.g.count = S.g.count := by
  refine ⟨_, exec_run (ms := lostMoves) rfl, ?_, ?_, ?_⟩
  · rintro i ⟨⟨n, hn⟩, hr⟩
    simp [lostEvents] at hn hr
    exact hr.2.2.1 hn.1
  · intro j src e now hm
    simp [lostEvents] at hm ⊢
    omega
  · rintro ⟨ops, S, hR, hp, hs, hcnt⟩
    have hd : DistinctTs ops := by
      intro src
      refine ((hp src).map Envelope.timestamp).nodup_iff.2 ?_
      by_cases ha : srcA = src
      · subst ha; decide +kernel
      · by_cases hb : srcB = src
        · subst hb; decide +kernel
        · have : seqOps lostEvents =
              [.put 10 srcA (logAt 1), .put 10 srcB (logAt 2), .put 10 srcA (logAt 3)] := rfl
          rw [this]
          simp [putsOf, ha, hb]
    have hc1 : (1 : Int) ≤ five.maxPerSource := by decide
    have hct := distinct_count hc1 hR hd
    have hinv := (run_inv hc1 hR).1
    have htot : S.total = 1 := by
      rw [total_eq, ← sum_entries (S := [srcB]) (by simp) hinv.idx.1]
      · show (S.entries srcB).length + 0 = 1
        rw [← hs srcB]
        decide +kernel
      · intro p hpm
        have hne := (hinv.idx.2 p hpm).nonempty
        have hent : S.entries p.1 = p.2.tree.toList := by
          unfold Store.entries
          rw [mem_idxLoad hinv.idx.1 (show (p.1, p.2) ∈ S.index from hpm)]
        by_cases hb : p.1 = srcB
        · simp [hb]
        · refine absurd ?_ hne
          rw [← hent, ← hs p.1]
          have hidx : (execRun five lostMoves).2.index = [(srcB, 1)] := by decide +kernel
          unfold storedAt
          rw [hidx, List.lookup_cons, beq_eq_false_iff_ne.2 hb]
          rfl
    have : (execRun five lostMoves).2.g.count = 2 := by decide +kernel
    omega

/-- Full statement: whatever runs at the same time, the store behaves as the sequential store does
that is given the calls one by one.  Missing: runs in which a call waits while a prune removes
envelopes, see `C141_false`.  In all others every prune is one step of the sequential store, Puts
and reads take effect between prunes, reads have the same answers, and the stored envelopes and the
metrics are the same whenever no prune is removing. -/
theorem C141_alone_partial {cfg : Config} (hc : 1 ≤ cfg.maxPerSource) {evs : List Ev} {s : Conc}
    (h : CRun cfg evs s) (hx : PrunesAlone evs) (hcr : s.crashed = false) (hq : ∀ i, ¬ PruneRunning evs i) :
    ∃ S, Replay cfg evs S ∧ (∀ src, storedAt s src = S.entries src) ∧
      s.g.count = S.g.count ∧ s.g.expired = S.g.expired ∧ s.g.storeSize = S.g.storeSize ∧
      s.g.egress = S.g.egress := by
  obtain ⟨S, hR, hl⟩ := alone_quiet (crun_pinv h hcr) (crun_alone hc h hx hcr) hq
  refine ⟨S, hR, ?_, hl.count, hl.expired, hl.size, hl.egress⟩
  intro src
  unfold storedAt Store.entries
  cases hx : s.index.lookup src with
  | none => rw [hl.none src hx]
  | some a =>
    obtain ⟨o, ho, hst⟩ := hl.look src a hx
    simp only
    rw [ho]
    simp only
    rw [hst]
    exact getOrInit_toList _ _

/-- So every law of the sequential store holds of such runs: their stored envelopes are those of a
history of it with the same Puts and reads in the order in which they took effect and as many prunes
as have removed. -/
theorem C141_history_partial {cfg : Config} (hc : 1 ≤ cfg.maxPerSource) {evs : List Ev} {s : Conc}
    (h : CRun cfg evs s) (hx : PrunesAlone evs) (hcr : s.crashed = false) (hq : ∀ i, ¬ PruneRunning evs i) :
    ∃ ops S, Run (newStore cfg) ops S ∧ ops.filter (fun op => !op.isPrune) = seqOps evs ∧
      (ops.filter Op.isPrune).length = (evs.filter fun | .pruning .. => true | _ => false).length ∧
      ∀ src, storedAt s src = S.entries src := by
  obtain ⟨S, hR, hs, -⟩ := C141_alone_partial hc h hx hcr hq
  obtain ⟨ops, h1, h2, h3⟩ := replay_run hR
  exact ⟨ops, S, h1, h2, h3, hs⟩

/-- When such a prune returns, the oldest timestamp and the cache period it reports are also those
of the sequential store. -/
theorem C141_reports_partial {cfg : Config} (hc : 1 ≤ cfg.maxPerSource) {evs : List Ev} {s s' : Conc}
    (h : CRun cfg evs s) (hx : PrunesAlone evs) {i : Nat} (hrun : PruneRunning evs i) (hs : CStep s [.ret i] s') :
    ∃ S, Replay cfg (evs ++ [.ret i]) S ∧ s'.g.oldest = S.g.oldest ∧ s'.g.cachePeriod = S.g.cachePeriod := by
  obtain ⟨S, hR, -, h1, h2⟩ := alone_return hc h hx hrun hs
  exact ⟨S, hR, h1, h2⟩

theorem quiet_alone : PrunesAlone quietEvents := by
  intro pre post he i hr j c hw
  have hpre : pre = quietEvents.take pre.length := by rw [he]; simp
  have hlen : pre.length ≤ 13 := by
    have := congrArg List.length he
    rw [List.length_append] at this
    have h13 : quietEvents.length = 13 := rfl
    omega
  obtain ⟨⟨n, hn⟩, hret⟩ := hr
  have hrange : 8 ≤ pre.length ∧ pre.length ≤ 9 := by
    generalize pre.length = m at hpre hlen
    subst hpre
    have hm : m = 0 ∨ m = 1 ∨ m = 2 ∨ m = 3 ∨ m = 4 ∨ m = 5 ∨ m = 6 ∨ m = 7 ∨ m = 8 ∨ m = 9 ∨ m = 10 ∨ m = 11 ∨ m = 12 ∨
      m = 13 := by omega
    rcases hm with rfl | rfl | rfl | rfl | rfl | rfl | rfl | rfl | rfl | rfl | rfl | rfl | rfl | rfl <;>
      simp [quietEvents] at hn hret ⊢ <;> simp [hn.1] at hret
  have hcall : Ev.call j c ∈ pre := mem_of_eventsOf hw (by simp)
  generalize pre.length = m at hpre hrange
  subst hpre
  have hm : m = 8 ∨ m = 9 := by omega
  rcases hm with rfl | rfl <;> simp [quietEvents] at hcall <;>
    rcases hcall with ⟨rfl, rfl⟩ | ⟨rfl, rfl⟩ | ⟨rfl, rfl⟩ <;> simp [eventsOf, quietEvents, evId] at hw

/-- Two Puts, a prune that drops a source, a read. -/
example : ∃ evs s, CRun five evs s ∧ PrunesAlone evs ∧ s.crashed = false ∧ (∀ i, ¬ PruneRunning evs i) ∧
    (∃ i, Ev.dropped i srcA ∈ evs) ∧ storedAt s srcA = [] ∧ storedAt s srcB ≠ [] := by
  refine ⟨_, _, quiet_run, quiet_alone, by decide +kernel, ?_, ⟨2, by simp [quietEvents]⟩, by decide +kernel,
    by decide +kernel⟩
  rintro i ⟨⟨n, hn⟩, hr⟩
  simp [quietEvents] at hn hr
  exact hr.2.2.1 hn.1

theorem quiet_prefix : PrunesAlone (quietEvents.take 9) := by
  have h : quietEvents.take 9 ++ quietEvents.drop 9 = quietEvents := rfl
  exact prunesAlone_left (evs' := quietEvents.drop 9) (h ▸ quiet_alone)

/-- The prune of that run returns. -/
example : ∃ evs s s' i, CRun five evs s ∧ PrunesAlone evs ∧ PruneRunning evs i ∧ CStep s [.ret i] s' ∧
    s.g.oldest = 1 ∧ s'.g.oldest = 2 := by
  have hms : (execRun five (quietMoves.take 14)).1 = quietEvents.take 9 := by rfl
  refine ⟨quietEvents.take 9, (execRun five (quietMoves.take 14)).2, _, 2, exec_run hms, quiet_prefix, ⟨⟨1, by simp [quietEvents]⟩, by simp [quietEvents]⟩,
    .pruneEnd (h := [⟨2, srcB⟩]) (ptrs := [(srcA, 0), (srcB, 1)]) 10 (by rfl) (by rfl), by decide +kernel, by decide +kernel⟩

end LogCache
