import Verif.Proof.ConcExec
import Verif.Proof.Witness
import Verif.Spec.Read
/-!
# C20–C23, C94, C95: the store under every schedule

`CRun cfg evs s`: some schedule of the lock-protected steps of any number of calls
leads to `s`; `evs` is what happened, in order.  Each theorem holds for all of them.
-/
namespace LogCache
open Spec

/-! ## The runs used as witnesses -/

def srcA : Str := "a".toList
def srcB : Str := "b".toList

/-- A Put that runs without interruption. -/
def putMoves (i : Nat) (src : Str) (t : Int) : List Move := [.call (.put src (logAt t)), .go i, .go i, .go i]

/-- One envelope each for `a` and `b`. -/
def twoPuts : List Move := putMoves 0 srcA 1 ++ putMoves 1 srcB 2

/-- A prune of one envelope that runs without interruption, `ks` being the sources. -/
def pruneMoves (i : Nat) (ks : List Str) : List Move :=
  .call .prune :: .go i :: ks.map (.visit i) ++ [.rangeEnd i, .go i, .go i]

def five : Config := { maxPerSource := 5 }

theorem exec_run {ms : List Move} {evs : List Ev} (h : (execRun five ms).1 = evs) : CRun five evs (execRun five ms).2 :=
  h ▸ execRun_sound five ms

/-! ## C20 -/

/-- The envelopes stored, the number of envelopes, and the expiry, size and egress
metrics are those of the sequential store that executes the Puts and Gets in the order
in which they took effect. -/
theorem C20_linearizable {cfg : Config} (hc : 1 ≤ cfg.maxPerSource) {evs : List Ev} {s : Conc}
    (h : CRun cfg evs s) (hn : NoPruning evs) :
    ∃ S, Run (newStore cfg) (seqOps evs) S ∧ (∀ src, storedAt s src = S.entries src) ∧
      s.g.count = S.g.count ∧ s.g.expired = S.g.expired ∧ s.g.storeSize = S.g.storeSize ∧
      s.g.egress = S.g.egress := by
  obtain ⟨S, hR, hl⟩ := crun_lin hc h hn
  refine ⟨S, hR, ?_, hl.count, hl.expired, hl.size, hl.egress⟩
  intro src
  unfold storedAt Store.entries
  cases hx : s.index.lookup src with
  | none => rw [hl.none src hx]
  | some a =>
    obtain ⟨o, ho, hst⟩ := hl.look src a hx
    simp only
    rw [ho]
    simp only
    rw [hst]
    unfold getOrInit
    cases idxLoad S.index src <;> rfl

/-- A Get answers as the sequential store does after the Puts and Gets that took
effect before it. -/
theorem C20_reads {cfg : Config} (hc : 1 ≤ cfg.maxPerSource) {evs : List Ev} {s : Conc}
    (h : CRun cfg evs s) (hn : NoPruning evs) {pre post : List Ev} {i : Nat} {src : Str} {a : GetArgs}
    {res : List Envelope} (he : evs = pre ++ Ev.read i src a res :: post) :
    ∃ S, Run (newStore cfg) (seqOps pre) S ∧ get S src a = some res := by
  obtain ⟨evs0, es1, es2, s0, s1, hr, hs, hp⟩ := crun_split h he
  obtain rfl : es1 = [] := by
    generalize hx : es1 ++ Ev.read i src a res :: es2 = x at hs
    cases hs <;> (cases es1 with
      | nil => rfl
      | cons a t => (cases t with
        | nil => simp_all
        | cons b u => simp_all))
  rw [List.append_nil] at hp; subst hp
  have hn0 : NoPruning pre := noPruning_left (evs' := Ev.read i src a res :: post) (by rw [← he]; exact hn)
  obtain ⟨S, hR, hl⟩ := crun_lin hc hr hn0
  have hd := crun_dinv hc hr
  refine ⟨S, hR, ?_⟩
  generalize hx : [] ++ Ev.read i src a res :: es2 = x at hs
  cases hs <;> simp at hx
  case getMiss =>
    rename_i ht hx' hcr
    obtain ⟨⟨rfl, rfl, rfl, rfl⟩, rfl⟩ := hx
    unfold get; rw [hl.none _ hx']
  case getRead =>
    rename_i b st res' ht ho hg hcr
    obtain ⟨⟨rfl, rfl, rfl, rfl⟩, rfl⟩ := hx
    rcases hd _ _ ht with hlk | hdr
    · obtain ⟨o, ho', hst⟩ := hl.look _ _ hlk
      rw [ho] at ho'; cases ho'
      simp only at hst
      rw [get_getOrInit, ← hst]; exact hg
    · exact absurd hdr (not_droppedSince hr hn0 _ _)

/-- The order in which calls take effect respects the order in which they are made and
return: a call takes effect once, after it was made and before it returns.  This holds
with prunes too. -/
theorem C20_history {cfg : Config} {evs : List Ev} {s : Conc} (h : CRun cfg evs s) (i : Nat) :
    CallHistory i (eventsOf i evs) := crun_history h i

/-- Two Puts to one source and a Get, interleaved. -/
example : ∃ evs s, CRun five evs s ∧ NoPruning evs ∧
    (∃ i a, Ev.read i srcA a [logAt 1] ∈ evs) ∧ (storedAt s srcA).length = 2 ∧ s.g.egress = 1 := by
  refine ⟨_, _, execRun_sound five [.call (.put srcA (logAt 1)), .call (.put srcA (logAt 2)), .go 0, .go 1, .go 0,
    .call (.get srcA { start := 0, stop := 9, limit := 5 }), .go 2, .go 0, .go 2, .go 1, .go 1], ?_,
    ⟨2, { start := 0, stop := 9, limit := 5 }, ?_⟩, by decide +kernel, by decide +kernel⟩
  · intro i n hm
    replace hm : Ev.pruning i n ∈ [.call 0 (.put srcA (logAt 1)), .call 1 (.put srcA (logAt 2)),
      .commit 0 srcA (logAt 1) 10, .call 2 (.get srcA { start := 0, stop := 9, limit := 5 }), .ret 0,
      .read 2 srcA { start := 0, stop := 9, limit := 5 } [logAt 1], .ret 2, .commit 1 srcA (logAt 2) 10, .ret 1] := hm
    simp at hm
  · show _ ∈ [.call 0 (.put srcA (logAt 1)), .call 1 (.put srcA (logAt 2)),
      .commit 0 srcA (logAt 1) 10, .call 2 (.get srcA { start := 0, stop := 9, limit := 5 }), .ret 0,
      .read 2 srcA { start := 0, stop := 9, limit := 5 } [logAt 1], .ret 2, .commit 1 srcA (logAt 2) 10, Ev.ret 1]
    simp

/-! ## C01 and C02 under every schedule, prunes included -/

/-- No source ever holds more than the configured number of envelopes. -/
theorem C01_cap_concurrent {cfg : Config} (hc : 1 ≤ cfg.maxPerSource) {evs : List Ev} {s : Conc}
    (h : CRun cfg evs s) (src : Str) : ((storedAt s src).length : Int) ≤ cfg.maxPerSource := by
  have hi := crun_inv hc h
  unfold storedAt
  cases s.index.lookup src with
  | none => simp; omega
  | some a =>
    simp only
    cases ho : s.heap[a]? with
    | none => simp; omega
    | some o => simp only; rw [← crun_cfg h]; exact (hi.objs a o ho).cap

/-- Every envelope a Get answers with was put under that source and took effect before,
lies in the window and passes the filters. -/
theorem C02_read_sound_concurrent {cfg : Config} (hc : 1 ≤ cfg.maxPerSource) {evs : List Ev} {s : Conc}
    (h : CRun cfg evs s) {pre post : List Ev} {i : Nat} {src : Str} {a : GetArgs} {res : List Envelope}
    (he : evs = pre ++ Ev.read i src a res :: post) {e : Envelope} (hm : e ∈ res) :
    ∃ o j now, Ev.commit j src o now ∈ pre ∧ a.start ≤ e.timestamp ∧ e.timestamp < a.stop ∧
      project a.nameFilter o = some e ∧ typeOk a.types e = true := by
  obtain ⟨t, hg, -, horig⟩ := read_sound hc h he
  have hsub := getTree_sound t a res hg
  have hm := hsub.subset hm
  unfold GetArgs.answer answer at hm
  obtain ⟨hm, hty⟩ := List.mem_filter.1 hm
  obtain ⟨o, ho, hp⟩ := List.mem_filterMap.1 hm
  obtain ⟨ho, hw⟩ := List.mem_filter.1 ho
  have ho' : o ∈ t.envs := by
    unfold walkOrder at ho; split at ho
    · exact List.mem_reverse.1 ho
    · exact ho
  obtain ⟨x, hx, rfl⟩ := List.mem_map.1 ho'
  obtain ⟨j, now, hc⟩ := horig x hx
  have hts : e.timestamp = x.2.timestamp := by
    unfold project at hp
    split at hp
    · cases hp; rfl
    · split at hp
      · simp only [Option.some.injEq] at hp
        rw [← hp]; unfold restrict; split <;> rfl
      · cases hp
  simp only [inWindow, Bool.and_eq_true, decide_eq_true_eq] at hw
  exact ⟨x.2, j, now, hc, by omega, by omega, hp, hty⟩

/-! ## C21 -/

/-- `a` and `b` hold an envelope each; a Put has created the storage of `c` but not
inserted into it; the prune meets it. -/
theorem C21_false : ∃ evs s, CRun five evs s ∧ KnownTypes evs ∧ Ev.panic 3 (.emptySource "c".toList) ∈ evs ∧
    s.crashed = true := by
  refine ⟨_, _, execRun_sound five (twoPuts ++ [.call (.put "c".toList (logAt 3)), .go 2, .call .prune, .go 3,
    .visit 3 "c".toList]), ?_, ?_, by decide +kernel⟩
  · intro i src a hm
    replace hm : Ev.call i (.get src a) ∈ [.call 0 (.put srcA (logAt 1)), .commit 0 srcA (logAt 1) 10, .ret 0,
      .call 1 (.put srcB (logAt 2)), .commit 1 srcB (logAt 2) 10, .ret 1, .call 2 (.put "c".toList (logAt 3)),
      .call 3 .prune, .pruning 3 1, .panic 3 (.emptySource "c".toList)] := hm
    simp at hm
  · show _ ∈ [.call 0 (.put srcA (logAt 1)), .commit 0 srcA (logAt 1) 10, .ret 0,
      .call 1 (.put srcB (logAt 2)), .commit 1 srcB (logAt 2) 10, .ret 1, .call 2 (.put "c".toList (logAt 3)),
      .call 3 .prune, .pruning 3 1, Ev.panic 3 (.emptySource "c".toList)]
    simp

/-- Two Puts to `a` take effect after a prune has dropped `a`: the count never comes
down again, and two prunes later the heap runs empty. -/
theorem C21_leak_false : ∃ evs s, CRun five evs s ∧ Ev.panic 6 .emptyHeap ∈ evs ∧ s.crashed = true ∧
    reachable s = 0 ∧ s.g.count = 2 := by
  refine ⟨_, _, execRun_sound five (twoPuts ++ [.call (.put srcA (logAt 3)), .go 2, .call (.put srcA (logAt 4)), .go 3]
    ++ pruneMoves 4 [srcA, srcB] ++ [.go 2, .go 2, .go 3, .go 3] ++ pruneMoves 5 [srcB]
    ++ [.call .prune, .go 6, .rangeEnd 6, .go 6]), ?_, by decide +kernel, by decide +kernel, by decide +kernel⟩
  show _ ∈ [.call 0 (.put srcA (logAt 1)), .commit 0 srcA (logAt 1) 10, .ret 0,
    .call 1 (.put srcB (logAt 2)), .commit 1 srcB (logAt 2) 10, .ret 1, .call 2 (.put srcA (logAt 3)),
    .call 3 (.put srcA (logAt 4)), .call 4 .prune, .pruning 4 1, .dropped 4 srcA, .ret 4,
    .commit 2 srcA (logAt 3) 10, .ret 2, .commit 3 srcA (logAt 4) 10, .ret 3, .call 5 .prune, .pruning 5 1,
    .dropped 5 srcB, .ret 5, .call 6 .prune, .pruning 6 1, Ev.panic 6 .emptyHeap]
  simp

/-- Full statement: no run crashes.  Missing: runs in which a prune removes envelopes
while a Put or Meta is in flight, see `C21_false`, `C21_leak_false`, `C23_false`. -/
theorem C21_exclusive_partial {cfg : Config} (hc : 1 ≤ cfg.maxPerSource) {evs : List Ev} {s : Conc}
    (h : CRun cfg evs s) (hx : Exclusive evs) (hsp : AllSparse cfg evs) (hk : KnownTypes evs) :
    s.crashed = false := by
  cases hcr : s.crashed with
  | false => rfl
  | true =>
    exfalso
    obtain ⟨i, why, hm⟩ := crashed_panic h hcr
    obtain ⟨-, pre, s0, he, hr, hs⟩ := panic_step h hm
    have hx0 : Exclusive pre := exclusive_left (evs' := [Ev.panic i why]) (by rw [← he]; exact hx)
    cases why with
    | emptySource k =>
      obtain ⟨h1, j, h2⟩ := emptySource_cause hc hr hs
      exact (hx0 pre [] (by simp) i h1 j).2 k h2
    | emptyHeap => exact no_emptyHeap_of_noLate hc h hsp (exclusive_noLate h hx) i hm
    | goneSource k =>
      obtain ⟨h1, h2⟩ := goneSource_cause hc hr hs
      exact (exclusive_dropped hr hx0 h2).2 h1
    | unknownType =>
      obtain ⟨src, a, h1, ts, n, h2, h3⟩ := unknownType_cause hr hs
      exact hk i src a (by rw [he]; exact List.mem_append_left _ h1) ts h2 n h3
    | noRoom => exact no_noRoom hc h i hm

/-- Without a prune that finds something to remove nothing crashes. -/
theorem C21_no_pruning_partial {cfg : Config} (hc : 1 ≤ cfg.maxPerSource) {evs : List Ev} {s : Conc}
    (h : CRun cfg evs s) (hn : NoPruning evs) (hk : KnownTypes evs) : s.crashed = false := by
  cases hcr : s.crashed with
  | false => rfl
  | true =>
    exfalso
    obtain ⟨i, why, hm⟩ := crashed_panic h hcr
    obtain ⟨-, pre, s0, he, hr, hs⟩ := panic_step h hm
    have hn0 : NoPruning pre := noPruning_left (evs' := [Ev.panic i why]) (by rw [← he]; exact hn)
    have nr : ∀ j, ¬ PruneRunning pre j := fun j hj => by obtain ⟨⟨n, hn⟩, -⟩ := hj; exact hn0 j n hn
    cases why with
    | emptySource k => exact nr i (emptySource_cause hc hr hs).1
    | emptyHeap => exact nr i (emptyHeap_running hr hs)
    | goneSource k => exact not_droppedSince hr hn0 _ _ (goneSource_cause hc hr hs).2
    | unknownType =>
      obtain ⟨src, a, h1, ts, n, h2, h3⟩ := unknownType_cause hr hs
      exact hk i src a (by rw [he]; exact List.mem_append_left _ h1) ts h2 n h3
    | noRoom => exact no_noRoom hc h i hm

/-- What must have happened when the process crashes, in every run. -/
theorem C21_causes_partial {cfg : Config} (hc : 1 ≤ cfg.maxPerSource) {evs : List Ev} {s : Conc}
    (h : CRun cfg evs s) {i : Nat} {why : Panic} (hm : Ev.panic i why ∈ evs) :
    ∃ pre, evs = pre ++ [.panic i why] ∧
      match why with
      | .emptySource k => PruneRunning pre i ∧ ∃ j, PutInFlight pre j k
      | .emptyHeap => PruneRunning pre i ∧ (AllSparse cfg evs → ¬ NoLate evs)
      | .goneSource k => MetaInFlight pre i ∧ DroppedSince pre i k
      | .unknownType => ∃ src a, Ev.call i (.get src a) ∈ pre ∧ ∃ ts n, a.types = some ts ∧ EType.other n ∈ ts
      | .noRoom => False := by
  obtain ⟨-, pre, s0, he, hr, hs⟩ := panic_step h hm
  refine ⟨pre, he, ?_⟩
  cases why with
  | emptySource k => exact emptySource_cause hc hr hs
  | emptyHeap => exact ⟨emptyHeap_running hr hs, fun hsp hl => no_emptyHeap_of_noLate hc h hsp hl i hm⟩
  | goneSource k => exact goneSource_cause hc hr hs
  | unknownType => exact unknownType_cause hr hs
  | noRoom => exact no_noRoom hc h i hm

/-- The events of a run in which a prune runs alone, then a Get. -/
def quietEvents : List Ev :=
  [.call 0 (.put srcA (logAt 1)), .commit 0 srcA (logAt 1) 10, .ret 0,
    .call 1 (.put srcB (logAt 2)), .commit 1 srcB (logAt 2) 10, .ret 1, .call 2 .prune, .pruning 2 1,
    .dropped 2 srcA, .ret 2, .call 3 (.get srcB { start := 0, stop := 9, limit := 5 }),
    .read 3 srcB { start := 0, stop := 9, limit := 5 } [logAt 2], .ret 3]

def quietMoves : List Move := twoPuts ++ pruneMoves 2 [srcA, srcB] ++
  [.call (.get srcB { start := 0, stop := 9, limit := 5 }), .go 3, .go 3]

theorem quiet_run : CRun five quietEvents (execRun five quietMoves).2 := by
  have h := execRun_sound five quietMoves
  have he : (execRun five quietMoves).1 = quietEvents := rfl
  rw [he] at h; exact h

theorem quiet_exclusive : Exclusive quietEvents := by
  intro pre post he i hr j
  have hpre : pre = quietEvents.take pre.length := by rw [he]; simp
  have hlen : pre.length ≤ 13 := by
    have := congrArg List.length he
    rw [List.length_append] at this
    have h13 : quietEvents.length = 13 := rfl
    omega
  obtain ⟨⟨n, hn⟩, hret⟩ := hr
  have hrange : 8 ≤ pre.length ∧ pre.length ≤ 9 := by
    generalize pre.length = m at hpre hlen
    subst hpre
    have hm : m = 0 ∨ m = 1 ∨ m = 2 ∨ m = 3 ∨ m = 4 ∨ m = 5 ∨ m = 6 ∨ m = 7 ∨ m = 8 ∨ m = 9 ∨ m = 10 ∨ m = 11 ∨ m = 12 ∨
      m = 13 := by omega
    rcases hm with rfl | rfl | rfl | rfl | rfl | rfl | rfl | rfl | rfl | rfl | rfl | rfl | rfl | rfl <;>
      simp [quietEvents] at hn hret ⊢ <;> simp [hn.1] at hret
  have hcall : ∀ c, Ev.call j c ∈ pre → (j = 0 ∨ j = 1) ∨ c = .prune := by
    intro c hc
    generalize pre.length = m at hpre hrange
    subst hpre
    have hm : m = 8 ∨ m = 9 := by omega
    rcases hm with rfl | rfl <;> simp [quietEvents] at hc <;> grind
  constructor
  · intro hmeta
    rcases hcall .metaAll (mem_of_eventsOf hmeta (by simp)) with h | h
    · generalize pre.length = m at hpre hrange
      subst hpre
      have hm : m = 8 ∨ m = 9 := by omega
      rcases hm with rfl | rfl <;> rcases h with rfl | rfl <;> simp [MetaInFlight, eventsOf, quietEvents, evId] at hmeta
    · cases h
  · rintro src ⟨e, hput⟩
    rcases hcall (.put src e) (mem_of_eventsOf hput (by simp)) with h | h
    · generalize pre.length = m at hpre hrange
      subst hpre
      have hm : m = 8 ∨ m = 9 := by omega
      rcases hm with rfl | rfl <;> rcases h with rfl | rfl <;> simp [eventsOf, quietEvents, evId] at hput
    · cases h

theorem quiet_sparse : AllSparse five quietEvents := by
  intro src e he
  have h1 : (putsOf (seqOps quietEvents) src).length ≤ (seqOps quietEvents).length :=
    List.length_filterMap_le _ _
  have h2 : (seqOps quietEvents).length = 3 := rfl
  refine Nat.le_trans (List.length_filter_le _ _) ?_
  have : five.maxFudge = 4000 := rfl
  omega

/-- The hypotheses of `C21_exclusive_partial` are met by a run that prunes. -/
example : ∃ evs s, CRun five evs s ∧ Exclusive evs ∧ AllSparse five evs ∧ KnownTypes evs ∧
    (∃ i, Ev.dropped i srcA ∈ evs) ∧ storedAt s srcB ≠ [] := by
  refine ⟨_, _, quiet_run, quiet_exclusive, quiet_sparse, ?_, ⟨2, by simp [quietEvents]⟩, by decide +kernel⟩
  intro i src a hm ts hts n
  simp [quietEvents] at hm
  obtain ⟨-, -, rfl⟩ := hm
  cases hts

/-! ## C22 -/

/-- A Put to `a` looks the storage up, a prune drops `a` and ends, the Put inserts into
the dropped storage and returns: nobody will ever read the envelope. -/
theorem C22_false : ∃ pre post i src e now s, CRun five (pre ++ Ev.commit i src e now :: post) s ∧
    Ev.ret i ∈ post ∧ (∀ j n, Ev.pruning j n ∈ pre → Ev.ret j ∈ pre) ∧ (∀ j n, Ev.pruning j n ∉ post) ∧
    (∀ j e' now', Ev.commit j src e' now' ∉ post) ∧ storedAt s src = [] := by
  refine ⟨[.call 0 (.put srcA (logAt 1)), .commit 0 srcA (logAt 1) 10, .ret 0,
    .call 1 (.put srcB (logAt 2)), .commit 1 srcB (logAt 2) 10, .ret 1, .call 2 (.put srcA (logAt 3)),
    .call 3 .prune, .pruning 3 1, .dropped 3 srcA, .ret 3], [.ret 2], 2, srcA, logAt 3, 10, _,
    exec_run (ms := twoPuts ++ [.call (.put srcA (logAt 3)), .go 2] ++ pruneMoves 3 [srcA, srcB] ++ [.go 2, .go 2]) rfl,
    ?_, ?_, ?_, ?_, by decide +kernel⟩ <;> simp

/-- Full statement: from the moment a Put has taken effect, reads of the source find
the envelope until it is evicted by further Puts or removed by a prune.  Missing: Puts
whose source a prune has dropped since they were made, see `C22_false`. -/
theorem C22_stays_partial {cfg : Config} (hc : 1 ≤ cfg.maxPerSource) {pre post : List Ev} {i : Nat} {src : Str}
    {e : Envelope} {now : Int} {s : Conc} (h : CRun cfg (pre ++ Ev.commit i src e now :: post) s)
    (hd : ¬ DroppedSince pre i src) (hncommit : ∀ j e' now', Ev.commit j src e' now' ∉ post)
    (hnp : ∀ p q, post = p ++ q → ∀ j, ¬ PruneRunning (pre ++ Ev.commit i src e now :: p) j) :
    e ∈ (storedAt s src).map Prod.snd := commit_stays hc h rfl hd hncommit hnp

/-- A Put returns only after it has taken effect. -/
theorem C22_returned_took_effect {cfg : Config} {evs : List Ev} {s : Conc} (h : CRun cfg evs s) {i : Nat}
    {src : Str} {e : Envelope} (hcall : Ev.call i (.put src e) ∈ evs) (hret : Ev.ret i ∈ evs) :
    ∃ now, Ev.commit i src e now ∈ evs := by
  have hh := crun_history h i
  have h1 : Ev.call i (.put src e) ∈ eventsOf i evs := List.mem_filter.2 ⟨hcall, by simp [evId]⟩
  have h2 : Ev.ret i ∈ eventsOf i evs := List.mem_filter.2 ⟨hret, by simp [evId]⟩
  have key : ∀ l, CallHistory i l → Ev.call i (.put src e) ∈ l → Ev.ret i ∈ l → ∃ now, Ev.commit i src e now ∈ l := by
    intro l hl
    cases hl with
    | panicked why _ hnr => intro _ hr; simp at hr; exact absurd hr hnr
    | putDone src' e' now => intro h1 _; simp at h1; obtain ⟨rfl, rfl⟩ := h1; exact ⟨now, by simp⟩
    | _ => intro h1 h2; simp at h1 h2
  obtain ⟨now, hn⟩ := key _ hh h1 h2
  exact ⟨now, (List.mem_filter.1 hn).1⟩

example : ∃ pre i src e now post s, CRun five (pre ++ Ev.commit i src e now :: post) s ∧
    ¬ DroppedSince pre i src ∧ (∀ j e' now', Ev.commit j src e' now' ∉ post) ∧
    (∀ p q, post = p ++ q → ∀ j, ¬ PruneRunning (pre ++ Ev.commit i src e now :: p) j) ∧ post.length = 4 := by
  refine ⟨[.call 0 (.put srcA (logAt 1))], 0, srcA, logAt 1, 10, [.ret 0, .call 1 (.put srcB (logAt 2)),
    .commit 1 srcB (logAt 2) 10, .ret 1], _, execRun_sound five twoPuts, ?_, ?_, ?_, rfl⟩
  · rintro ⟨j, hj⟩; simp [since] at hj
  · intro j e' now'; simp [srcA, srcB]
  · rintro p q hpq j ⟨⟨n, hn⟩, -⟩
    have : Ev.pruning j n ∈ [.ret 0, .call 1 (.put srcB (logAt 2)), .commit 1 srcB (logAt 2) 10, Ev.ret 1] := by
      rw [hpq]; simp at hn ⊢; exact .inl hn
    simp at this

/-! ## C23 -/

/-- Meta has copied the entries of `a` and `b`; a prune drops `a`; Meta looks it up. -/
theorem C23_false : ∃ evs s, CRun five evs s ∧ Ev.panic 2 (.goneSource srcA) ∈ evs ∧ s.crashed = true := by
  refine ⟨_, _, execRun_sound five (twoPuts ++ [.call .metaAll, .go 2, .visit 2 srcA, .visit 2 srcB, .rangeEnd 2]
    ++ pruneMoves 3 [srcA, srcB] ++ [.go 2]), ?_, by decide +kernel⟩
  show _ ∈ [.call 0 (.put srcA (logAt 1)), .commit 0 srcA (logAt 1) 10, .ret 0,
    .call 1 (.put srcB (logAt 2)), .commit 1 srcB (logAt 2) 10, .ret 1, .call 2 .metaAll,
    .call 3 .prune, .pruning 3 1, .dropped 3 srcA, .ret 3, Ev.panic 2 (.goneSource srcA)]
  simp

/-- Full statement: no Meta panics.  Missing: runs in which a prune drops a source while
the Meta is in flight, see `C23_false`. -/
theorem C23_meta_partial {cfg : Config} (hc : 1 ≤ cfg.maxPerSource) {evs : List Ev} {s : Conc} (h : CRun cfg evs s)
    {i : Nat} (hcall : Ev.call i .metaAll ∈ evs) (hnd : ∀ src, ¬ DroppedSince evs i src) (why : Panic) :
    Ev.panic i why ∉ evs := by
  intro hm
  obtain ⟨-, pre, s0, rfl, hr, hs⟩ := panic_step h hm
  replace hcall : Ev.call i .metaAll ∈ pre := by
    rcases List.mem_append.1 hcall with h | h
    · exact h
    · simp at h
  have hp := crun_pinv hr (step_alive hs)
  have hev : Ev.call i .metaAll ∈ eventsOf i pre := List.mem_filter.2 ⟨hcall, by simp [evId]⟩
  have hgone : ∀ k, why = .goneSource k → False := by
    rintro k rfl
    exact hnd k (droppedSince_mono (evs' := [Ev.panic i (.goneSource k)]) hcall (goneSource_cause hc hr hs).2)
  generalize hx : [Ev.panic i why] = x at hs
  cases hs <;> simp at hx
  case putCrash ht ho hi hcr => obtain ⟨rfl, rfl⟩ := hx; have := hp.tr _ _ ht; simp only [ThreadTrace] at this; rw [this] at hev; simp at hev
  case getCrash ht ho hi hcr => obtain ⟨rfl, rfl⟩ := hx; have := hp.tr _ _ ht; simp only [ThreadTrace] at this; rw [this] at hev; simp at hev
  case metaCrash => obtain ⟨rfl, rfl⟩ := hx; exact hgone _ rfl
  case pruneVisitCrash ht hk hn ho hl hcr =>
    obtain ⟨rfl, rfl⟩ := hx
    obtain ⟨n, he⟩ := hp.tr _ _ ht
    rw [he] at hev; simp at hev
  case prunePopCrash ht hpop hcr =>
    obtain ⟨rfl, rfl⟩ := hx
    obtain ⟨n, ds, he⟩ := hp.tr _ _ ht
    rw [he] at hev; simp at hev

example : ∃ evs s, CRun five evs s ∧ Ev.call 2 .metaAll ∈ evs ∧ (∀ src, ¬ DroppedSince evs 2 src) ∧
    Ev.metaRes 2 [(srcA, { count := 1, oldest := 1, newest := 1 }), (srcB, { count := 1, oldest := 2, newest := 2 })] ∈ evs := by
  refine ⟨[.call 0 (.put srcA (logAt 1)), .commit 0 srcA (logAt 1) 10, .ret 0,
    .call 1 (.put srcB (logAt 2)), .commit 1 srcB (logAt 2) 10, .ret 1, .call 2 .metaAll,
    .metaRes 2 [(srcA, { count := 1, oldest := 1, newest := 1 }), (srcB, { count := 1, oldest := 2, newest := 2 })],
    .ret 2], _, exec_run (ms := twoPuts ++ [.call .metaAll, .go 2, .visit 2 srcA, .visit 2 srcB, .rangeEnd 2,
      .go 2, .go 2, .go 2]) rfl, by simp, ?_, by simp⟩
  rintro src ⟨j, hj⟩
  simp [since] at hj

/-! ## C94: the count -/

/-- A Put that takes effect after its source was dropped counts, though nothing can
reach its envelope: afterwards the reported store size is wrong. -/
theorem C94_count_false : ∃ evs s, CRun five evs s ∧ s.threads.all (fun t => match t with | .done => true | _ => false) = true ∧
    s.g.count = 2 ∧ s.g.storeSize = 2 ∧ reachable s = 1 :=
  ⟨_, _, execRun_sound five (twoPuts ++ [.call (.put srcA (logAt 3)), .go 2] ++ pruneMoves 3 [srcA, srcB] ++ [.go 2, .go 2]),
    by decide +kernel, by decide +kernel, by decide +kernel, by decide +kernel⟩

/-- Full statement: the count is the number of envelopes Gets can reach.  Missing: runs
in which a Put takes effect after its source was dropped (`C94_count_false`), and
crowded Puts (`C15_store_size_false`). -/
theorem C94_count_partial {cfg : Config} (hc : 1 ≤ cfg.maxPerSource) {evs : List Ev} {s : Conc} (h : CRun cfg evs s)
    (hsp : AllSparse cfg evs) (hl : NoLate evs) : s.g.count = reachable s := by
  rw [reachable_eq (crun_inv hc h)]
  exact (crun_count hc h hsp hl).1

example : ∃ evs s, CRun five evs s ∧ AllSparse five evs ∧ NoLate evs ∧ s.g.count = 1 ∧ s.g.expired = 1 :=
  ⟨_, _, quiet_run, quiet_sparse, exclusive_noLate quiet_run quiet_exclusive, by decide +kernel, by decide +kernel⟩

/-! ## C95: the cache period -/

theorem perm_pair {α : Type} {l : List α} {x y : α} (h : l.Perm [x, y]) : l = [x, y] ∨ l = [y, x] := by
  match l, h with
  | [], h => have := h.length_eq; simp at this
  | [_], h => have := h.length_eq; simp at this
  | [u, v], h =>
    have hu : u = x ∨ u = y := by simpa using h.mem_iff.1 (List.mem_cons_self (a := u))
    rcases hu with rfl | rfl
    · have := h.cons_inv; rw [List.singleton_perm_singleton] at this; exact .inl (by rw [this])
    · have := (h.trans (List.Perm.swap _ _ _)).cons_inv
      rw [List.singleton_perm_singleton] at this; exact .inr (by rw [this])
  | _ :: _ :: _ :: _, h => have := h.length_eq; simp at this

theorem execAll_append (st : Store) (ops ops' : List Op) :
    execAll st (ops ++ ops') = (execAll st ops).bind fun st' => execAll st' ops' := by
  induction ops generalizing st with
  | nil => rfl
  | cons op t ih =>
    simp only [List.cons_append, execAll]
    cases op.exec st with
    | none => rfl
    | some s => exact ih s

theorem run_exec {st0 st : Store} {ops : List Op} (h : Run st0 ops st) : execAll st0 ops = some st := by
  induction h with
  | nil => rfl
  | snoc _ _ hx ih => rw [execAll_append, ih]; simp [execAll, hx]

/-- Two Puts to different sources each load the oldest timestamp before the other
stores it: the newer one wins, while in every sequential order the older one does.
All calls have returned. -/
theorem C95_oldest_false : ∃ evs s, CRun five evs s ∧ NoPruning evs ∧
    s.threads.all (fun t => match t with | .done => true | _ => false) = true ∧
    s.g.oldest = 2 ∧ storedAt s srcA = [(1, logAt 1)] ∧
    ∀ ops S, ops.Perm (seqOps evs) → Run (newStore five) ops S → S.g.oldest = 1 := by
  refine ⟨[.call 0 (.put srcA (logAt 1)), .call 1 (.put srcB (logAt 2)), .commit 0 srcA (logAt 1) 10,
    .commit 1 srcB (logAt 2) 10, .ret 0, .ret 1], _,
    execRun_sound five [.call (.put srcA (logAt 1)), .call (.put srcB (logAt 2)), .go 0, .go 1, .go 0, .go 1, .go 0, .go 1],
    ?_, by decide +kernel, by decide +kernel, by decide +kernel, ?_⟩
  · intro i n hm; simp at hm
  · intro ops S hp hr
    have hp : ops.Perm [Op.put 10 srcA (logAt 1), Op.put 10 srcB (logAt 2)] := hp
    have hops : ops = [Op.put 10 srcA (logAt 1), Op.put 10 srcB (logAt 2)] ∨
        ops = [Op.put 10 srcB (logAt 2), Op.put 10 srcA (logAt 1)] := by
      exact perm_pair hp
    have hx := run_exec hr
    rcases hops with rfl | rfl
    · have : (execAll (newStore five) [Op.put 10 srcA (logAt 1), Op.put 10 srcB (logAt 2)]).map (fun st => st.g.oldest)
        = some 1 := by decide +kernel
      rw [hx] at this; simpa using this
    · have : (execAll (newStore five) [Op.put 10 srcB (logAt 2), Op.put 10 srcA (logAt 1)]).map (fun st => st.g.oldest)
        = some 1 := by decide +kernel
      rw [hx] at this; simpa using this

end LogCache
