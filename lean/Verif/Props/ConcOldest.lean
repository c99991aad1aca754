import Verif.Props.Conc
/-!
# C95: what is true of the oldest timestamp under concurrency
-/
namespace LogCache
open Spec

theorem insertOrSwap_oldest {cfg : Config} {now : Int} {g g' : Globals} {s s' : Storage} {e : Envelope}
    (h : insertOrSwap cfg now g s e = some (g', s')) :
    g'.oldest = (if s'.info.oldest < g.oldest then s'.info.oldest else g.oldest) ∧
      g'.cachePeriod = calculateCachePeriod now g'.oldest := by
  unfold insertOrSwap at h
  simp only at h
  by_cases hfull : (s.tree.size : Int) ≥ cfg.maxPerSource
  · simp only [if_pos hfull] at h
    cases hl : s.tree.left with
    | none => rw [hl] at h; cases h
    | some p =>
      obtain ⟨k, v⟩ := p
      rw [hl] at h
      simp only at h
      generalize Tree.put _ e (Tree.remove k s.tree) = tr at h
      cases hl2 : tr.left with
      | none => rw [hl2] at h; cases h
      | some q => obtain ⟨o, w⟩ := q; rw [hl2] at h; cases h; exact ⟨rfl, rfl⟩
  · simp only [if_neg hfull] at h
    generalize Tree.put _ e s.tree = tr at h
    cases hl2 : tr.left with
    | none => rw [hl2] at h; cases h
    | some q => obtain ⟨o, w⟩ := q; rw [hl2] at h; cases h; exact ⟨rfl, rfl⟩

/-- What the two metrics see of one step. -/
inductive OldestStep (s s' : Conc) (S S' : Store) : List Ev → Prop where
  | commit (i : Nat) (src : Str) (e : Envelope) (now : Int) (a : Nat) (o : Int)
      (h1 : s'.threads = s.threads.set i (.put3 a o s.g.oldest now)) (h2 : i < s.threads.length)
      (h3 : s'.g.oldest = s.g.oldest) (h4 : s'.g.cachePeriod = s.g.cachePeriod)
      (h5 : S'.g.oldest = if o < S.g.oldest then o else S.g.oldest)
      (h6 : S'.g.cachePeriod = calculateCachePeriod now S'.g.oldest) :
      OldestStep s s' S S' [.commit i src e now]
  | finish (i a : Nat) (o l now : Int)
      (h1 : s.threads[i]? = some (.put3 a o l now)) (h2 : s'.threads = s.threads.set i .done)
      (h3 : s'.g.oldest = if o < l then o else s.g.oldest)
      (h4 : s'.g.cachePeriod = calculateCachePeriod now (if o < l then o else l))
      (h5 : S'.g.oldest = S.g.oldest) (h6 : S'.g.cachePeriod = S.g.cachePeriod) :
      OldestStep s s' S S' [.ret i]
  | other {evs : List Ev}
      (h1 : ∀ (j a : Nat) (o l n : Int), s'.threads[j]? = some (.put3 a o l n) → s.threads[j]? = some (.put3 a o l n))
      (h2 : ∀ (j a : Nat) (o l n : Int), s.threads[j]? = some (.put3 a o l n) → s'.threads[j]? = some (.put3 a o l n))
      (h3 : s'.g.oldest = s.g.oldest) (h4 : s'.g.cachePeriod = s.g.cachePeriod)
      (h5 : S'.g.oldest = S.g.oldest) (h6 : S'.g.cachePeriod = S.g.cachePeriod) :
      OldestStep s s' S S' evs

def Thread.isPut3 : Thread → Bool
  | .put3 .. => true
  | _ => false

theorem put3_keep {ts : List Thread} {i : Nat} {t t' : Thread} (ht : ts[i]? = some t)
    (h1 : t.isPut3 = false) (h2 : t'.isPut3 = false) (j : Nat) (a : Nat) (o l n : Int) :
    (ts.set i t')[j]? = some (.put3 a o l n) ↔ ts[j]? = some (.put3 a o l n) := by
  by_cases hij : i = j
  · subst hij
    rw [List.getElem?_set_self (List.getElem?_eq_some_iff.1 ht).1, ht]
    constructor
    · intro h; cases h; cases h2
    · intro h; cases h; cases h1
  · rw [List.getElem?_set_ne hij]

theorem getState_oldest (S : Store) (src : Str) (a : GetArgs) :
    (getState S src a).g.oldest = S.g.oldest ∧ (getState S src a).g.cachePeriod = S.g.cachePeriod := by
  unfold getState
  split
  · exact ⟨rfl, rfl⟩
  · split <;> exact ⟨rfl, rfl⟩

theorem run_next {st0 S S' : Store} {ops : List Op} {op : Op} (h : Run st0 ops S)
    (h' : Run st0 (ops ++ [op]) S') : op.exec S = some S' := by
  have h1 := run_exec h
  have h2 := run_exec h'
  rw [execAll_append, h1] at h2
  simp only [Option.bind_some, execAll] at h2
  cases hx : op.exec S with
  | none => rw [hx] at h2; cases h2
  | some T => rw [hx] at h2; simpa using h2

theorem oldest_step {cfg : Config} (hc : 1 ≤ cfg.maxPerSource) {evs evs' : List Ev} {s s' : Conc}
    {S S' : Store} (hr : CRun cfg evs s) (hn : NoPruning (evs ++ evs')) (h : Lin s S)
    (hR : Run (newStore cfg) (seqOps evs) S) (hR' : Run (newStore cfg) (seqOps (evs ++ evs')) S')
    (hs : CStep s evs' s') : OldestStep s s' S S' evs' := by
  have hp := crun_pinv hr (step_alive hs)
  have hd := crun_dinv hc hr
  have hn0 := noPruning_left hn
  have hseq : seqOps (evs ++ evs') = seqOps evs ++ seqOps evs' := by
    unfold seqOps; rw [List.filterMap_append]
  have same : seqOps evs' = [] → S' = S := by
    intro h1
    rw [hseq, h1, List.append_nil] at hR'
    exact Option.some.inj ((run_exec hR').symm.trans (run_exec hR))
  have quiet : ∀ {i : Nat} {t t' : Thread}, s.threads[i]? = some t → t.isPut3 = false → t'.isPut3 = false →
      s'.threads = s.threads.set i t' → s'.g.oldest = s.g.oldest → s'.g.cachePeriod = s.g.cachePeriod →
      seqOps evs' = [] → OldestStep s s' S S' evs' := by
    intro i t t' ht h1 h2 h3 h4 h5 h6
    rw [same h6]
    exact .other (fun j a o l n hj => (put3_keep ht h1 h2 j a o l n).1 (by rw [← h3]; exact hj))
      (fun j a o l n hj => by rw [h3]; exact (put3_keep ht h1 h2 j a o l n).2 hj) h4 h5 rfl rfl
  have crash : seqOps evs' = [] → s' = { s with crashed := true } → OldestStep s s' S S' evs' := by
    intro h6 he
    rw [same h6, he]
    exact .other (fun _ _ _ _ _ h => h) (fun _ _ _ _ _ h => h) rfl rfl rfl rfl
  have read : ∀ {i : Nat} {t t' : Thread} {src : Str} {a : GetArgs}, s.threads[i]? = some t → t.isPut3 = false →
      t'.isPut3 = false → s'.threads = s.threads.set i t' → s'.g.oldest = s.g.oldest →
      s'.g.cachePeriod = s.g.cachePeriod → seqOps evs' = [.get src a] → OldestStep s s' S S' evs' := by
    intro i t t' src a ht h1 h2 h3 h4 h5 h6
    rw [hseq, h6] at hR'
    have hx := run_next hR hR'
    have hS : S' = getState S src a := (Option.some.inj hx).symm
    have ⟨g1, g2⟩ := getState_oldest S src a
    exact .other (fun j a o l n hj => (put3_keep ht h1 h2 j a o l n).1 (by rw [← h3]; exact hj))
      (fun j a o l n hj => by rw [h3]; exact (put3_keep ht h1 h2 j a o l n).2 hj) h4 h5
      (by rw [hS]; exact g1) (by rw [hS]; exact g2)
  cases hs with
  | call c hpr hcr =>
    rw [same rfl]
    have hst : (c.start).isPut3 = false := by cases c <;> rfl
    refine .other ?_ ?_ rfl rfl rfl rfl
    · intro j a o l n hj
      have hj : (s.threads ++ [c.start])[j]? = _ := hj
      rcases Nat.lt_or_ge j s.threads.length with hlt | hge
      · rwa [List.getElem?_append_left hlt] at hj
      · rw [List.getElem?_append_right hge] at hj
        have := List.mem_of_getElem? hj
        rw [List.mem_singleton] at this
        rw [← this] at hst; cases hst
    · intro j a o l n hj
      show (s.threads ++ [c.start])[j]? = _
      rw [List.getElem?_append_left (List.getElem?_eq_some_iff.1 hj).1]; exact hj
  | @putLookup i src e ht hcr =>
    refine quiet ht rfl (t' := .put2 src (s.getOrInit src).2 e) rfl ?_ rfl rfl rfl
    unfold Conc.getOrInit
    split <;> rfl
  | @putInsert i src a e st st' g' now ht ho hins hcr =>
    have hlk := (hd i _ ht).resolve_right (not_droppedSince hr hn0 _ _)
    obtain ⟨o, ho', hos⟩ := h.look src a hlk
    rw [ho] at ho'; cases ho'
    simp only at hos
    obtain ⟨g2', h1, -⟩ := insertOrSwap_frame (g2 := { S.g with ingress := S.g.ingress + 1 })
      hins h.count.symm h.expired.symm h.size.symm
    have hput : put now S src e = some { S with index := idxStore S.index src st', g := g2' } := by
      unfold put
      simp only
      rw [← hos, h.cfg, h1]
    rw [hseq] at hR'
    have hx : put now S src e = some S' := run_next hR hR'
    rw [hput] at hx
    have hS := Option.some.inj hx
    obtain ⟨g1, g2⟩ := insertOrSwap_oldest h1
    exact .commit i src e now a st'.info.oldest rfl (List.getElem?_eq_some_iff.1 ht).1 rfl rfl
      (by rw [← hS]; exact g1) (by rw [← hS]; exact g2)
  | putCrash now ht ho hi hcr => exact crash rfl rfl
  | @putFinish i a oldest loaded now o ht ho hcr =>
    rw [same rfl]
    exact .finish i a oldest loaded now ht rfl rfl rfl rfl rfl
  | getMiss ht hx hcr => exact read ht rfl (t' := .done) rfl rfl rfl rfl rfl
  | getHit ht hx hcr => exact quiet ht rfl (t' := .get2 _ _ _) rfl rfl rfl rfl rfl
  | getRead ht ho hres hcr => exact read ht rfl (t' := .done) rfl rfl rfl rfl rfl
  | getCrash ht ho hr hcr => exact crash rfl rfl
  | metaStart ht hcr => exact quiet ht rfl (t' := .meta1 _ _) rfl rfl rfl rfl rfl
  | metaVisit ht hk hn ho hcr => exact quiet ht rfl (t' := .meta1 _ _) rfl rfl rfl rfl rfl
  | metaRangeEnd ht hall hp hcr => exact quiet ht rfl (t' := .meta2 _ _) rfl rfl rfl rfl rfl
  | metaCount ht hx ho hcr => exact quiet ht rfl (t' := .meta2 _ _) rfl rfl rfl rfl rfl
  | metaCrash ht hx hcr => exact crash rfl rfl
  | metaEnd ht hcr => exact quiet ht rfl (t' := .done) rfl rfl rfl rfl rfl
  | pruneNothing mc ht hn hcr => exact quiet ht rfl (t' := .done) rfl rfl rfl rfl rfl
  | pruneStart mc ht hnz hcr => exact absurd (List.mem_append_right evs List.mem_cons_self) (hn _ _)
  | pruneVisit ht hk hn ho hl hcr => exact absurd ht (not_prune1 hp hn0)
  | pruneVisitCrash ht hk hn ho hl hcr => exact absurd ht (not_prune1 hp hn0)
  | pruneRangeEnd ht hall hcr => exact absurd ht (not_prune1 hp hn0)
  | prunePopNone ht hpop ha ho hl hcr => exact absurd ht (not_prune2 hp hn0)
  | prunePopLast ht hpop ha ho hl hl' hcr => exact absurd ht (not_prune2 hp hn0)
  | prunePopMore ht hpop ha ho hl hl' hcr => exact absurd ht (not_prune2 hp hn0)
  | prunePopCrash ht hpop hcr => exact absurd ht (not_prune2 hp hn0)
  | pruneEnd now ht hcr => exact absurd ht (not_prune2 hp hn0)

/-- Full statement: when all Puts have returned, the oldest timestamp is the one some
sequential order produces.  Proved without any assumption on the schedule: it is never
older than that of the sequential order in which the Puts took effect (the reported
cache period is never too long).  Missing: equality (see `C95_oldest_false`), and runs
in which a prune removes something. -/
theorem C95_never_older_partial {cfg : Config} (hc : 1 ≤ cfg.maxPerSource) {evs : List Ev} {s : Conc}
    (h : CRun cfg evs s) (hn : NoPruning evs) :
    ∃ S, Run (newStore cfg) (seqOps evs) S ∧ S.g.oldest ≤ s.g.oldest := by
  suffices hg : ∃ S, Run (newStore cfg) (seqOps evs) S ∧ Lin s S ∧ S.g.oldest ≤ s.g.oldest ∧
      ∀ (j a : Nat) (o l n : Int), s.threads[j]? = some (.put3 a o l n) → S.g.oldest ≤ o by
    obtain ⟨S, h1, -, h2, -⟩ := hg
    exact ⟨S, h1, h2⟩
  induction h with
  | nil =>
    refine ⟨newStore cfg, .nil _, ⟨rfl, ?_, ?_, rfl, rfl, rfl, rfl, rfl⟩, Int.le_refl _, ?_⟩
    · intro src a h; simp at h
    · intro src _; rfl
    · intro j a o l n h; simp at h
  | step hr hs ih =>
    obtain ⟨S, hR, hl, h1, h2⟩ := ih (noPruning_left hn)
    obtain ⟨S', hR', hl'⟩ := lin_step hc hr hn hl hR hs
    refine ⟨S', hR', hl', ?_⟩
    cases oldest_step hc hr hn hl hR hR' hs with
    | commit i src e now a o g1 g2 g3 g4 g5 g6 =>
      have hle : S'.g.oldest ≤ o ∧ S'.g.oldest ≤ S.g.oldest := by rw [g5]; split <;> omega
      refine ⟨by rw [g3]; omega, ?_⟩
      intro j a' o' l' n' hj
      rw [g1] at hj
      by_cases hij : i = j
      · subst hij
        rw [List.getElem?_set_self g2] at hj
        cases hj; exact hle.1
      · rw [List.getElem?_set_ne hij] at hj
        have := h2 j a' o' l' n' hj; omega
    | finish i a o l now g1 g2 g3 g4 g5 g6 =>
      have := h2 i a o l now g1
      refine ⟨by rw [g3, g5]; split <;> omega, ?_⟩
      intro j a' o' l' n' hj
      rw [g2] at hj
      by_cases hij : i = j
      · subst hij
        rw [List.getElem?_set_self (List.getElem?_eq_some_iff.1 g1).1] at hj
        cases hj
      · rw [List.getElem?_set_ne hij] at hj
        rw [g5]; exact h2 j a' o' l' n' hj
    | other g1 g2 g3 g4 g5 g6 =>
      refine ⟨by rw [g3, g5]; exact h1, ?_⟩
      intro j a o l n hj
      rw [g5]; exact h2 j a o l n (g1 j a o l n hj)

theorem oneAtATime_left {evs evs' : List Ev} (h : OneAtATime (evs ++ evs')) : OneAtATime evs := by
  intro pre i src e now post he
  exact h pre i src e now (post ++ evs') (by rw [he]; simp)

/-- A Put between taking effect and returning shows in the events. -/
theorem put3_events {evs : List Ev} {s : Conc} (hp : PInv evs s) {j a : Nat} {o l n : Int}
    (hj : s.threads[j]? = some (.put3 a o l n)) :
    (∃ src e now, Ev.commit j src e now ∈ evs) ∧ Ev.ret j ∉ evs := by
  obtain ⟨src, e, now, ht⟩ := hp.tr j _ hj
  constructor
  · refine ⟨src, e, now, ?_⟩
    have : Ev.commit j src e now ∈ eventsOf j evs := by rw [ht]; simp
    exact (List.mem_filter.1 this).1
  · intro hm
    have : Ev.ret j ∈ eventsOf j evs := List.mem_filter.2 ⟨hm, by simp [evId]⟩
    rw [ht] at this
    simp at this

/-- Full statement: as for `C95_never_older_partial`.  Proved: equality, of the oldest
timestamp and of the cache period, when no Put takes effect between another's taking
effect and its return, whatever else overlaps.  Missing: Puts that do overlap there (then
it is false), and runs in which a prune removes something. -/
theorem C95_serial_partial {cfg : Config} (hc : 1 ≤ cfg.maxPerSource) {evs : List Ev} {s : Conc}
    (h : CRun cfg evs s) (hn : NoPruning evs) (h1 : OneAtATime evs) (hret : PutsReturned evs)
    (hcr : s.crashed = false) :
    ∃ S, Run (newStore cfg) (seqOps evs) S ∧ s.g.oldest = S.g.oldest ∧
      s.g.cachePeriod = S.g.cachePeriod := by
  suffices hg : ∃ S, Run (newStore cfg) (seqOps evs) S ∧ Lin s S ∧
      (((∀ (j a : Nat) (o l n : Int), s.threads[j]? ≠ some (.put3 a o l n)) ∧
        s.g.oldest = S.g.oldest ∧ s.g.cachePeriod = S.g.cachePeriod) ∨
      ∃ (i a : Nat) (o l n : Int), s.threads[i]? = some (.put3 a o l n) ∧
        (∀ (j a : Nat) (o l n : Int), j ≠ i → s.threads[j]? ≠ some (.put3 a o l n)) ∧
        s.g.oldest = l ∧ S.g.oldest = (if o < l then o else l) ∧
        S.g.cachePeriod = calculateCachePeriod n S.g.oldest) by
    obtain ⟨S, hR, -, hg⟩ := hg
    refine ⟨S, hR, ?_⟩
    rcases hg with ⟨-, h2, h3⟩ | ⟨i, a, o, l, n, hi, -⟩
    · exact ⟨h2, h3⟩
    · obtain ⟨⟨src, e, now, hm⟩, hnr⟩ := put3_events (crun_pinv h hcr) hi
      exact absurd (hret i src e now hm) hnr
  clear hret hcr
  induction h with
  | nil =>
    refine ⟨newStore cfg, .nil _, ⟨rfl, ?_, ?_, rfl, rfl, rfl, rfl, rfl⟩, .inl ⟨?_, rfl, rfl⟩⟩
    · intro src a h; simp at h
    · intro src _; rfl
    · intro j a o l n h; simp at h
  | @step evs evs' s s' hr hs ih =>
    obtain ⟨S, hR, hl, hQ⟩ := ih (noPruning_left hn) (oneAtATime_left h1)
    obtain ⟨S', hR', hl'⟩ := lin_step hc hr hn hl hR hs
    have hp := crun_pinv hr (step_alive hs)
    refine ⟨S', hR', hl', ?_⟩
    cases oldest_step hc hr hn hl hR hR' hs with
    | commit i src e now a o g1 g2 g3 g4 g5 g6 =>
      have hno : ∀ (j a : Nat) (o l n : Int), s.threads[j]? ≠ some (.put3 a o l n) := by
        intro j a o l n hj
        obtain ⟨⟨src', e', now', hm⟩, hnr⟩ := put3_events hp hj
        exact hnr (h1 evs i src e now [] rfl j src' e' now' hm)
      rcases hQ with ⟨-, q1, q2⟩ | ⟨i', a', o', l', n', hi, -⟩
      · refine .inr ⟨i, a, o, s.g.oldest, now, ?_, ?_, g3, by rw [g5, q1], g6⟩
        · rw [g1, List.getElem?_set_self g2]
        · intro j a' o' l' n' hj
          rw [g1, List.getElem?_set_ne (Ne.symm hj)]
          exact hno j a' o' l' n'
      · exact absurd hi (hno i' a' o' l' n')
    | finish i a o l now g1 g2 g3 g4 g5 g6 =>
      rcases hQ with ⟨q0, -⟩ | ⟨i', a', o', l', n', hi, q0, q1, q2, q3⟩
      · exact absurd g1 (q0 i a o l now)
      · have hii : i = i' := Classical.byContradiction fun hne => q0 i a o l now hne g1
        subst hii
        rw [hi] at g1
        cases g1
        refine .inl ⟨?_, by rw [g3, g5, q2, q1], by rw [g4, g6, q3, q2]⟩
        intro j a' o' l' n'
        rw [g2]
        by_cases hij : i = j
        · subst hij
          rw [List.getElem?_set_self (List.getElem?_eq_some_iff.1 hi).1]
          simp
        · rw [List.getElem?_set_ne hij]
          exact q0 j a' o' l' n' (Ne.symm hij)
    | other g1 g2 g3 g4 g5 g6 =>
      rcases hQ with ⟨q0, q1, q2⟩ | ⟨i, a, o, l, n, hi, q0, q1, q2, q3⟩
      · exact .inl ⟨fun j a o l n hj => q0 j a o l n (g1 j a o l n hj), by rw [g3, g5, q1], by rw [g4, g6, q2]⟩
      · exact .inr ⟨i, a, o, l, n, g2 i a o l n hi, fun j a o l n hne hj => q0 j a o l n hne (g1 j a o l n hj),
          by rw [g3, q1], by rw [g5, q2], by rw [g6, q3, g5]⟩

/-- The events of two Puts that both look up their source before either takes effect. -/
def serialEvents : List Ev :=
  [.call 0 (.put srcA (logAt 1)), .call 1 (.put srcB (logAt 2)), .commit 1 srcB (logAt 2) 10, .ret 1,
    .commit 0 srcA (logAt 1) 10, .ret 0]

/-- The hypotheses of `C95_serial_partial` are met by Puts that overlap. -/
example : ∃ s, CRun five serialEvents s ∧ NoPruning serialEvents ∧ OneAtATime serialEvents ∧
    PutsReturned serialEvents ∧ s.crashed = false ∧ s.g.oldest = 1 := by
  refine ⟨_, execRun_sound five [.call (.put srcA (logAt 1)), .call (.put srcB (logAt 2)), .go 0, .go 1, .go 1, .go 1,
    .go 0, .go 0], ?_, ?_, ?_, by decide +kernel, by decide +kernel⟩
  · intro i n hm; simp [serialEvents] at hm
  · intro pre i src e now post he j src' e' now' hm
    unfold serialEvents at he
    rcases pre with _ | ⟨x1, _ | ⟨x2, _ | ⟨x3, _ | ⟨x4, _ | ⟨x5, _ | ⟨x6, _ | ⟨x7, pre⟩⟩⟩⟩⟩⟩⟩ <;>
      simp at he
    · obtain ⟨rfl, rfl, -⟩ := he; simp at hm
    · obtain ⟨rfl, rfl, rfl, rfl, -⟩ := he
      simp at hm ⊢
      exact hm.1
  · intro j src e now hm
    simp [serialEvents] at hm ⊢
    rcases hm with ⟨rfl, -⟩ | ⟨rfl, -⟩ <;> simp

end LogCache
