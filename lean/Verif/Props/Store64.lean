import Verif.Model.Store64
import Verif.Props.Store

/-! # Timestamps of 64 bits (C112) -/

namespace LogCache
open Spec

/-- The store with another value of the cache period gauge. -/
def Spec.withPeriod (st : Store) (c : Int) : Store := { st with g := { st.g with cachePeriod := c } }

private theorem wrap_fits {n : Int} (h1 : -2 ^ 63 ≤ n) (h2 : n < 2 ^ 63) : wrap64 n = n := by
  unfold wrap64; omega

private theorem fudge_eq (t : Tree Envelope) (ts : Int) (h1 : -2 ^ 63 ≤ ts) : ∀ (fuel f : Nat), ts + (f + fuel : Nat) < 2 ^ 63 →
    fudgeFrom64 t ts fuel f = fudgeFrom t ts fuel f ∧ fudgeFrom t ts fuel f ≤ f + fuel := by
  intro fuel
  induction fuel with
  | zero => intro f _; exact ⟨rfl, Nat.le_refl _⟩
  | succ fuel ih =>
    intro f h
    rw [fudgeFrom64, fudgeFrom, wrap_fits (by omega) (by omega)]
    obtain ⟨h2, h3⟩ := ih (f + 1) (by omega)
    split
    · exact ⟨h2, by omega⟩
    · exact ⟨rfl, by omega⟩

private theorem insert_eq (cfg : Config) (now : Int) (g : Globals) (s : Storage) (e : Envelope) (c : Int)
    (h1 : -2 ^ 63 ≤ e.timestamp) (h2 : e.timestamp + cfg.maxFudge < 2 ^ 63) :
    insertOrSwap64 cfg now { g with cachePeriod := c } s e = (insertOrSwap cfg now g s e).map fun p =>
      ({ p.1 with cachePeriod := cachePeriod64 now p.1.oldest }, p.2) := by
  have key : ∀ t : Tree Envelope, fudgeFrom64 t e.timestamp cfg.maxFudge 0 = fudgeFrom t e.timestamp cfg.maxFudge 0 ∧
      wrap64 (e.timestamp + (fudgeFrom t e.timestamp cfg.maxFudge 0 : Nat)) = e.timestamp + (fudgeFrom t e.timestamp cfg.maxFudge 0 : Nat) := by
    intro t
    obtain ⟨h3, h4⟩ := fudge_eq t e.timestamp h1 cfg.maxFudge 0 (by omega)
    exact ⟨h3, wrap_fits (by omega) (by omega)⟩
  unfold insertOrSwap64 insertOrSwap
  simp only
  by_cases hs : (s.tree.size : Int) ≥ cfg.maxPerSource
  · simp only [if_pos hs]
    cases hl : s.tree.left with
    | none => rfl
    | some p =>
      obtain ⟨k, v⟩ := p
      simp only
      rw [(key _).1, (key _).2]
      cases Tree.left _ <;> rfl
  · simp only [if_neg hs]
    rw [(key _).1, (key _).2]
    cases Tree.left _ <;> rfl

private theorem truncate_eq (mc : Int → Int) (order : List (Str × Storage)) (now : Int) (st : Store) (c : Int) :
    ∃ c', truncate64 mc order now (withPeriod st c) = (truncate mc order now st).map fun st' => withPeriod st' c' := by
  have loop : ∀ (n : Nat) (g : Globals) (idx : List (Str × Storage)) (h : ExpHeap),
      pruneLoop n { g with cachePeriod := c } idx h = (pruneLoop n g idx h).map fun p => ({ p.1 with cachePeriod := c }, p.2) := by
    intro n
    induction n with
    | zero => intro g idx h; rfl
    | succ n ih =>
      intro g idx h
      rw [pruneLoop, pruneLoop]
      cases hp : h.pop with
      | none => rfl
      | some q =>
        obtain ⟨x, h'⟩ := q
        simp only
        have hr : removeOldestEnvelope { g with cachePeriod := c } idx x.sourceId =
            ({ (removeOldestEnvelope g idx x.sourceId).1 with cachePeriod := c }, (removeOldestEnvelope g idx x.sourceId).2) := by
          unfold removeOldestEnvelope
          cases idxLoad idx x.sourceId with
          | none => rfl
          | some s =>
            simp only
            cases s.tree.left with
            | none => rfl
            | some p =>
              simp only
              cases (s.tree.remove p.1).left <;> rfl
        rw [hr]
        rcases hq : removeOldestEnvelope g idx x.sourceId with ⟨g', idx', _ | ts⟩ <;> exact ih _ _ _
  unfold truncate64 truncate
  show ∃ c', (if mc st.g.count = 0 then some (withPeriod st c) else _) = _
  by_cases h0 : mc st.g.count = 0
  · refine ⟨c, ?_⟩
    simp only
    rw [if_pos h0, if_pos h0]; rfl
  simp only [if_neg h0]
  cases hb : buildHeap order [] with
  | none => exact ⟨0, rfl⟩
  | some h =>
    simp only
    rw [show (withPeriod st c).g = { st.g with cachePeriod := c } from rfl, show (withPeriod st c).index = st.index from rfl, loop]
    cases hl : pruneLoop (if mc st.g.count > st.g.count then st.g.count else mc st.g.count).toNat st.g st.index h with
    | none => exact ⟨0, rfl⟩
    | some q =>
      obtain ⟨g, idx, h'⟩ := q
      simp only [Option.map_some]
      cases hp : h'.popLast with
      | none => exact ⟨0, rfl⟩
      | some y => exact ⟨cachePeriod64 now y.1.timestamp, rfl⟩

private theorem exec_eq (st : Store) (c : Int) (op : Op)
    (h : ∀ now src e, op = .put now src e → -2 ^ 63 ≤ e.timestamp ∧ e.timestamp + st.cfg.maxFudge < 2 ^ 63) :
    ∃ c', op.exec64 (withPeriod st c) = (op.exec st).map fun st' => withPeriod st' c' := by
  cases op with
  | put now src e =>
    obtain ⟨h1, h2⟩ := h now src e rfl
    have := insert_eq st.cfg now { st.g with ingress := st.g.ingress + 1 } (getOrInit st.index src) e c h1 h2
    show ∃ c', put64 now (withPeriod st c) src e = (put now st src e).map _
    unfold put64 put
    simp only
    rw [show (withPeriod st c).cfg = st.cfg from rfl, show (withPeriod st c).index = st.index from rfl,
      show ({ (withPeriod st c).g with ingress := (withPeriod st c).g.ingress + 1 } : Globals) =
        { { st.g with ingress := st.g.ingress + 1 } with cachePeriod := c } from rfl, this]
    cases insertOrSwap st.cfg now { st.g with ingress := st.g.ingress + 1 } (getOrInit st.index src) e with
    | none => exact ⟨0, rfl⟩
    | some q => exact ⟨cachePeriod64 now q.1.oldest, rfl⟩
  | truncate now mc order => exact truncate_eq mc order now st c
  | get src a =>
    refine ⟨c, ?_⟩
    show some (getState (withPeriod st c) src a) = some (withPeriod (getState st src a) c)
    unfold getState
    rw [show (withPeriod st c).index = st.index from rfl]
    repeat' split
    all_goals rfl

/-- With timestamps at least 4000 ns before the end of the 64 bit range, every history has
the same outcome as with unbounded numbers, except for the cache period gauge: all that is
proved of the store holds for it. -/
theorem C112_run {cfg : Config} (hc : 1 ≤ cfg.maxPerSource) (ops : List Op) (hf : FarFromEnd cfg ops) :
    (∀ st', Run64 (newStore cfg) ops st' → ∃ st, Run (newStore cfg) ops st ∧ st' = withPeriod st st'.g.cachePeriod) ∧
    (∀ st, Run (newStore cfg) ops st → ∃ c, Run64 (newStore cfg) ops (withPeriod st c)) := by
  constructor
  · intro st' h
    generalize hst : newStore cfg = st0 at h
    induction h with
    | nil => subst hst; exact ⟨_, .nil _, rfl⟩
    | @snoc st2 st3 ops op hr hv hx ih =>
      subst hst
      obtain ⟨st, h1, h2⟩ := ih (fun now src e he => hf now src e (List.mem_append_left _ he))
      have hcfg := (run_inv hc h1).2
      obtain ⟨c', h3⟩ := exec_eq st st2.g.cachePeriod op (by
        rintro now src e rfl
        rw [hcfg]
        exact hf now src e (by simp))
      rw [← h2, hx] at h3
      cases he : op.exec st with
      | none => rw [he] at h3; cases h3
      | some st'' =>
        rw [he] at h3
        injection h3 with h3
        refine ⟨st'', .snoc h1 ?_ he, by rw [h3]; rfl⟩
        rw [h2] at hv
        cases op <;> exact hv
  · intro st h
    generalize hst : newStore cfg = st0 at h
    induction h with
    | nil => subst hst; exact ⟨0, .nil _⟩
    | @snoc st2 st3 ops op hr hv hx ih =>
      subst hst
      obtain ⟨c, h1⟩ := ih (fun now src e he => hf now src e (List.mem_append_left _ he))
      have hcfg := (run_inv hc hr).2
      obtain ⟨c', h3⟩ := exec_eq st2 c op (by
        rintro now src e rfl
        rw [hcfg]
        exact hf now src e (by simp))
      rw [hx] at h3
      exact ⟨c', .snoc h1 (by cases op <;> exact hv) h3⟩

/-- The cache period after an envelope was stored is the whole number of milliseconds from
the oldest timestamp to now, if that distance is less than 2^63 ns. -/
theorem C112_period {st st' : Store} {now : Int} {src : Str} {e : Envelope} (h : put64 now st src e = some st')
    (h1 : -2 ^ 63 ≤ now - st'.g.oldest) (h2 : now - st'.g.oldest < 2 ^ 63) :
    st'.g.cachePeriod = (now - st'.g.oldest).tdiv 1000000 := by
  have key : st'.g.cachePeriod = cachePeriod64 now st'.g.oldest := by
    unfold put64 at h
    simp only at h
    split at h
    · cases h
    · rename_i g s hi
      cases h
      unfold insertOrSwap64 at hi
      simp only at hi
      split at hi
      · cases hi
      · split at hi
        · cases hi
        · cases hi; rfl
  rw [key, cachePeriod64, wrap_fits h1 h2]

private def late (n : Nat) : Envelope := { timestamp := 2 ^ 63 - 1, instanceId := List.replicate n 'x' }

/-- Executing calls in order. -/
def execAll64 : Store → List Op → Option Store
  | st, [] => some st
  | st, op :: ops => (op.exec64 st).bind fun st' => execAll64 st' ops

private theorem run_execAll64 {st0 st : Store} {pre : List Op} (h : Run64 st0 pre st) (ops : List Op)
    {st' : Store} (hn : ∀ op ∈ ops, op.isPrune = false) (hx : execAll64 st ops = some st') :
    Run64 st0 (pre ++ ops) st' := by
  induction ops generalizing st pre with
  | nil => simp only [execAll64, Option.some.injEq] at hx; subst hx; simpa using h
  | cons op t ih =>
    rw [execAll64, Option.bind_eq_some_iff] at hx
    obtain ⟨st1, h1, h2⟩ := hx
    have hv : op.valid st := by
      have := hn op (by simp)
      cases op <;> simp_all [Op.valid, Op.isPrune]
    have := ih (Run64.snoc h hv h1) (fun o ho => hn o (by simp [ho])) h2
    simpa using this

private def edgeOps : List Op :=
  [.put 5 "a".toList { timestamp := 1 }, .put 5 "a".toList (late 1), .put 5 "a".toList (late 2)]

/-- At the end of the range it is different: of two envelopes with the last timestamp the
second gets the first key.  The source then claims to reach back to 1677, the cache period
is negative, and the next envelope of a full source evicts the newest one instead of the
oldest. -/
theorem C112_end_false :
    (∃ st, Run64 (newStore { maxPerSource := 3 }) edgeOps st ∧
      metaOf st = [("a".toList, { count := 3, expired := 0, oldest := -2 ^ 63, newest := 2 ^ 63 - 1 })] ∧
      st.g.cachePeriod < 0) ∧
    (∃ st, Run64 (newStore { maxPerSource := 3 }) (edgeOps ++ [.put 6 "a".toList { timestamp := 2 }]) st ∧
      get st "a".toList { start := -2 ^ 63, stop := 2 ^ 63 - 1, limit := 100 } = some [{ timestamp := 1 }, { timestamp := 2 }]) ∧
    (∃ st, Run (newStore { maxPerSource := 3 }) (edgeOps ++ [.put 6 "a".toList { timestamp := 2 }]) st ∧
      get st "a".toList { start := -2 ^ 63, stop := 2 ^ 63 - 1, limit := 100 } = some [{ timestamp := 2 }]) := by
  refine ⟨?_, ?_, ?_⟩
  · obtain ⟨st, h⟩ : ∃ st, execAll64 (newStore { maxPerSource := 3 }) edgeOps = some st ∧
        metaOf st = [("a".toList, { count := 3, expired := 0, oldest := -2 ^ 63, newest := 2 ^ 63 - 1 })] ∧
        st.g.cachePeriod < 0 := ⟨_, rfl, by decide +kernel, by decide +kernel⟩
    exact ⟨st, by simpa using run_execAll64 (.nil _) _ (by decide) h.1, h.2⟩
  · obtain ⟨st, h⟩ : ∃ st, execAll64 (newStore { maxPerSource := 3 }) (edgeOps ++ [.put 6 "a".toList { timestamp := 2 }]) = some st ∧
        get st "a".toList { start := -2 ^ 63, stop := 2 ^ 63 - 1, limit := 100 } = some [{ timestamp := 1 }, { timestamp := 2 }] :=
      ⟨_, rfl, by decide +kernel⟩
    exact ⟨st, by simpa using run_execAll64 (.nil _) _ (by decide) h.1, h.2⟩
  · obtain ⟨st, h⟩ : ∃ st, execAll (newStore { maxPerSource := 3 }) (edgeOps ++ [.put 6 "a".toList { timestamp := 2 }]) = some st ∧
        get st "a".toList { start := -2 ^ 63, stop := 2 ^ 63 - 1, limit := 100 } = some [{ timestamp := 2 }] :=
      ⟨_, rfl, by decide +kernel⟩
    exact ⟨st, by simpa using run_execAll (.nil _) _ (by decide) h.1, h.2⟩

/-- Today's timestamps are far from the end. -/
example : FarFromEnd { maxPerSource := 100 } [.put 0 [] { timestamp := 1763300000000000000 }] := by
  intro now src e h
  simp only [List.mem_singleton, Op.put.injEq] at h
  obtain ⟨-, -, rfl⟩ := h
  exact ⟨by decide, by decide⟩

end LogCache
