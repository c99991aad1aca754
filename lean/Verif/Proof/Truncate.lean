import Verif.Proof.Invariant
/-! # `truncate` and whole histories -/
namespace LogCache
open Spec

/-- How many envelopes `truncate` tries to remove. -/
def pruneTarget (mc : Int → Int) (st : Store) : Nat :=
  (if mc st.g.count > st.g.count then st.g.count else mc st.g.count).toNat

structure TruncSpec (mc : Int → Int) (now : Int) (st st' : Store) : Prop where
  cfg : st'.cfg = st.cfg
  ok : IdxOk st.cfg st'.index
  le : pruneTarget mc st ≤ st.total
  total : st.total = st'.total + pruneTarget mc st
  count : st'.g.count = st.g.count - pruneTarget mc st
  expired : st'.g.expired = st.g.expired + pruneTarget mc st
  ingress : st'.g.ingress = st.g.ingress
  egress : st'.g.egress = st.g.egress
  size : st'.g.storeSize = if mc st.g.count = 0 then st.g.storeSize else st'.g.count
  removed : ∃ R : Str → List (Int × Envelope),
    (∀ src, st.entries src = R src ++ st'.entries src) ∧
    (∀ src src' x y, x ∈ R src → y ∈ st'.entries src' → x.1 ≤ y.1)
  kept : ∀ src s', idxLoad st'.index src = some s' → ∃ s, idxLoad st.index src = some s ∧
    s'.info.expired + s'.tree.toList.length = s.info.expired + s.tree.toList.length ∧
    s'.info.newest = s.info.newest
  period : mc st.g.count ≠ 0 →
    ((st'.index = [] ∧ st'.g.oldest = maxInt64 ∧ st'.g.cachePeriod = 0) ∨
     ∃ p ∈ st'.index, st'.g.oldest = p.2.info.oldest ∧
       st'.g.cachePeriod = calculateCachePeriod now p.2.info.oldest)
  noop : mc st.g.count = 0 → st' = st

theorem truncate_spec {st st' : Store} (hi : IdxOk st.cfg st.index) {mc : Int → Int} {now : Int}
    {order : List (Str × Storage)} (hp : order.Perm st.index)
    (h : truncate mc order now st = some st') : TruncSpec mc now st st' := by
  unfold truncate at h
  simp only at h
  split at h
  · rename_i h0
    cases h
    have hn : pruneTarget mc st = 0 := by unfold pruneTarget; rw [h0]; split <;> omega
    refine ⟨rfl, hi, by omega, by omega, by omega, by omega, rfl, rfl, by simp [h0], ?_, fun src s' h => ⟨s', h, rfl, rfl⟩, ?_, ?_⟩
    · exact ⟨fun _ => [], by simp, by intro _ _ _ _ hx; simp at hx⟩
    · intro hne; exact absurd h0 hne
    · intro _; rfl
  · rename_i h0
    obtain ⟨hp0, hb, hh⟩ := buildHeap_inv hi hp
    rw [hb] at h
    simp only at h
    have hn : (if mc st.g.count > st.g.count then st.g.count else mc st.g.count).toNat
        = pruneTarget mc st := rfl
    rw [hn] at h
    by_cases hle : pruneTarget mc st ≤ idxTotal st.index
    · obtain ⟨g', idx', h', hres, hs⟩ := pruneLoop_spec _ st.g st.index hp0 hi hh hle
      rw [hres] at h
      simp only at h
      have hg := hs.g
      cases h
      have hfields : ∀ (x : Globals), (match h'.popLast with
          | none => { g' with oldest := maxInt64, cachePeriod := 0 }
          | some (x, _) => { g' with oldest := x.timestamp, cachePeriod := calculateCachePeriod now x.timestamp }) = x →
          x.count = g'.count ∧ x.expired = g'.expired ∧ x.ingress = g'.ingress ∧ x.egress = g'.egress := by
        intro x hx
        split at hx <;> subst hx <;> simp
      obtain ⟨c1, c2, c3, c4⟩ := hfields _ rfl
      refine ⟨rfl, hs.ok, hle, hs.total, ?_, ?_, ?_, ?_, ?_, hs.removed, hs.kept, ?_, ?_⟩
      · exact c1.trans (by rw [hg])
      · exact c2.trans (by rw [hg])
      · exact c3.trans (by rw [hg])
      · exact c4.trans (by rw [hg])
      · simp [h0]
      · intro _
        cases hpl : h'.popLast with
        | none =>
          left
          have hnil : h' = [] := by
            unfold ExpHeap.popLast at hpl
            cases hgl : h'.getLast? with
            | none => exact List.getLast?_eq_none_iff.1 hgl
            | some x => rw [hgl] at hpl; simp at hpl
          have : idx' = [] := by
            have hl := hs.heap.2.length_eq
            rw [hnil] at hl; simp at hl
            exact List.length_eq_zero_iff.1 hl.symm
          simp [this]
        | some q =>
          right
          obtain ⟨x, hrest⟩ := q
          have hx : x ∈ h' := by
            unfold ExpHeap.popLast at hpl
            cases hgl : h'.getLast? with
            | none => rw [hgl] at hpl; simp at hpl
            | some y =>
              rw [hgl] at hpl; simp at hpl
              rw [← hpl.1]; exact List.mem_of_getLast? hgl
          obtain ⟨p, hpm, hpx⟩ := List.mem_map.1 (hs.heap.2.mem_iff.1 hx)
          refine ⟨p, hpm, ?_, ?_⟩ <;> simp [← hpx, entryOf]
      · intro h1; exact absurd h1 h0
    · rw [pruneLoop_none _ st.g st.index hp0 hi hh (by omega)] at h
      simp at h

theorem truncate_none_iff {st : Store} (hi : IdxOk st.cfg st.index) {mc : Int → Int} {now : Int}
    {order : List (Str × Storage)} (hp : order.Perm st.index) :
    truncate mc order now st = none ↔ st.total < pruneTarget mc st := by
  constructor
  · intro h
    apply Classical.byContradiction
    intro hle
    unfold truncate at h
    simp only at h
    split at h
    · cases h
    · obtain ⟨hp0, hb, hh⟩ := buildHeap_inv hi hp
      rw [hb] at h
      simp only at h
      obtain ⟨g', idx', h', hres, hs⟩ := pruneLoop_spec (pruneTarget mc st) st.g st.index hp0 hi hh
        (by have := total_eq st; omega)
      have hn : (if mc st.g.count > st.g.count then st.g.count else mc st.g.count).toNat
        = pruneTarget mc st := rfl
      rw [hn, hres] at h
      simp at h
  · intro hlt
    cases h : truncate mc order now st with
    | none => rfl
    | some st' =>
      have := (truncate_spec hi hp h).le
      omega

theorem truncate_inv {st st' : Store} (hi : Inv st) {mc : Int → Int} {now : Int}
    {order : List (Str × Storage)} (hp : order.Perm st.index)
    (h : truncate mc order now st = some st') : Inv st' := by
  have hs := truncate_spec hi.idx hp h
  refine ⟨by rw [hs.cfg]; exact hs.ok, ?_, ?_⟩
  · have h1 := hs.total
    have h2 := hs.count
    have h3 := hi.count
    omega
  · have h1 := hs.size
    split at h1
    · rename_i h0
      rw [hs.noop h0]; exact hi.size
    · exact h1

theorem getState_eq (st : Store) (src : Str) (a : GetArgs) :
    ∃ n, getState st src a = { st with g := { st.g with egress := st.g.egress + n } } := by
  unfold getState
  cases idxLoad st.index src with
  | none => exact ⟨0, rfl⟩
  | some s =>
    simp only
    cases getTree s.tree a with
    | none => exact ⟨0, rfl⟩
    | some r => exact ⟨r.length, rfl⟩

theorem getState_inv {st : Store} (hi : Inv st) (src : Str) (a : GetArgs) :
    Inv (getState st src a) := by
  obtain ⟨n, hn⟩ := getState_eq st src a
  rw [hn]
  exact ⟨hi.idx, hi.count, hi.size⟩

theorem exec_inv {st st' : Store} (hi : Inv st) (hc : 1 ≤ st.cfg.maxPerSource) {op : Op}
    (hv : op.valid st) (h : op.exec st = some st') : Inv st' ∧ st'.cfg = st.cfg := by
  cases op with
  | put now src e =>
    refine ⟨put_inv hi hc h, ?_⟩
    obtain ⟨f, hf⟩ := put_spec hi.idx h
    exact hf.cfg
  | truncate now mc order => exact ⟨truncate_inv hi hv h, (truncate_spec hi.idx hv h).cfg⟩
  | get src a =>
    simp only [Op.exec, Option.some.injEq] at h
    subst h
    refine ⟨getState_inv hi src a, ?_⟩
    obtain ⟨n, hn⟩ := getState_eq st src a
    rw [hn]

theorem inv_new (cfg : Config) : Inv (newStore cfg) :=
  ⟨⟨List.Pairwise.nil, by intro p hp; cases hp⟩, by simp [newStore, Store.total], rfl⟩

theorem run_inv {cfg : Config} (hc : 1 ≤ cfg.maxPerSource) {ops : List Op} {st : Store}
    (h : Run (newStore cfg) ops st) : Inv st ∧ st.cfg = cfg := by
  generalize hst : newStore cfg = st0 at h
  induction h with
  | nil => subst hst; exact ⟨inv_new cfg, rfl⟩
  | snoc _ hv hx ih =>
    obtain ⟨h1, h2⟩ := ih
    obtain ⟨h3, h4⟩ := exec_inv h1 (by rw [h2]; exact hc) hv hx
    exact ⟨h3, h4.trans h2⟩

/-- Induction principle for histories of a store. -/
theorem run_induct {cfg : Config} (hc : 1 ≤ cfg.maxPerSource)
    {P : List Op → Store → Prop} (h0 : P [] (newStore cfg))
    (hs : ∀ ops st op st', Run (newStore cfg) ops st → Inv st → st.cfg = cfg → P ops st →
      op.valid st → op.exec st = some st' → P (ops ++ [op]) st')
    {ops : List Op} {st : Store} (h : Run (newStore cfg) ops st) : P ops st := by
  generalize hst : newStore cfg = st0 at h
  induction h with
  | nil => subst hst; exact h0
  | snoc hr hv hx ih =>
    subst hst
    obtain ⟨h1, h2⟩ := run_inv hc hr
    exact hs _ _ _ _ hr h1 h2 ih hv hx

end LogCache
