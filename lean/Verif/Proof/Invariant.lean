import Verif.Proof.Store
/-! # The store invariant and its preservation -/
namespace LogCache
open Spec

structure StorageOk (cfg : Config) (src : Str) (s : Storage) : Prop where
  sid : s.sourceId = src
  bst : s.tree.BST
  nonempty : s.tree.toList ≠ []
  cap : (s.tree.toList.length : Int) ≤ cfg.maxPerSource
  oldest : s.tree.toList.head?.map Prod.fst = some s.info.oldest
  newest : ∀ x ∈ s.tree.toList, x.2.timestamp ≤ s.info.newest
  near : ∀ x ∈ s.tree.toList, x.2.timestamp ≤ x.1 ∧ x.1 ≤ x.2.timestamp + cfg.maxFudge
  expired : 0 ≤ s.info.expired

def IdxOk (cfg : Config) (idx : List (Str × Storage)) : Prop :=
  NodupKeys idx ∧ ∀ p ∈ idx, StorageOk cfg p.1 p.2

def idxTotal (idx : List (Str × Storage)) : Nat := (idx.map fun p => p.2.tree.toList.length).sum

def idxEntries (idx : List (Str × Storage)) (src : Str) : List (Int × Envelope) :=
  match idxLoad idx src with
  | some s => s.tree.toList
  | none => []

structure Inv (st : Store) : Prop where
  idx : IdxOk st.cfg st.index
  count : (st.total : Int) ≤ st.g.count
  size : st.g.storeSize = st.g.count

theorem idxTotal_perm {a b : List (Str × Storage)} (h : a.Perm b) : idxTotal a = idxTotal b :=
  (h.map _).sum_nat

theorem idxTotal_load {idx : List (Str × Storage)} (hn : NodupKeys idx) {src : Str} {s : Storage}
    (h : idxLoad idx src = some s) :
    idxTotal idx = s.tree.toList.length + idxTotal (idxDelete idx src) := by
  rw [idxTotal_perm (idx_perm hn h)]; simp [idxTotal]

theorem idxTotal_store {idx : List (Str × Storage)} (hn : NodupKeys idx) (src : Str) (s : Storage) :
    idxTotal (idxStore idx src s) = s.tree.toList.length + idxTotal (idxDelete idx src) := by
  rw [idxTotal_perm (idxStore_perm hn s)]; simp [idxTotal]

theorem idxTotal_entries {idx : List (Str × Storage)} (hn : NodupKeys idx) (src : Str) :
    idxTotal idx = (idxEntries idx src).length + idxTotal (idxDelete idx src) := by
  unfold idxEntries
  cases h : idxLoad idx src with
  | none => simp [idxDelete_notMem (idxLoad_none.1 h)]
  | some s => exact idxTotal_load hn h

theorem idxOk_store {cfg : Config} {idx : List (Str × Storage)} (h : IdxOk cfg idx) {src : Str}
    {s : Storage} (hs : StorageOk cfg src s) : IdxOk cfg (idxStore idx src s) := by
  refine ⟨nodup_store h.1 src s, ?_⟩
  intro p hp
  have := (idxStore_perm h.1 s).mem_iff.1 hp
  rcases List.mem_cons.1 this with rfl | hp
  · exact hs
  · exact h.2 p (List.mem_filter.1 hp).1

theorem idxOk_delete {cfg : Config} {idx : List (Str × Storage)} (h : IdxOk cfg idx) (src : Str) :
    IdxOk cfg (idxDelete idx src) :=
  ⟨nodup_delete h.1 src, fun p hp => h.2 p (List.mem_filter.1 hp).1⟩

theorem idxOk_load {cfg : Config} {idx : List (Str × Storage)} (h : IdxOk cfg idx) {src : Str}
    {s : Storage} (hl : idxLoad idx src = some s) : StorageOk cfg src s :=
  h.2 _ (idxLoad_mem hl)

/-! ## Put -/

theorem getOrInit_bst {cfg : Config} {idx : List (Str × Storage)} (h : IdxOk cfg idx) (src : Str) :
    (getOrInit idx src).tree.BST := by
  unfold getOrInit
  cases hl : idxLoad idx src with
  | none => exact Tree.bst_nil
  | some s => exact (idxOk_load h hl).bst

theorem getOrInit_toList (idx : List (Str × Storage)) (src : Str) :
    (getOrInit idx src).tree.toList = idxEntries idx src := by
  unfold getOrInit idxEntries
  cases idxLoad idx src <;> rfl

theorem mem_makeRoom {max : Int} {L : List (Int × Envelope)} {x : Int × Envelope}
    (h : x ∈ makeRoom max L) : x ∈ L := by
  unfold makeRoom at h
  split at h
  · exact List.mem_of_mem_tail h
  · exact h

theorem length_makeRoom {max : Int} {L : List (Int × Envelope)} (hm : 1 ≤ max)
    (hL : (L.length : Int) ≤ max) : ((makeRoom max L).length : Int) < max := by
  unfold makeRoom
  split
  · rw [List.length_tail]; omega
  · omega

theorem length_insertKV_le {key : Int} {e : Envelope} {L : List (Int × Envelope)} (h : Sorted L) :
    (insertKV key e L).length ≤ L.length + 1 := by
  by_cases hk : key ∈ keys L
  · rw [length_insertKV_old h hk]; omega
  · rw [length_insertKV_new hk]; omega

theorem insert_ok {cfg : Config} (hc : 1 ≤ cfg.maxPerSource) {src : Str} {now : Int}
    {g g' : Globals} {s s' : Storage} {e : Envelope} {f : Nat}
    (hsid : s.sourceId = src) (hbst : s.tree.BST)
    (hcap : (s.tree.toList.length : Int) ≤ cfg.maxPerSource)
    (hnew : ∀ x ∈ s.tree.toList, x.2.timestamp ≤ s.info.newest)
    (hnear : ∀ x ∈ s.tree.toList, x.2.timestamp ≤ x.1 ∧ x.1 ≤ x.2.timestamp + cfg.maxFudge)
    (hexp : 0 ≤ s.info.expired)
    (h : InsertSpec cfg now g s e g' s' f) : StorageOk cfg src s' := by
  have hsort : Sorted (makeRoom cfg.maxPerSource s.tree.toList) := makeRoom_sorted hbst
  refine ⟨h.sourceId.trans hsid, h.bst, ?_, ?_, h.oldest, ?_, ?_, ?_⟩
  · rw [h.toList]; exact insertKV_ne_nil
  · rw [h.toList]
    have h1 := length_insertKV_le (key := e.timestamp + f) (e := e) hsort
    have h2 := length_makeRoom hc hcap
    omega
  · intro x hx
    rw [h.toList] at hx
    rw [h.newest]
    rcases Tree.mem_insertKV hx with rfl | hx
    · split
      · simp
      · simp only; omega
    · have := hnew x (mem_makeRoom hx)
      split <;> omega
  · intro x hx
    rw [h.toList] at hx
    rcases Tree.mem_insertKV hx with rfl | hx
    · have := h.fudge_le; simp only; omega
    · exact hnear x (mem_makeRoom hx)
  · rw [h.expired]; split <;> omega

/-- Everything `put` does, in terms of the entries. -/
structure PutSpec (now : Int) (st : Store) (src : Str) (e : Envelope) (st' : Store) (f : Nat) :
    Prop where
  cfg : st'.cfg = st.cfg
  fudge_le : f ≤ st.cfg.maxFudge
  taken : ∀ i : Nat, i < f → e.timestamp + i ∈ keys (makeRoom st.cfg.maxPerSource (st.entries src))
  free : f < st.cfg.maxFudge →
    e.timestamp + f ∉ keys (makeRoom st.cfg.maxPerSource (st.entries src))
  entries : st'.entries src =
    insertKV (e.timestamp + f) e (makeRoom st.cfg.maxPerSource (st.entries src))
  other : ∀ src', src' ≠ src → idxLoad st'.index src' = idxLoad st.index src'
  index : ∃ g' s', st'.index = idxStore st.index src s' ∧
    InsertSpec st.cfg now { st.g with ingress := st.g.ingress + 1 } (getOrInit st.index src) e g' s' f ∧
    st'.g = g'

theorem entries_eq (st : Store) (src : Str) : st.entries src = idxEntries st.index src := rfl

theorem put_spec {st st' : Store} (hi : IdxOk st.cfg st.index) {now : Int} {src : Str}
    {e : Envelope} (h : put now st src e = some st') : ∃ f, PutSpec now st src e st' f := by
  unfold put at h
  simp only at h
  split at h
  · cases h
  · rename_i g' s' hins
    cases h
    obtain ⟨f, hf⟩ := insertOrSwap_spec (getOrInit_bst hi src) hins
    refine ⟨f, ⟨rfl, hf.fudge_le, ?_, ?_, ?_, ?_, ⟨g', s', rfl, hf, rfl⟩⟩⟩
    · have := hf.taken; rwa [getOrInit_toList] at this
    · have := hf.free; rwa [getOrInit_toList] at this
    · rw [entries_eq, entries_eq, ← getOrInit_toList st.index src]
      unfold idxEntries; simp only [idxLoad_store_same]; exact hf.toList
    · intro src' hne; exact idxLoad_store_other _ _ hne

theorem put_total {st : Store} (hi : IdxOk st.cfg st.index) (hc : 1 ≤ st.cfg.maxPerSource)
    (now : Int) (src : Str) (e : Envelope) : ∃ st', put now st src e = some st' := by
  obtain ⟨r, hr⟩ := insertOrSwap_total hc now { st.g with ingress := st.g.ingress + 1 }
    (getOrInit st.index src) (getOrInit_bst hi src) e
  unfold put; simp only [hr]; exact ⟨_, rfl⟩

theorem getOrInit_facts {cfg : Config} (hc : 1 ≤ cfg.maxPerSource) {idx : List (Str × Storage)}
    (h : IdxOk cfg idx) (src : Str) :
    (getOrInit idx src).sourceId = src ∧
    ((getOrInit idx src).tree.toList.length : Int) ≤ cfg.maxPerSource ∧
    (∀ x ∈ (getOrInit idx src).tree.toList, x.2.timestamp ≤ (getOrInit idx src).info.newest) ∧
    (∀ x ∈ (getOrInit idx src).tree.toList,
      x.2.timestamp ≤ x.1 ∧ x.1 ≤ x.2.timestamp + cfg.maxFudge) ∧
    0 ≤ (getOrInit idx src).info.expired := by
  unfold getOrInit
  cases hl : idxLoad idx src with
  | none => simp [Tree.toList]; omega
  | some s =>
    have := idxOk_load h hl
    exact ⟨this.sid, this.cap, this.newest, this.near, this.expired⟩

instance (cfg : Config) (L : List (Int × Envelope)) (e : Envelope) :
    Decidable (overwrites cfg L e) :=
  decidable_of_iff (∀ i : Nat, i < cfg.maxFudge + 1 →
      e.timestamp + i ∈ keys (makeRoom cfg.maxPerSource L))
    ⟨fun h i hi => h i (by omega), fun h i hi => h i (by omega)⟩

theorem overwrites_iff {now : Int} {st st' : Store} {src : Str} {e : Envelope} {f : Nat}
    (h : PutSpec now st src e st' f) :
    overwrites st.cfg (st.entries src) e ↔
      e.timestamp + f ∈ keys (makeRoom st.cfg.maxPerSource (st.entries src)) := by
  constructor
  · intro ho; exact ho f h.fudge_le
  · intro hm i hi
    have hf : f = st.cfg.maxFudge := by
      apply Classical.byContradiction; intro hne
      exact h.free (by have := h.fudge_le; omega) hm
    by_cases hif : i = f
    · subst hif; exact hm
    · exact h.taken i (by omega)

theorem total_eq (st : Store) : st.total = idxTotal st.index := rfl

theorem idxEntries_sorted {cfg : Config} {idx : List (Str × Storage)} (h : IdxOk cfg idx)
    (src : Str) : Sorted (idxEntries idx src) := by
  unfold idxEntries
  cases hl : idxLoad idx src with
  | none => exact List.Pairwise.nil
  | some s => exact (idxOk_load h hl).bst

theorem length_makeRoom_eq (max : Int) (L : List (Int × Envelope)) (hm : 1 ≤ max) :
    ((makeRoom max L).length : Int) = L.length - (if max ≤ (L.length : Int) then 1 else 0) := by
  unfold makeRoom; split
  · rw [List.length_tail]; omega
  · omega

theorem put_total_count {now : Int} {st st' : Store} {src : Str} {e : Envelope} {f : Nat}
    (hi : IdxOk st.cfg st.index) (hc : 1 ≤ st.cfg.maxPerSource)
    (h : PutSpec now st src e st' f) :
    (st'.total : Int) = st.total - (if st.cfg.maxPerSource ≤ ((st.entries src).length : Int) then 1 else 0)
      + (if overwrites st.cfg (st.entries src) e then 0 else 1) := by
  obtain ⟨g', s', hidx, hins, -⟩ := h.index
  have hsort : Sorted (makeRoom st.cfg.maxPerSource (st.entries src)) :=
    makeRoom_sorted (idxEntries_sorted hi src)
  have h1 : st'.total = s'.tree.toList.length + idxTotal (idxDelete st.index src) := by
    rw [total_eq, hidx, idxTotal_store hi.1]
  have h2 : st.total = (st.entries src).length + idxTotal (idxDelete st.index src) := by
    rw [total_eq, entries_eq, idxTotal_entries hi.1 src]
  have h3 : s'.tree.toList = insertKV (e.timestamp + f) e
      (makeRoom st.cfg.maxPerSource (st.entries src)) := by
    rw [hins.toList, getOrInit_toList]; rfl
  have h4 := length_makeRoom_eq st.cfg.maxPerSource (st.entries src) hc
  by_cases ho : overwrites st.cfg (st.entries src) e
  · have hk := (overwrites_iff h).1 ho
    rw [h3, length_insertKV_old hsort hk] at h1
    rw [if_pos ho]; omega
  · have hk : ¬ _ := fun hk => ho ((overwrites_iff h).2 hk)
    rw [h3, length_insertKV_new hk] at h1
    rw [if_neg ho]; omega

theorem put_inv {st st' : Store} (hi : Inv st) (hc : 1 ≤ st.cfg.maxPerSource) {now : Int}
    {src : Str} {e : Envelope} (h : put now st src e = some st') : Inv st' := by
  obtain ⟨f, hf⟩ := put_spec hi.idx h
  obtain ⟨g', s', hidx, hins, hg⟩ := hf.index
  obtain ⟨f1, f2, f3, f4, f5⟩ := getOrInit_facts hc hi.idx src
  have hs' : StorageOk st.cfg src s' :=
    insert_ok hc f1 (getOrInit_bst hi.idx src) f2 f3 f4 f5 hins
  have htot := put_total_count hi.idx hc hf
  have hlen : ((getOrInit st.index src).tree.toList.length : Int) = (st.entries src).length := by
    rw [getOrInit_toList]; rfl
  refine ⟨?_, ?_, ?_⟩
  · rw [hf.cfg, hidx]; exact idxOk_store hi.idx hs'
  · have hcount := hi.count
    rw [hg, hins.gcount, hlen]
    rw [htot]
    simp only
    split <;> split <;> simp_all <;> omega
  · rw [hg, hins.gsize, hins.gcount]
    have := hi.size
    split <;> simp_all

/-! ## the prune loop -/

def entryOf (p : Str × Storage) : Expiration := ⟨p.2.info.oldest, p.1⟩

/-- The heap holds one entry per source, with its oldest key. -/
def HeapInv (idx : List (Str × Storage)) (h : ExpHeap) : Prop :=
  h.IsHeap ∧ h.Perm (idx.map entryOf)

theorem buildHeap_spec {cfg : Config} (order : List (Str × Storage)) (h : ExpHeap)
    (hok : ∀ p ∈ order, StorageOk cfg p.1 p.2) (hh : h.IsHeap) :
    ∃ h', buildHeap order h = some h' ∧ h'.IsHeap ∧ h'.Perm (order.map entryOf ++ h) := by
  induction order generalizing h with
  | nil => exact ⟨h, rfl, hh, List.Perm.refl _⟩
  | cons p t ih =>
    obtain ⟨src, s⟩ := p
    have hs := hok (src, s) (by simp)
    have hold := hs.oldest
    rw [← Tree.left_eq_head] at hold
    simp only at hold
    cases hl : s.tree.left with
    | none => rw [hl] at hold; simp at hold
    | some q =>
      obtain ⟨k, v⟩ := q
      rw [hl] at hold; simp at hold
      obtain ⟨h', h1, h2, h3⟩ := ih (h.push ⟨k, src⟩) (fun p hp => hok p (by simp [hp]))
        (ExpHeap.push_heap hh _)
      refine ⟨h', by simp [buildHeap, hl, h1], h2, ?_⟩
      refine h3.trans ?_
      have hp := ExpHeap.push_perm h ⟨k, src⟩
      refine (List.Perm.append_left _ hp).trans ?_
      simp only [List.map_cons, List.cons_append, entryOf, hold]
      exact List.perm_middle

theorem buildHeap_inv {cfg : Config} {idx order : List (Str × Storage)} (hi : IdxOk cfg idx)
    (hp : order.Perm idx) : ∃ h, buildHeap order [] = some h ∧ HeapInv idx h := by
  obtain ⟨h, h1, h2, h3⟩ := buildHeap_spec (cfg := cfg) order []
    (fun p hp' => hi.2 p (hp.mem_iff.1 hp')) ExpHeap.heap_nil
  refine ⟨h, h1, h2, ?_⟩
  rw [List.append_nil] at h3
  exact h3.trans (hp.map _)

/-- One iteration of the prune loop. -/
theorem removeOldest_spec {cfg : Config} {idx : List (Str × Storage)} (hi : IdxOk cfg idx)
    (g : Globals) {src : Str} {s : Storage} (hl : idxLoad idx src = some s) :
    ∃ k v rest, s.tree.toList = (k, v) :: rest ∧ s.info.oldest = k ∧
      ∃ idx' r, removeOldestEnvelope g idx src =
          ({ g with count := g.count - 1, expired := g.expired + 1 }, idx', r) ∧
        IdxOk cfg idx' ∧
        idxEntries idx' src = rest ∧ (∀ src', src' ≠ src → idxLoad idx' src' = idxLoad idx src') ∧
        idxTotal idx = idxTotal idx' + 1 ∧
        ((r = none ∧ rest = [] ∧ idx' = idxDelete idx src) ∨
         (∃ s', r = some s'.info.oldest ∧ idx' = idxStore idx src s' ∧ s'.tree.toList = rest ∧
            s'.info.expired = s.info.expired + 1 ∧ s'.info.newest = s.info.newest)) := by
  have hs := idxOk_load hi hl
  cases hL : s.tree.toList with
  | nil => exact absurd hL hs.nonempty
  | cons p rest =>
    obtain ⟨k, v⟩ := p
    have hold := hs.oldest
    rw [hL] at hold; simp at hold
    refine ⟨k, v, rest, rfl, hold.symm, ?_⟩
    have hsorted : Sorted ((k, v) :: rest) := by have := hs.bst; unfold Tree.BST at this; rwa [hL] at this
    have hrem : (s.tree.remove k).toList = rest := by
      rw [Tree.toList_remove hs.bst, hL, eraseK_head hsorted]
    have hleft : s.tree.left = some (k, v) := by rw [Tree.left_eq_head, hL]; rfl
    unfold removeOldestEnvelope
    simp only [hl, hleft]
    have hrl : (s.tree.remove k).left = rest.head? := by rw [Tree.left_eq_head, hrem]
    cases hr : rest with
    | nil =>
      have : (s.tree.remove k).left = none := by rw [hrl, hr]; rfl
      refine ⟨idxDelete idx src, none, by simp only [this], idxOk_delete hi src, ?_, ?_, ?_, ?_⟩
      · unfold idxEntries; simp [idxLoad_delete_same]
      · intro src' hne; exact idxLoad_delete_other idx hne
      · rw [idxTotal_load hi.1 hl, hL, hr]; simp; omega
      · exact Or.inl ⟨rfl, rfl, rfl⟩
    | cons q rest' =>
      obtain ⟨k', v'⟩ := q
      have hl2 : (s.tree.remove k).left = some (k', v') := by rw [hrl, hr]; rfl
      simp only [hl2]
      refine ⟨_, _, rfl, ?_, ?_, ?_, ?_, ?_⟩
      · apply idxOk_store hi
        refine ⟨hs.sid, Tree.bst_remove hs.bst, ?_, ?_, ?_, ?_, ?_, ?_⟩
        · simp only; rw [hrem, hr]; simp
        · simp only; rw [hrem]
          have := hs.cap; rw [hL] at this; simp at this; omega
        · simp only; rw [hrem, hr]; rfl
        · intro x hx; simp only at hx; rw [hrem] at hx
          exact hs.newest x (by rw [hL]; simp [hx])
        · intro x hx; simp only at hx; rw [hrem] at hx
          exact hs.near x (by rw [hL]; simp [hx])
        · have := hs.expired; simp only; omega
      · unfold idxEntries; simp only [idxLoad_store_same]; rw [hrem, hr]
      · intro src' hne; exact idxLoad_store_other _ _ hne
      · rw [idxTotal_store hi.1, idxTotal_load hi.1 hl, hL]; simp only; rw [hrem, hr]; simp; omega
      · refine Or.inr ⟨_, rfl, rfl, ?_, rfl, rfl⟩
        simp only; rw [hrem, hr]

/-- What one iteration means for the heap. -/
theorem prune_step {cfg : Config} {idx : List (Str × Storage)} {h h' : ExpHeap} {x : Expiration}
    (hi : IdxOk cfg idx) (hh : HeapInv idx h) (hp : h.pop = some (x, h')) (g : Globals) :
    ∃ s k v rest idx' r, idxLoad idx x.sourceId = some s ∧ s.tree.toList = (k, v) :: rest ∧
      removeOldestEnvelope g idx x.sourceId =
          ({ g with count := g.count - 1, expired := g.expired + 1 }, idx', r) ∧
      IdxOk cfg idx' ∧ idxEntries idx' x.sourceId = rest ∧
      (∀ src', src' ≠ x.sourceId → idxLoad idx' src' = idxLoad idx src') ∧
      idxTotal idx = idxTotal idx' + 1 ∧
      (∀ p ∈ idx, k ≤ p.2.info.oldest) ∧
      (∀ s', idxLoad idx' x.sourceId = some s' →
        s'.info.expired = s.info.expired + 1 ∧ s'.info.newest = s.info.newest) ∧
      (match r with
       | none => HeapInv idx' h'
       | some ts => HeapInv idx' (h'.push ⟨ts, x.sourceId⟩)) := by
  obtain ⟨hperm, hheap', hmin⟩ := ExpHeap.pop_spec hh.1 hp
  have hx : x ∈ idx.map entryOf := hh.2.mem_iff.1 (hperm.mem_iff.1 (by simp))
  obtain ⟨p, hpm, hpx⟩ := List.mem_map.1 hx
  obtain ⟨src, s⟩ := p
  have hsrc : x.sourceId = src := by rw [← hpx]; rfl
  have hload : idxLoad idx x.sourceId = some s := by rw [hsrc]; exact mem_idxLoad hi.1 hpm
  obtain ⟨k, v, rest, hL, hk, idx', r, hrm, hok', hent, hoth, htot, hcase⟩ :=
    removeOldest_spec hi g hload
  refine ⟨s, k, v, rest, idx', r, hload, hL, hrm, hok', hent, hoth, htot, ?_, ?_, ?_⟩
  · intro q hq
    have hm := hmin (entryOf q) (hh.2.mem_iff.2 (List.mem_map.2 ⟨q, hq, rfl⟩))
    rw [← hpx] at hm
    simp only [entryOf] at hm
    omega
  · intro s' hs'
    rcases hcase with ⟨-, -, rfl⟩ | ⟨s2, -, rfl, -, he, hn⟩
    · rw [idxLoad_delete_same] at hs'; cases hs'
    · rw [idxLoad_store_same] at hs'; cases hs'; exact ⟨he, hn⟩
  · -- heap of the remaining sources
    have hxe : x = entryOf (x.sourceId, s) := by rw [← hpx]; rfl
    have h1 : h'.Perm ((idxDelete idx x.sourceId).map entryOf) := by
      have h2 : (x :: h').Perm (x :: (idxDelete idx x.sourceId).map entryOf) := by
        refine hperm.trans (hh.2.trans ?_)
        have := (idx_perm hi.1 hload).map entryOf
        rw [List.map_cons, ← hxe] at this
        exact this
      exact (List.perm_cons x).1 h2
    rcases hcase with ⟨rfl, -, rfl⟩ | ⟨s', rfl, rfl, hs', -⟩
    · exact ⟨hheap', h1⟩
    · simp only
      refine ⟨ExpHeap.push_heap hheap' _, ?_⟩
      refine (ExpHeap.push_perm _ _).trans ?_
      refine List.Perm.trans ?_ ((idxStore_perm hi.1 s').map entryOf).symm
      rw [List.map_cons]
      exact h1.cons _

structure PruneSpec (cfg : Config) (n : Nat) (g : Globals) (idx : List (Str × Storage))
    (g' : Globals) (idx' : List (Str × Storage)) (h' : ExpHeap) : Prop where
  ok : IdxOk cfg idx'
  heap : HeapInv idx' h'
  total : idxTotal idx = idxTotal idx' + n
  g : g' = { g with count := g.count - n, expired := g.expired + n }
  removed : ∃ R : Str → List (Int × Envelope),
    (∀ src, idxEntries idx src = R src ++ idxEntries idx' src) ∧
    (∀ src src' x y, x ∈ R src → y ∈ idxEntries idx' src' → x.1 ≤ y.1)
  kept : ∀ src s', idxLoad idx' src = some s' → ∃ s, idxLoad idx src = some s ∧
    s'.info.expired + s'.tree.toList.length = s.info.expired + s.tree.toList.length ∧
    s'.info.newest = s.info.newest

theorem sorted_head_le {α : Type} {k : Int} {v : α} {L : List (Int × α)}
    (h : Sorted ((k, v) :: L)) (x : Int × α) (hx : x ∈ (k, v) :: L) : k ≤ x.1 := by
  rcases List.mem_cons.1 hx with rfl | hx
  · simp
  · have := (List.pairwise_cons.1 h).1 x hx; simp only at this; omega

theorem oldest_le_entries {cfg : Config} {idx : List (Str × Storage)} (hi : IdxOk cfg idx)
    {src : Str} {y : Int × Envelope} (hy : y ∈ idxEntries idx src) :
    ∃ s, (src, s) ∈ idx ∧ s.info.oldest ≤ y.1 := by
  unfold idxEntries at hy
  cases hl : idxLoad idx src with
  | none => rw [hl] at hy; simp at hy
  | some s =>
    rw [hl] at hy
    simp only at hy
    have hs := idxOk_load hi hl
    refine ⟨s, idxLoad_mem hl, ?_⟩
    cases hL : s.tree.toList with
    | nil => exact absurd hL hs.nonempty
    | cons p t =>
      obtain ⟨k, v⟩ := p
      have hold := hs.oldest
      rw [hL] at hold hy; simp at hold
      rw [← hold]
      exact sorted_head_le (by have := hs.bst; unfold Tree.BST at this; rwa [hL] at this) y hy

theorem pruneLoop_spec {cfg : Config} (n : Nat) (g : Globals) (idx : List (Str × Storage))
    (h : ExpHeap) (hi : IdxOk cfg idx) (hh : HeapInv idx h) (hn : n ≤ idxTotal idx) :
    ∃ g' idx' h', pruneLoop n g idx h = some (g', idx', h') ∧
      PruneSpec cfg n g idx g' idx' h' := by
  induction n generalizing g idx h with
  | zero =>
    refine ⟨g, idx, h, rfl, ⟨hi, hh, rfl, by simp, ⟨fun _ => [], by simp, ?_⟩,
      fun src s' h => ⟨s', h, rfl, rfl⟩⟩⟩
    intro _ _ _ _ hx; simp at hx
  | succ n ih =>
    have hne : h ≠ [] := by
      intro he
      have : idx = [] := by
        have := hh.2.length_eq; rw [he] at this; simp at this
        exact List.length_eq_zero_iff.1 this.symm
      rw [this] at hn; simp [idxTotal] at hn
    cases hp : h.pop with
    | none => exact absurd ((ExpHeap.pop_none_iff h).1 hp) hne
    | some q =>
      obtain ⟨x, h1⟩ := q
      obtain ⟨s, k, v, rest, idx1, r, hload, hL, hrm, hok1, hent, hoth, htot, hmin, hexp, hheap1⟩ :=
        prune_step hi hh hp g
      have hcont : ∃ h2, pruneLoop (n + 1) g idx h =
          pruneLoop n { g with count := g.count - 1, expired := g.expired + 1 } idx1 h2 ∧
          HeapInv idx1 h2 := by
        simp only [pruneLoop, hp, hrm]
        cases r with
        | none => exact ⟨h1, rfl, hheap1⟩
        | some ts => exact ⟨_, rfl, hheap1⟩
      obtain ⟨h2, heq, hh2⟩ := hcont
      obtain ⟨g', idx', h', hres, hspec⟩ :=
        ih { g with count := g.count - 1, expired := g.expired + 1 } idx1 h2 hok1 hh2 (by omega)
      refine ⟨g', idx', h', by rw [heq]; exact hres, ⟨hspec.ok, hspec.heap, ?_, ?_, ?_, ?_⟩⟩
      · have := hspec.total; omega
      · rw [hspec.g]; simp only [Globals.mk.injEq, and_true, true_and]
        constructor <;> omega
      · obtain ⟨R, hR1, hR2⟩ := hspec.removed
        refine ⟨fun src => if src = x.sourceId then (k, v) :: R src else R src, ?_, ?_⟩
        · intro src
          by_cases hsrc : src = x.sourceId
          · subst hsrc
            simp only [if_pos]
            have : idxEntries idx x.sourceId = (k, v) :: idxEntries idx1 x.sourceId := by
              rw [hent]; unfold idxEntries; rw [hload]; exact hL
            rw [this, hR1]; rfl
          · simp only [if_neg hsrc]
            rw [← hR1]
            unfold idxEntries; rw [hoth src hsrc]
        · intro src src' a b ha hb
          by_cases hsrc : src = x.sourceId
          · simp only [if_pos hsrc] at ha
            rcases List.mem_cons.1 ha with rfl | ha
            · -- the entry removed first is minimal among everything present
              have hb1 : b ∈ idxEntries idx1 src' := by rw [hR1 src']; simp [hb]
              have hb0 : b ∈ idxEntries idx src' := by
                by_cases hs' : src' = x.sourceId
                · subst hs'
                  have : idxEntries idx x.sourceId = (k, v) :: idxEntries idx1 x.sourceId := by
                    rw [hent]; unfold idxEntries; rw [hload]; exact hL
                  rw [this]; simp [hb1]
                · have : idxEntries idx1 src' = idxEntries idx src' := by
                    unfold idxEntries; rw [hoth src' hs']
                  rw [← this]; exact hb1
              obtain ⟨s2, hs2, hle⟩ := oldest_le_entries hi hb0
              have := hmin _ hs2
              simp only at this ⊢; omega
            · exact hR2 src src' a b ha hb
          · simp only [if_neg hsrc] at ha
            exact hR2 src src' a b ha hb
      · intro src s' hs'
        obtain ⟨s1, hs1, h1, h2⟩ := hspec.kept src s' hs'
        by_cases hsrc : src = x.sourceId
        · subst hsrc
          obtain ⟨h3, h4⟩ := hexp s1 hs1
          refine ⟨s, hload, ?_, h2.trans h4⟩
          have h5 : s1.tree.toList = rest := by
            have h6 := hent; unfold idxEntries at h6; rw [hs1] at h6; exact h6
          rw [h1, h3, h5, hL]; simp; omega
        · rw [hoth src hsrc] at hs1
          exact ⟨s1, hs1, h1, h2⟩

/-- Pruning more than there is panics. -/
theorem pruneLoop_none {cfg : Config} (n : Nat) (g : Globals) (idx : List (Str × Storage))
    (h : ExpHeap) (hi : IdxOk cfg idx) (hh : HeapInv idx h) (hn : idxTotal idx < n) :
    pruneLoop n g idx h = none := by
  induction n generalizing g idx h with
  | zero => omega
  | succ n ih =>
    cases hp : h.pop with
    | none => simp [pruneLoop, hp]
    | some q =>
      obtain ⟨x, h1⟩ := q
      obtain ⟨s, k, v, rest, idx1, r, hload, hL, hrm, hok1, hent, hoth, htot, hmin, hexp, hheap1⟩ :=
        prune_step hi hh hp g
      simp only [pruneLoop, hp, hrm]
      cases r with
      | none => exact ih _ _ _ hok1 hheap1 (by omega)
      | some ts => exact ih _ _ _ hok1 hheap1 (by omega)

end LogCache
