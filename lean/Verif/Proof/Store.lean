import Verif.Spec.StoreView
import Verif.Proof.Avl
import Verif.Proof.Heap
/-! # Lemmas about the index, `insertOrSwap` and the prune loop -/
namespace LogCache
open Spec

/-! ## index -/

theorem idxLoad_store_same (idx : List (Str × Storage)) (src : Str) (s : Storage) :
    idxLoad (idxStore idx src s) src = some s := by
  induction idx with
  | nil => simp [idxStore, idxLoad]
  | cons p t ih =>
    obtain ⟨k, s'⟩ := p
    simp only [idxStore]
    split
    · rename_i h; simp [idxLoad, h]
    · rename_i h; simp [idxLoad, h, ih]

theorem idxLoad_store_other (idx : List (Str × Storage)) {src src' : Str} (s : Storage)
    (h : src' ≠ src) : idxLoad (idxStore idx src s) src' = idxLoad idx src' := by
  induction idx with
  | nil => simp [idxStore, idxLoad, Ne.symm h]
  | cons p t ih =>
    obtain ⟨k, s'⟩ := p
    simp only [idxStore]
    split
    · rename_i hk; subst hk; simp [idxLoad, Ne.symm h]
    · rename_i hk; simp only [idxLoad, ih]

theorem idxLoad_delete_same (idx : List (Str × Storage)) (src : Str) :
    idxLoad (idxDelete idx src) src = none := by
  induction idx with
  | nil => rfl
  | cons p t ih =>
    obtain ⟨k, s'⟩ := p
    unfold idxDelete at *
    rw [List.filter_cons]
    split
    · rename_i h; simp at h; simp only [idxLoad, if_neg h]; exact ih
    · exact ih

theorem idxLoad_delete_other (idx : List (Str × Storage)) {src src' : Str} (h : src' ≠ src) :
    idxLoad (idxDelete idx src) src' = idxLoad idx src' := by
  induction idx with
  | nil => rfl
  | cons p t ih =>
    obtain ⟨k, s'⟩ := p
    unfold idxDelete at *
    rw [List.filter_cons]
    split
    · simp only [idxLoad, ih]
    · rename_i hk; simp at hk; subst hk; simp only [idxLoad, if_neg (Ne.symm h)]; exact ih

/-- No source occurs twice. -/
def NodupKeys (idx : List (Str × Storage)) : Prop := (idx.map Prod.fst).Nodup

theorem idxLoad_mem {idx : List (Str × Storage)} {src : Str} {s : Storage}
    (h : idxLoad idx src = some s) : (src, s) ∈ idx := by
  induction idx with
  | nil => simp [idxLoad] at h
  | cons p t ih =>
    obtain ⟨k, s'⟩ := p
    simp only [idxLoad] at h
    split at h
    · rename_i hk; subst hk; cases h; simp
    · exact List.mem_cons_of_mem _ (ih h)

theorem idxLoad_none {idx : List (Str × Storage)} {src : Str} :
    idxLoad idx src = none ↔ src ∉ idx.map Prod.fst := by
  induction idx with
  | nil => simp [idxLoad]
  | cons p t ih =>
    obtain ⟨k, s'⟩ := p
    simp only [idxLoad]
    split
    · rename_i hk; simp [hk]
    · rename_i hk; rw [ih]; simp [Ne.symm hk]

theorem mem_idxLoad {idx : List (Str × Storage)} (hn : NodupKeys idx) {src : Str} {s : Storage}
    (h : (src, s) ∈ idx) : idxLoad idx src = some s := by
  induction idx with
  | nil => simp at h
  | cons p t ih =>
    obtain ⟨k, s'⟩ := p
    unfold NodupKeys at hn
    simp only [List.map_cons, List.nodup_cons] at hn
    simp only [idxLoad]
    rcases List.mem_cons.1 h with h | h
    · cases h; simp
    · have : k ≠ src := by
        intro hk; subst hk
        exact hn.1 (List.mem_map.2 ⟨_, h, rfl⟩)
      rw [if_neg this]; exact ih hn.2 h

theorem idxDelete_notMem {idx : List (Str × Storage)} {src : Str}
    (h : src ∉ idx.map Prod.fst) : idxDelete idx src = idx := by
  unfold idxDelete
  rw [List.filter_eq_self]
  intro p hp
  simp only [ne_eq, decide_not, Bool.not_eq_eq_eq_not, Bool.not_true, decide_eq_false_iff_not]
  intro hk; exact h (List.mem_map.2 ⟨p, hp, hk⟩)

theorem idx_perm {idx : List (Str × Storage)} (hn : NodupKeys idx) {src : Str} {s : Storage}
    (h : idxLoad idx src = some s) : idx.Perm ((src, s) :: idxDelete idx src) := by
  induction idx with
  | nil => simp [idxLoad] at h
  | cons p t ih =>
    obtain ⟨k, s'⟩ := p
    unfold NodupKeys at hn
    simp only [List.map_cons, List.nodup_cons] at hn
    simp only [idxLoad] at h
    split at h
    · rename_i hk; subst hk; cases h
      have : idxDelete ((k, s) :: t) k = t := by
        have := idxDelete_notMem hn.1
        unfold idxDelete at *; simpa using this
      rw [this]
    · rename_i hk
      have h1 := ih hn.2 h
      have : idxDelete ((k, s') :: t) src = (k, s') :: idxDelete t src := by
        unfold idxDelete; simp [hk]
      rw [this]
      exact (h1.cons _).trans (List.Perm.swap _ _ _)

theorem idxStore_perm {idx : List (Str × Storage)} (hn : NodupKeys idx) {src : Str}
    (s : Storage) : (idxStore idx src s).Perm ((src, s) :: idxDelete idx src) := by
  induction idx with
  | nil => exact List.Perm.refl _
  | cons p t ih =>
    obtain ⟨k, s'⟩ := p
    unfold NodupKeys at hn
    simp only [List.map_cons, List.nodup_cons] at hn
    simp only [idxStore]
    split
    · rename_i hk; subst hk
      have : idxDelete ((k, s') :: t) k = t := by
        have := idxDelete_notMem hn.1
        unfold idxDelete at *; simpa using this
      rw [this]
    · rename_i hk
      have : idxDelete ((k, s') :: t) src = (k, s') :: idxDelete t src := by
        unfold idxDelete; simp [hk]
      rw [this]
      exact ((ih hn.2).cons _).trans (List.Perm.swap _ _ _)

theorem nodup_delete {idx : List (Str × Storage)} (hn : NodupKeys idx) (src : Str) :
    NodupKeys (idxDelete idx src) :=
  List.Pairwise.sublist (List.Sublist.map _ List.filter_sublist) hn

theorem src_notMem_delete (idx : List (Str × Storage)) (src : Str) :
    src ∉ (idxDelete idx src).map Prod.fst := by
  rw [← idxLoad_none]; exact idxLoad_delete_same idx src

theorem nodup_store {idx : List (Str × Storage)} (hn : NodupKeys idx) (src : Str) (s : Storage) :
    NodupKeys (idxStore idx src s) := by
  unfold NodupKeys
  rw [((idxStore_perm hn s).map Prod.fst).nodup_iff]
  simp only [List.map_cons, List.nodup_cons]
  exact ⟨src_notMem_delete idx src, nodup_delete hn src⟩

/-! ## the fudge loop -/

theorem fudgeFrom_spec (t : Tree Envelope) (ts : Int) (fuel f : Nat) :
    f ≤ fudgeFrom t ts fuel f ∧ fudgeFrom t ts fuel f ≤ f + fuel ∧
    (∀ i, f ≤ i → i < fudgeFrom t ts fuel f → (t.get (ts + i)).isSome) ∧
    (fudgeFrom t ts fuel f < f + fuel → (t.get (ts + (fudgeFrom t ts fuel f : Nat))).isNone) := by
  induction fuel generalizing f with
  | zero => simp [fudgeFrom]; omega
  | succ n ih =>
    simp only [fudgeFrom]
    split
    · rename_i h
      obtain ⟨h1, h2, h3, h4⟩ := ih (f + 1)
      refine ⟨by omega, by omega, ?_, ?_⟩
      · intro i hi hlt
        by_cases hif : i = f
        · subst hif; exact h
        · exact h3 i (by omega) hlt
      · intro hlt; exact h4 (by omega)
    · rename_i h
      refine ⟨by omega, by omega, ?_, ?_⟩
      · intro i hi hlt; omega
      · intro _; simpa using h

/-! ## sorted lists -/

theorem eraseK_head {α : Type} {k : Int} {v : α} {L : List (Int × α)} (h : Sorted ((k, v) :: L)) :
    eraseK k ((k, v) :: L) = L := by
  unfold Sorted at h
  rw [List.pairwise_cons] at h
  have : eraseK k L = L := Tree.eraseK_eq_self (fun x hx => by have := h.1 x hx; simp at this; omega)
  unfold eraseK at *
  rw [List.filter_cons]; simpa using this

theorem length_insertKV_new {α : Type} {key : Int} {v : α} {L : List (Int × α)}
    (h : key ∉ keys L) : (insertKV key v L).length = L.length + 1 := by
  induction L with
  | nil => rfl
  | cons p t ih =>
    obtain ⟨k, w⟩ := p
    simp [keys] at h
    simp only [insertKV]
    split
    · simp
    · split
      · rename_i h2; exact absurd h2 h.1
      · simp [ih (by simpa [keys] using h.2)]

theorem length_insertKV_old {α : Type} {key : Int} {v : α} {L : List (Int × α)}
    (hs : Sorted L) (h : key ∈ keys L) : (insertKV key v L).length = L.length := by
  induction L with
  | nil => simp [keys] at h
  | cons p t ih =>
    obtain ⟨k, w⟩ := p
    unfold Sorted at hs
    rw [List.pairwise_cons] at hs
    simp only [insertKV]
    split
    · rename_i hlt
      exfalso
      simp only [keys, List.map_cons, List.mem_cons] at h
      rcases h with h | h
      · omega
      · obtain ⟨x, hx, hxk⟩ := List.mem_map.1 h
        have := hs.1 x hx; simp only at this; omega
    · split
      · simp
      · rename_i h1 h2
        simp only [keys, List.map_cons, List.mem_cons] at h
        simp [ih hs.2 (h.resolve_left h2)]

theorem mem_insertKV_iff_new {α : Type} {key : Int} {v : α} {L : List (Int × α)} {x : Int × α}
    (h : key ∉ keys L) : x ∈ insertKV key v L ↔ x = (key, v) ∨ x ∈ L := by
  constructor
  · exact Tree.mem_insertKV
  · induction L with
    | nil => simp [insertKV]
    | cons p t ih =>
      obtain ⟨k, w⟩ := p
      simp [keys] at h
      have ih := ih (by simpa [keys] using h.2)
      simp only [insertKV]
      intro hx
      split
      · simpa using hx
      · split
        · rename_i h2; exact absurd h2 h.1
        · rcases hx with hx | hx
          · exact List.mem_cons_of_mem _ (ih (Or.inl hx))
          · rcases List.mem_cons.1 hx with hx | hx
            · simp [hx]
            · exact List.mem_cons_of_mem _ (ih (Or.inr hx))

theorem mem_insertKV_self {α : Type} {key : Int} {v : α} {L : List (Int × α)} :
    (key, v) ∈ insertKV key v L := by
  induction L with
  | nil => simp [insertKV]
  | cons p t ih =>
    obtain ⟨k, w⟩ := p
    simp only [insertKV]
    split
    · simp
    · split
      · simp
      · exact List.mem_cons_of_mem _ ih

theorem insertKV_ne_nil {α : Type} {key : Int} {v : α} {L : List (Int × α)} :
    insertKV key v L ≠ [] := fun h => by
  have := mem_insertKV_self (key := key) (v := v) (L := L)
  rw [h] at this; simp at this

theorem insertKV_perm_new {α : Type} {key : Int} {v : α} {L : List (Int × α)}
    (h : key ∉ keys L) : (insertKV key v L).Perm ((key, v) :: L) := by
  induction L with
  | nil => exact List.Perm.refl _
  | cons p t ih =>
    obtain ⟨k, w⟩ := p
    simp [keys] at h
    have ih := ih (by simpa [keys] using h.2)
    simp only [insertKV]
    split
    · exact List.Perm.refl _
    · split
      · rename_i h2; exact absurd h2 h.1
      · exact (ih.cons _).trans (List.Perm.swap _ _ _)

/-! ## insertOrSwap -/

theorem sorted_tail {α : Type} {L : List (Int × α)} (h : Sorted L) : Sorted L.tail := by
  cases L with
  | nil => exact h
  | cons p t => exact (List.pairwise_cons.1 h).2

theorem makeRoom_sorted {max : Int} {L : List (Int × Envelope)} (h : Sorted L) :
    Sorted (makeRoom max L) := by
  unfold makeRoom; split
  · exact sorted_tail h
  · exact h

structure InsertSpec (cfg : Config) (now : Int) (g : Globals) (s : Storage) (e : Envelope)
    (g' : Globals) (s' : Storage) (f : Nat) : Prop where
  fudge_le : f ≤ cfg.maxFudge
  taken : ∀ i : Nat, i < f → e.timestamp + i ∈ keys (makeRoom cfg.maxPerSource s.tree.toList)
  free : f < cfg.maxFudge → e.timestamp + f ∉ keys (makeRoom cfg.maxPerSource s.tree.toList)
  toList : s'.tree.toList = insertKV (e.timestamp + f) e (makeRoom cfg.maxPerSource s.tree.toList)
  bst : s'.tree.BST
  sourceId : s'.sourceId = s.sourceId
  count0 : s'.info.count = s.info.count
  expired : s'.info.expired =
    s.info.expired + (if cfg.maxPerSource ≤ (s.tree.toList.length : Int) then 1 else 0)
  newest : s'.info.newest = if e.timestamp > s.info.newest then e.timestamp else s.info.newest
  oldest : s'.tree.toList.head?.map Prod.fst = some s'.info.oldest
  gcount : g'.count =
    g.count + (if cfg.maxPerSource ≤ (s.tree.toList.length : Int) then 0 else 1)
  gexpired : g'.expired =
    g.expired + (if cfg.maxPerSource ≤ (s.tree.toList.length : Int) then 1 else 0)
  gsize : g'.storeSize =
    if cfg.maxPerSource ≤ (s.tree.toList.length : Int) then g.storeSize else g.count + 1
  gingress : g'.ingress = g.ingress
  gegress : g'.egress = g.egress
  goldest : g'.oldest = if s'.info.oldest < g.oldest then s'.info.oldest else g.oldest
  gperiod : g'.cachePeriod = calculateCachePeriod now g'.oldest

theorem insertOrSwap_spec {cfg : Config} {now : Int} {g g' : Globals} {s s' : Storage}
    {e : Envelope} (hb : s.tree.BST) (h : insertOrSwap cfg now g s e = some (g', s')) :
    ∃ f, InsertSpec cfg now g s e g' s' f := by
  unfold insertOrSwap at h
  simp only at h
  split at h
  · cases h
  · rename_i ev g1 s1 hev
    have key : s1.tree.BST ∧ s1.tree.toList = makeRoom cfg.maxPerSource s.tree.toList ∧
        s1.sourceId = s.sourceId ∧ s1.info.count = s.info.count ∧ s1.info.newest = s.info.newest ∧
        s1.info.expired =
          s.info.expired + (if cfg.maxPerSource ≤ (s.tree.toList.length : Int) then 1 else 0) ∧
        g1.count = g.count + (if cfg.maxPerSource ≤ (s.tree.toList.length : Int) then 0 else 1) ∧
        g1.expired = g.expired + (if cfg.maxPerSource ≤ (s.tree.toList.length : Int) then 1 else 0) ∧
        g1.storeSize = (if cfg.maxPerSource ≤ (s.tree.toList.length : Int) then g.storeSize
          else g.count + 1) ∧
        g1.ingress = g.ingress ∧ g1.egress = g.egress ∧ g1.oldest = g.oldest := by
      rw [Tree.size_eq_length] at hev
      split at hev
      · rename_i hfull
        rw [Tree.left_eq_head] at hev
        unfold makeRoom
        rw [if_pos hfull, if_pos hfull, if_pos hfull, if_pos hfull, if_pos hfull]
        cases hL : s.tree.toList with
        | nil => rw [hL] at hev; simp at hev
        | cons p t =>
          obtain ⟨k, v⟩ := p
          rw [hL] at hev
          simp only [List.head?_cons, Option.some.injEq, Prod.mk.injEq] at hev
          obtain ⟨rfl, rfl⟩ := hev
          refine ⟨Tree.bst_remove hb, ?_, rfl, rfl, rfl, rfl, by simp, rfl, rfl, rfl, rfl, rfl⟩
          rw [Tree.toList_remove hb, hL]
          exact eraseK_head (by have := hb; unfold Tree.BST at this; rwa [hL] at this)
      · rename_i hfull
        simp only [Option.some.injEq, Prod.mk.injEq] at hev
        obtain ⟨rfl, rfl⟩ := hev
        unfold makeRoom
        rw [if_neg hfull, if_neg hfull, if_neg hfull, if_neg hfull, if_neg hfull]
        exact ⟨hb, rfl, rfl, rfl, rfl, by simp, rfl, rfl, rfl, rfl, rfl, rfl⟩
    obtain ⟨kb, kl, ksid, kcnt, knew, kexp, kgc, kge, kgs, kgi, kgeg, kgo⟩ := key
    obtain ⟨-, hf2, hf3, hf4⟩ := fudgeFrom_spec s1.tree e.timestamp cfg.maxFudge 0
    generalize fudgeFrom s1.tree e.timestamp cfg.maxFudge 0 = f at *
    have htl := Tree.toList_put (key := e.timestamp + f) (val := e) kb
    split at h
    · cases h
    · rename_i old v hleft
      cases h
      rw [Tree.left_eq_head] at hleft
      refine ⟨f, ⟨by omega, ?_, ?_, ?_, Tree.bst_put kb, ksid, kcnt, kexp, ?_, ?_, kgc, kge, kgs, kgi,
        kgeg, ?_, rfl⟩⟩
      · intro i hi
        rw [← kl]
        exact (Tree.get_isSome_iff kb).1 (hf3 i (by omega) hi)
      · intro hlt
        rw [← kl]
        intro hm
        have h1 := (Tree.get_isSome_iff kb).2 hm
        have h2 := hf4 (by omega)
        cases hg : s1.tree.get (e.timestamp + f) with
        | none => rw [hg] at h1; simp at h1
        | some v => rw [hg] at h2; simp at h2
      · rw [← kl]; exact htl
      · simp only [knew]
      · simp only; rw [hleft]; rfl
      · simp only [kgo]

/-- With a positive capacity a Put never panics. -/
theorem insertOrSwap_total {cfg : Config} (hc : 1 ≤ cfg.maxPerSource) (now : Int) (g : Globals)
    (s : Storage) (hb : s.tree.BST) (e : Envelope) : ∃ r, insertOrSwap cfg now g s e = some r := by
  unfold insertOrSwap
  simp only
  split
  · rename_i hev
    exfalso
    split at hev
    · rename_i hfull
      rw [Tree.size_eq_length] at hfull
      rw [Tree.left_eq_head] at hev
      cases hL : s.tree.toList with
      | nil => rw [hL] at hfull; simp at hfull; omega
      | cons p t => rw [hL] at hev; simp at hev
    · cases hev
  · rename_i g1 s1 hev
    have hb1 : s1.tree.BST := by
      split at hev
      · split at hev
        · cases hev
        · cases hev; exact Tree.bst_remove hb
      · cases hev; exact hb
    split
    · rename_i hl
      exfalso
      rw [Tree.left_eq_head, Tree.toList_put hb1] at hl
      exact insertKV_ne_nil (List.head?_eq_none_iff.1 hl)
    · exact ⟨_, rfl⟩

end LogCache
