import Verif.Proof.ConcLin
import Verif.Proof.Clean
/-! # Pruning under concurrency: when can the heap run empty? -/
namespace LogCache
open Spec

/-! ## Nothing is overwritten in a sparse run -/

theorem not_overwrites_list {cfg : Config} {L : List (Int × Envelope)} {P : List Envelope} {rest : List Envelope}
    (hrest : (L.map Prod.snd ++ rest).Perm P)
    (hnear : ∀ x ∈ L, x.2.timestamp ≤ x.1 ∧ x.1 ≤ x.2.timestamp + cfg.maxFudge) {e : Envelope}
    (hs : Sparse cfg.maxFudge (P ++ [e])) : ¬ overwrites cfg L e := by
  intro ho
  let Q : Envelope → Bool := fun x =>
    decide (e.timestamp - cfg.maxFudge ≤ x.timestamp ∧ x.timestamp ≤ e.timestamp + cfg.maxFudge)
  have h1 := hs e (by simp)
  have h2 : (P.filter Q).length ≤ cfg.maxFudge := by
    rw [List.filter_append, List.length_append] at h1
    have hPe : Q e = true := by simp only [Q, decide_eq_true_eq]; omega
    have : ([e].filter Q).length = 1 := by simp [hPe]
    have h1' : (P.filter Q).length + ([e].filter Q).length ≤ cfg.maxFudge + 1 := h1
    omega
  have h3 : ((L.map Prod.snd).filter Q).length ≤ cfg.maxFudge := by
    have := (hrest.filter Q).length_eq
    rw [List.filter_append, List.length_append] at this
    omega
  let K := (List.range (cfg.maxFudge + 1)).map fun (i : Nat) => e.timestamp + (i : Int)
  let M := L.filter (fun x => Q x.2)
  have hK : K.Nodup := by
    apply List.Pairwise.map (R := fun a b : Nat => a ≠ b) (S := fun a b : Int => a ≠ b)
      (f := fun i : Nat => e.timestamp + (i : Int))
    · intro a b hab; omega
    · exact List.nodup_range
  have hsub : ∀ k ∈ K, k ∈ M.map Prod.fst := by
    intro k hk
    obtain ⟨i, hi', rfl⟩ := List.mem_map.1 hk
    rw [List.mem_range] at hi'
    obtain ⟨x, hx, hxk⟩ := List.mem_map.1 (ho i (by omega))
    have hx' := mem_makeRoom hx
    have := hnear x hx'
    refine List.mem_map.2 ⟨x, List.mem_filter.2 ⟨hx', ?_⟩, hxk⟩
    simp only [Q, decide_eq_true_eq]; omega
  have hle := nodup_length_le hK hsub
  have hM : M.length = ((L.map Prod.snd).filter Q).length := by
    rw [List.filter_map, List.length_map]; rfl
  simp only [K, List.length_map, List.length_range] at hle
  omega

theorem insert_length {cfg : Config} {now : Int} {g g' : Globals} {s s' : Storage} {e : Envelope} {f : Nat}
    (hc : 1 ≤ cfg.maxPerSource) (hb : s.tree.BST) (h : InsertSpec cfg now g s e g' s' f)
    (hn : ¬ overwrites cfg s.tree.toList e) :
    (s'.tree.toList.length : Int) - s.tree.toList.length = g'.count - g.count ∧
      s.tree.toList.length ≤ s'.tree.toList.length := by
  have hfree : e.timestamp + f ∉ keys (makeRoom cfg.maxPerSource s.tree.toList) := by
    intro hm
    apply hn
    intro i hi
    have hf : f = cfg.maxFudge := by
      apply Classical.byContradiction; intro hne
      exact h.free (by have := h.fudge_le; omega) hm
    by_cases hif : i = f
    · subst hif; exact hm
    · exact h.taken i (by omega)
  have h1 := length_makeRoom_eq cfg.maxPerSource s.tree.toList hc
  rw [h.toList, length_insertKV_new hfree, h.gcount]
  split at h1 <;> simp [*] <;> omega

theorem putsOf_commit (i : Nat) (src s : Str) (e : Envelope) (now : Int) :
    putsOf (seqOps [.commit i src e now]) s = if src = s then [e] else [] := by
  by_cases h : src = s <;> simp [seqOps, seqOp, putsOf, h]

theorem putsOf_seqOps_append (evs evs' : List Ev) (s : Str) :
    putsOf (seqOps (evs ++ evs')) s = putsOf (seqOps evs) s ++ putsOf (seqOps evs') s := by
  simp [seqOps, putsOf]

/-- The envelopes of a storage are among those put, with multiplicity. -/
def SubInv (evs : List Ev) (s : Conc) : Prop :=
  ∀ (a : Nat) (o : Obj), s.heap[a]? = some o →
    ∃ rest, (o.storage.tree.toList.map Prod.snd ++ rest).Perm (putsOf (seqOps evs) o.storage.sourceId)

theorem sub_mono {L : List Envelope} {evs : List Ev} (evs' : List Ev) {s : Str}
    (h : ∃ rest, (L ++ rest).Perm (putsOf (seqOps evs) s)) :
    ∃ rest, (L ++ rest).Perm (putsOf (seqOps (evs ++ evs')) s) := by
  obtain ⟨rest, hr⟩ := h
  refine ⟨rest ++ putsOf (seqOps evs') s, ?_⟩
  rw [putsOf_seqOps_append, ← List.append_assoc]
  exact hr.append_right _

theorem subInv_keep {evs : List Ev} (evs' : List Ev) {s s' : Conc} (h : SubInv evs s) (hh : s'.heap = s.heap) :
    SubInv (evs ++ evs') s' := by
  intro a o ho; rw [hh] at ho; exact sub_mono evs' (h a o ho)

theorem subInv_set {evs : List Ev} (evs' : List Ev) {s s' : Conc} (h : SubInv evs s) {a : Nat} {o' : Obj}
    (hh : s'.heap = s.heap.set a o')
    (ho' : ∃ rest, (o'.storage.tree.toList.map Prod.snd ++ rest).Perm
      (putsOf (seqOps (evs ++ evs')) o'.storage.sourceId)) : SubInv (evs ++ evs') s' := by
  intro b p hp
  rw [hh] at hp
  rcases getElem?_set_cases hp with ⟨rfl, rfl⟩ | ⟨-, hp⟩
  · exact ho'
  · exact sub_mono evs' (h b p hp)

theorem sub_tail {L : List (Int × Envelope)} {P : List Envelope} (h : ∃ rest, (L.map Prod.snd ++ rest).Perm P) :
    ∃ rest, (L.tail.map Prod.snd ++ rest).Perm P := by
  obtain ⟨rest, hr⟩ := h
  cases L with
  | nil => exact ⟨rest, hr⟩
  | cons x t =>
    refine ⟨x.2 :: rest, List.Perm.trans ?_ hr⟩
    simp only [List.tail_cons, List.map_cons, List.cons_append]
    exact List.perm_middle

theorem subInv_step {evs evs' : List Ev} {s s' : Conc} (hi : CInv evs s) (h : SubInv evs s)
    (hs : CStep s evs' s') : SubInv (evs ++ evs') s' := by
  cases hs with
  | @putLookup i src e ht hcr =>
    unfold Conc.getOrInit
    cases hx : s.index.lookup src with
    | some a => exact subInv_keep _ h rfl
    | none =>
      intro a o ho
      replace ho : (s.heap ++ [{ storage := { sourceId := src } }])[a]? = some o := ho
      by_cases ha : a < s.heap.length
      · rw [List.getElem?_append_left ha] at ho
        exact sub_mono _ (h a o ho)
      · have ha' : a = s.heap.length := by
          have := (List.getElem?_eq_some_iff.1 ho).1
          simp at this; omega
        subst ha'
        rw [List.getElem?_concat_length] at ho; cases ho
        exact ⟨_, List.Perm.refl _⟩
  | @putInsert i src a e st st' g' now ht ho hins hcr =>
    have hp := hi.thr i _ ht
    have hsrc : st.sourceId = src := points_fun ⟨_, ho, rfl⟩ hp
    refine subInv_set (a := a) (o' := { storage := st', locked := true }) _ h rfl ?_
    obtain ⟨f, hf⟩ := insertOrSwap_spec (hi.objs a _ ho).bst hins
    obtain ⟨rest, hrest⟩ := h a _ ho
    obtain ⟨r1, h1⟩ := insertKV_perm_or (L := makeRoom s.cfg.maxPerSource st.tree.toList) (e.timestamp + f) e
    obtain ⟨r2, h2⟩ := makeRoom_perm s.cfg.maxPerSource st.tree.toList
    refine ⟨r1.map Prod.snd ++ (r2.map Prod.snd ++ rest), ?_⟩
    have e1 := h1.map Prod.snd
    have e2 := h2.map Prod.snd
    rw [List.map_append, List.map_cons] at e1
    rw [List.map_append] at e2
    simp only
    rw [hf.sourceId, hsrc, putsOf_seqOps_append, putsOf_commit, if_pos rfl, hf.toList, ← List.append_assoc]
    refine (e1.append_right _).trans ?_
    rw [List.cons_append, ← List.append_assoc]
    refine List.Perm.trans ?_ (List.perm_append_singleton _ _).symm
    simp only [hsrc] at hrest
    exact ((e2.append_right _).trans hrest).cons _
  | @putFinish i a oldest loaded now o ht ho hcr =>
    exact subInv_set (a := a) (o' := { o with locked := false }) _ h rfl (sub_mono _ (h a o ho))
  | @prunePopLast i n hh hh' ptrs x a st k v ht hpop ha ho hl hl' hcr =>
    refine subInv_set (a := a) (o' := { storage := { st with tree := st.tree.remove k } }) _ h rfl (sub_mono _ ?_)
    simp only
    rw [(toList_remove_left (hi.objs a _ ho).bst hl).1]
    exact sub_tail (h a _ ho)
  | @prunePopMore i n hh hh' ptrs x a st k k' v v' ht hpop ha ho hl hl' hcr =>
    refine subInv_set (a := a) (o' := { storage := { st with tree := st.tree.remove k, info :=
      { st.info with expired := st.info.expired + 1, oldest := k' } } }) _ h rfl (sub_mono _ ?_)
    simp only
    rw [(toList_remove_left (hi.objs a _ ho).bst hl).1]
    exact sub_tail (h a _ ho)
  | _ => exact subInv_keep _ h rfl

theorem crun_sub {cfg : Config} (hc : 1 ≤ cfg.maxPerSource) {evs : List Ev} {s : Conc}
    (h : CRun cfg evs s) : SubInv evs s := by
  induction h with
  | nil => intro a o ho; simp at ho
  | step hr hs ih => exact subInv_step (crun_inv hc hr) ih hs

/-- In a sparse run an insert grows the storage exactly when it grows the count. -/
theorem sparse_insert {cfg : Config} (hc : 1 ≤ cfg.maxPerSource) {evs : List Ev} {s : Conc} (hr : CRun cfg evs s)
    {i : Nat} {src : Str} {a : Nat} {e : Envelope} {st st' : Storage} {g' : Globals} {now : Int}
    (ht : s.threads[i]? = some (.put2 src a e)) (ho : s.heap[a]? = some { storage := st })
    (hins : insertOrSwap s.cfg now s.g st e = some (g', st'))
    (hsp : Sparse cfg.maxFudge (putsOf (seqOps (evs ++ [.commit i src e now])) src)) :
    (st'.tree.toList.length : Int) - st.tree.toList.length = g'.count - s.g.count ∧
      st.tree.toList.length ≤ st'.tree.toList.length := by
  have hi := crun_inv hc hr
  have hcfg := crun_cfg hr
  obtain ⟨f, hf⟩ := insertOrSwap_spec (hi.objs a _ ho).bst hins
  obtain ⟨rest, hrest⟩ := crun_sub hc hr a _ ho
  have hsrc : st.sourceId = src := points_fun ⟨_, ho, rfl⟩ (hi.thr i _ ht)
  rw [putsOf_seqOps_append, putsOf_commit, if_pos rfl] at hsp
  simp only [hsrc] at hrest
  refine insert_length (by rw [hcfg]; exact hc) (hi.objs a _ ho).bst hf ?_
  exact not_overwrites_list hrest (hi.objs a _ ho).near (by rw [hcfg]; exact hsp)

/-! ## Sizes -/

def sizeAt (heap : List Obj) (a : Nat) : Nat :=
  match heap[a]? with
  | some o => o.storage.tree.toList.length
  | none => 0

def isz (heap : List Obj) (L : List (Str × Nat)) : Nat := (L.map fun p => sizeAt heap p.2).sum

theorem isz_nil (heap : List Obj) : isz heap [] = 0 := rfl

theorem isz_cons (heap : List Obj) (p : Str × Nat) (L : List (Str × Nat)) :
    isz heap (p :: L) = sizeAt heap p.2 + isz heap L := by simp [isz]

theorem isz_append (heap : List Obj) (L L' : List (Str × Nat)) :
    isz heap (L ++ L') = isz heap L + isz heap L' := by simp [isz]

theorem isz_perm (heap : List Obj) {L L' : List (Str × Nat)} (h : L.Perm L') : isz heap L = isz heap L' :=
  (h.map _).sum_nat

theorem sizeAt_some {heap : List Obj} {a : Nat} {o : Obj} (h : heap[a]? = some o) :
    sizeAt heap a = o.storage.tree.toList.length := by unfold sizeAt; rw [h]

theorem sizeAt_set_same {heap : List Obj} {a : Nat} {o o' : Obj} (h : heap[a]? = some o) :
    sizeAt (heap.set a o') a = o'.storage.tree.toList.length :=
  sizeAt_some (List.getElem?_set_self (List.getElem?_eq_some_iff.1 h).1)

theorem sizeAt_set_other {heap : List Obj} {a b : Nat} {o' : Obj} (h : a ≠ b) :
    sizeAt (heap.set a o') b = sizeAt heap b := by
  unfold sizeAt; rw [List.getElem?_set_ne h]

theorem isz_congr {heap heap' : List Obj} {L : List (Str × Nat)}
    (h : ∀ p ∈ L, sizeAt heap' p.2 = sizeAt heap p.2) : isz heap' L = isz heap L := by
  unfold isz
  congr 1
  exact List.map_congr_left h

theorem isz_mono {heap heap' : List Obj} {L : List (Str × Nat)}
    (h : ∀ p ∈ L, sizeAt heap p.2 ≤ sizeAt heap' p.2) : isz heap L ≤ isz heap' L := by
  induction L with
  | nil => simp [isz_nil]
  | cons p L ih =>
    rw [isz_cons, isz_cons]
    have h1 := h p (by simp)
    have h2 := ih (fun q hq => h q (by simp [hq]))
    omega

theorem isz_subset (heap : List Obj) {L L' : List (Str × Nat)} (hn : L.Nodup) (hs : ∀ p ∈ L, p ∈ L') :
    isz heap L ≤ isz heap L' := by
  induction L generalizing L' with
  | nil => simp [isz_nil]
  | cons p t ih =>
    have h := List.nodup_cons.1 hn
    have hp := hs p (by simp)
    have := ih (L' := L'.erase p) h.2 (fun x hx => by
      have hxa : x ≠ p := fun he => h.1 (he ▸ hx)
      exact (List.mem_erase_of_ne hxa).2 (hs x (by simp [hx])))
    rw [isz_perm heap (List.perm_cons_erase hp), isz_cons, isz_cons]
    omega

/-- Replacing the object of one entry. -/
theorem isz_set {heap : List Obj} {L : List (Str × Nat)} {k : Str} {a : Nat} {o o' : Obj}
    (hn : (L.map Prod.fst).Nodup) (hpt : ∀ p ∈ L, Points heap p.1 p.2) (hm : (k, a) ∈ L)
    (ho : heap[a]? = some o) :
    isz (heap.set a o') L + o.storage.tree.toList.length = isz heap L + o'.storage.tree.toList.length := by
  have hp := List.perm_cons_erase hm
  have hnd : ((k, a) :: L.erase (k, a)).map Prod.fst |>.Nodup := (hp.map _).nodup_iff.1 hn
  rw [isz_perm _ hp, isz_perm heap hp, isz_cons, isz_cons, sizeAt_set_same ho, sizeAt_some ho]
  have : isz (heap.set a o') (L.erase (k, a)) = isz heap (L.erase (k, a)) := by
    refine isz_congr (fun p hpm => sizeAt_set_other ?_)
    rintro rfl
    have h1 := hpt p (List.mem_of_mem_erase hpm)
    have h2 := hpt _ hm
    have hpk : p.1 = k := points_fun h1 h2
    simp only [List.map_cons, List.nodup_cons] at hnd
    exact hnd.1 (List.mem_map.2 ⟨p, hpm, hpk⟩)
  omega

theorem isz_set_other {heap : List Obj} {L : List (Str × Nat)} {k : Str} {a : Nat} {o' : Obj}
    (hpt : ∀ p ∈ L, Points heap p.1 p.2) (hk : Points heap k a) (hm : k ∉ L.map Prod.fst) :
    isz (heap.set a o') L = isz heap L := by
  refine isz_congr (fun p hpm => sizeAt_set_other ?_)
  rintro rfl
  exact hm ((points_fun (hpt p hpm) hk) ▸ List.mem_map_of_mem hpm)

/-- Removing one entry. -/
theorem isz_filter {heap : List Obj} {L : List (Str × Nat)} {k : Str} {a : Nat} (hn : (L.map Prod.fst).Nodup)
    (hm : (k, a) ∈ L) : isz heap (L.filter (fun p => p.1 ≠ k)) + sizeAt heap a = isz heap L := by
  induction L with
  | nil => cases hm
  | cons p L ih =>
    simp only [List.map_cons, List.nodup_cons] at hn
    by_cases hpk : p.1 = k
    · have hpe : p = (k, a) := by
        rcases List.mem_cons.1 hm with h | h
        · exact h.symm
        · exact absurd (hpk ▸ List.mem_map_of_mem (f := Prod.fst) h) hn.1
      subst hpe
      have hrest : L.filter (fun p => p.1 ≠ k) = L := by
        rw [List.filter_eq_self]
        intro q hq
        have : q.1 ≠ k := by intro hqk; exact hn.1 (show k ∈ _ from hqk ▸ List.mem_map_of_mem (f := Prod.fst) hq)
        simpa using this
      rw [List.filter_cons_of_neg (by simp), hrest, isz_cons]
      simp only; omega
    · have hm' : (k, a) ∈ L := by
        rcases List.mem_cons.1 hm with h | h
        · rw [← h] at hpk; exact absurd rfl hpk
        · exact h
      rw [List.filter_cons_of_pos (by simpa using hpk), isz_cons, isz_cons]
      have := ih hn.2 hm'
      omega

theorem reachable_eq {evs : List Ev} {s : Conc} (h : CInv evs s) : reachable s = isz s.heap s.index := by
  unfold reachable isz
  congr 1
  apply List.map_congr_left
  intro p hp
  unfold storedAt
  rw [mem_lookup h.nodup (v := p.2) (by exact hp)]
  simp only
  unfold sizeAt
  cases s.heap[p.2]? <;> rfl

/-! ## One prune at a time -/

def OnePrune (s : Conc) : Prop :=
  ∀ (i j : Nat) (t u : Thread), s.threads[i]? = some t → s.threads[j]? = some u → t.isPrune = true →
    u.isPrune = true → i = j

theorem onePrune_set {s s' : Conc} (h : OnePrune s) {i : Nat} {t t' : Thread} (ht : s.threads[i]? = some t)
    (hs : s'.threads = s.threads.set i t') (himp : t'.isPrune = true → t.isPrune = true) : OnePrune s' := by
  have back : ∀ (j : Nat) (u : Thread), s'.threads[j]? = some u → u.isPrune = true →
      ∃ w, s.threads[j]? = some w ∧ w.isPrune = true := by
    rw [hs]
    intro j u hu hp
    revert hp
    refine thr_set (P := fun j u => u.isPrune = true → ∃ w, s.threads[j]? = some w ∧ w.isPrune = true)
      ?_ ?_ j u hu
    · intro j u _ hu hp; exact ⟨u, hu, hp⟩
    · intro hp; exact ⟨t, ht, himp hp⟩
  intro j k u v hu hv hpu hpv
  obtain ⟨w, hw, hpw⟩ := back j u hu hpu
  obtain ⟨w', hw', hpw'⟩ := back k v hv hpv
  exact h j k w w' hw hw' hpw hpw'

theorem onePrune_step {evs : List Ev} {s s' : Conc} (h : OnePrune s) (hs : CStep s evs s') : OnePrune s' := by
  cases hs with
  | call c hp hcr =>
    have old : ∀ (j : Nat) (u : Thread), (s.threads ++ [c.start])[j]? = some u → u.isPrune = true →
        (s.threads[j]? = some u) ∨ (j = s.threads.length ∧ c = .prune) := by
      intro j u hu
      refine thr_append (P := fun j u => u.isPrune = true → s.threads[j]? = some u ∨ (j = s.threads.length ∧ c = .prune))
        (fun j u hu _ => .inl hu) ?_ j u hu
      intro hpr; refine .inr ⟨rfl, ?_⟩
      cases c <;> first | rfl | cases hpr
    intro i j t u ht hu hpt hpu
    rcases old i t ht hpt with h1 | ⟨h1, hc1⟩ <;> rcases old j u hu hpu with h2 | ⟨h2, hc2⟩
    · exact h i j t u h1 h2 hpt hpu
    · have := hp hc2 t (List.mem_of_getElem? h1); rw [hpt] at this; cases this
    · have := hp hc1 u (List.mem_of_getElem? h2); rw [hpu] at this; cases this
    · omega
  | @putLookup i src e ht hcr =>
    refine onePrune_set (t' := .put2 src (s.getOrInit src).2 e) h ht ?_ (by intro h; cases h)
    unfold Conc.getOrInit; split <;> rfl
  | putInsert now ht ho hi hcr => exact onePrune_set h ht rfl (by intro h; cases h)
  | putFinish ht ho hcr => exact onePrune_set h ht rfl (by intro h; cases h)
  | getMiss ht hx hcr => exact onePrune_set h ht rfl (by intro h; cases h)
  | getHit ht hx hcr => exact onePrune_set h ht rfl (by intro h; cases h)
  | getRead ht ho hr hcr => exact onePrune_set h ht rfl (by intro h; cases h)
  | metaStart ht hcr => exact onePrune_set h ht rfl (by intro h; cases h)
  | metaVisit ht hk hn ho hcr => exact onePrune_set h ht rfl (by intro h; cases h)
  | metaRangeEnd ht hall hp hcr => exact onePrune_set h ht rfl (by intro h; cases h)
  | metaCount ht hx ho hcr => exact onePrune_set h ht rfl (by intro h; cases h)
  | metaEnd ht hcr => exact onePrune_set h ht rfl (by intro h; cases h)
  | pruneNothing mc ht hn hcr => exact onePrune_set h ht rfl (by intro h; cases h)
  | pruneStart mc ht hn hcr => exact onePrune_set h ht rfl (fun _ => rfl)
  | pruneVisit ht hk hn ho hl hcr => exact onePrune_set h ht rfl (fun _ => rfl)
  | pruneRangeEnd ht hall hcr => exact onePrune_set h ht rfl (fun _ => rfl)
  | prunePopNone ht hpop ha ho hl hcr => exact onePrune_set h ht rfl (fun _ => rfl)
  | prunePopLast ht hpop ha ho hl hl' hcr => exact onePrune_set h ht rfl (fun _ => rfl)
  | prunePopMore ht hpop ha ho hl hl' hcr => exact onePrune_set h ht rfl (fun _ => rfl)
  | pruneEnd now ht hcr => exact onePrune_set h ht rfl (by intro h; cases h)
  | _ => exact h

theorem crun_onePrune {cfg : Config} {evs : List Ev} {s : Conc} (h : CRun cfg evs s) : OnePrune s := by
  induction h with
  | nil => intro i j t u ht; simp at ht
  | step hr hs ih => exact onePrune_step ih hs

/-! ## What the running prune can still remove -/

structure Avail (s : Conc) (n : Nat) (L : List (Str × Nat)) : Prop where
  nodup : (L.map Prod.fst).Nodup
  sub : ∀ p ∈ L, p ∈ s.index
  enough : n ≤ isz s.heap L

def hptrs (h : ExpHeap) (ptrs : List (Str × Nat)) : List (Str × Nat) :=
  h.map fun x => (x.sourceId, (ptrs.lookup x.sourceId).getD 0)

def ThrAv (s : Conc) : Thread → Prop
  | .prune1 n h ptrs start => Avail s n start ∧ (ptrs.map Prod.fst).Nodup ∧ (∀ p ∈ ptrs, p ∈ s.index) ∧
      (h.map Expiration.sourceId).Perm (ptrs.map Prod.fst) ∧ ExpHeap.IsHeap h
  | .prune2 n h ptrs => Avail s n (hptrs h ptrs) ∧ ExpHeap.IsHeap h
  | _ => True

structure Grow (s s' : Conc) : Prop where
  index : ∀ p ∈ s.index, p ∈ s'.index
  size : ∀ p ∈ s.index, sizeAt s.heap p.2 ≤ sizeAt s'.heap p.2

theorem grow_same {s s' : Conc} (h1 : s'.index = s.index) (h2 : s'.heap = s.heap) : Grow s s' :=
  ⟨fun p hp => by rw [h1]; exact hp, fun p _ => by rw [h2]; exact Nat.le_refl _⟩

theorem Avail.grow {s s' : Conc} (hg : Grow s s') {n : Nat} {L : List (Str × Nat)} (h : Avail s n L) :
    Avail s' n L :=
  ⟨h.nodup, fun p hp => hg.index p (h.sub p hp),
    Nat.le_trans h.enough (isz_mono fun p hp => hg.size p (h.sub p hp))⟩

theorem ThrAv.grow {s s' : Conc} (hg : Grow s s') {t : Thread} (h : ThrAv s t) : ThrAv s' t := by
  cases t <;> first
    | exact trivial
    | exact ⟨h.1.grow hg, h.2.1, fun p hp => hg.index p (h.2.2.1 p hp), h.2.2.2⟩
    | exact ⟨h.1.grow hg, h.2⟩

theorem thrAv_other {s : Conc} {t : Thread} (h : t.isPrune = false) : ThrAv s t := by
  cases t <;> first | exact trivial | cases h

def AvInv (i : Nat) (s : Conc) : Prop := ∀ t : Thread, s.threads[i]? = some t → ThrAv s t

theorem avInv_set {i j : Nat} {s s' : Conc} {t' : Thread} (h : AvInv i s) (hg : Grow s s')
    (hs : s'.threads = s.threads.set j t') (ht : ThrAv s' t') : AvInv i s' := by
  unfold AvInv
  rw [hs]
  intro t hti
  refine thr_set (P := fun k u => k = i → ThrAv s' u) ?_ (fun _ => ht) i t hti rfl
  rintro k u - hu rfl
  exact (h u hu).grow hg

/-- A step of the prune itself. -/
theorem avInv_prune {i j : Nat} {s s' : Conc} {t t' : Thread} (ho : OnePrune s) (htj : s.threads[j]? = some t)
    (hpr : t.isPrune = true) (hs : s'.threads = s.threads.set j t') (ht : i = j → ThrAv s' t') : AvInv i s' := by
  unfold AvInv
  rw [hs]
  intro w hw
  refine thr_set (P := fun k u => k = i → ThrAv s' u) ?_ (fun h => ht h.symm) i w hw rfl
  clear hw w
  rintro k u hk hu rfl
  refine thrAv_other ?_
  cases hpu : u.isPrune with
  | false => rfl
  | true => exact absurd (ho k j u t hu htj hpu hpr) hk

theorem hptrs_keys (h : ExpHeap) (ptrs : List (Str × Nat)) :
    (hptrs h ptrs).map Prod.fst = h.map Expiration.sourceId := by
  unfold hptrs; rw [List.map_map]; rfl

theorem hptrs_perm {h h' : ExpHeap} (hp : h.Perm h') (ptrs : List (Str × Nat)) :
    (hptrs h ptrs).Perm (hptrs h' ptrs) := hp.map _

theorem Avail.perm {s : Conc} {n : Nat} {L L' : List (Str × Nat)} (h : Avail s n L) (hp : L.Perm L') :
    Avail s n L' :=
  ⟨(hp.map _).nodup_iff.1 h.nodup, fun p hpm => h.sub p (hp.mem_iff.2 hpm), by
    rw [← isz_perm _ hp]; exact h.enough⟩

/-- The hypothesis about the start of prune `i`. -/
def StartOk (cfg : Config) (i : Nat) (evs : List Ev) : Prop :=
  ∀ pre post n s0, evs = pre ++ Ev.pruning i n :: post → CRun cfg pre s0 → n ≤ reachable s0

theorem startOk_left {cfg : Config} {i : Nat} {evs evs' : List Ev} (h : StartOk cfg i (evs ++ evs')) :
    StartOk cfg i evs := by
  intro pre post n s0 he hr
  exact h pre (post ++ evs') n s0 (by rw [he]; simp) hr

theorem allSparse_left {cfg : Config} {evs evs' : List Ev} (h : AllSparse cfg (evs ++ evs')) : AllSparse cfg evs := by
  intro src
  have := h src
  rw [putsOf_seqOps_append] at this
  exact sparse_prefix this

theorem avInv_step {cfg : Config} (hc : 1 ≤ cfg.maxPerSource) {i : Nat} {evs evs' : List Ev} {s s' : Conc}
    (hr : CRun cfg evs s) (hst : ∀ n, Ev.pruning i n ∈ evs' → n ≤ reachable s)
    (hsp : AllSparse cfg (evs ++ evs')) (h : AvInv i s) (hs : CStep s evs' s') : AvInv i s' := by
  have hi := crun_inv hc hr
  have ho1 := crun_onePrune hr
  have quiet : ∀ {j : Nat} {t' : Thread} {g : Globals}, s' = { s with g := g }.goto j t' → t'.isPrune = false →
      AvInv i s' := by
    intro j t' g he hp
    subst he
    exact avInv_set h (grow_same rfl rfl) rfl (thrAv_other hp)
  cases hs with
  | call c hp hcr =>
    intro t ht
    refine thr_append (P := fun k u => k = i → ThrAv _ u) ?_ ?_ i t ht rfl
    · rintro k u hu rfl; refine ThrAv.grow (s := s) ?_ (h u hu); exact grow_same rfl rfl
    · rintro -; cases c <;> exact trivial
  | @putLookup j src e ht hcr =>
    refine avInv_set (j := j) (t' := .put2 src (s.getOrInit src).2 e) h ?_ ?_ trivial
    · unfold Conc.getOrInit
      cases hx : s.index.lookup src with
      | some a => exact grow_same rfl rfl
      | none =>
        refine ⟨fun p hp => List.mem_append_left _ hp, ?_⟩
        intro p hp
        obtain ⟨o, ho, -⟩ := hi.addr p hp
        show _ ≤ sizeAt (s.heap ++ [{ storage := { sourceId := src } }]) p.2
        rw [sizeAt_some ho, sizeAt_some (o := o)]
        · exact Nat.le_refl _
        · rw [List.getElem?_append_left (List.getElem?_eq_some_iff.1 ho).1]; exact ho
    · unfold Conc.getOrInit; split <;> rfl
  | @putInsert j src a e st st' g' now ht ho hins hcr =>
    have hlen := (sparse_insert hc hr ht ho hins (hsp src)).2
    refine avInv_set (t' := .put3 a st'.info.oldest s.g.oldest now) h ⟨fun p hp => hp, ?_⟩ rfl trivial
    intro p hp
    show _ ≤ sizeAt (s.heap.set a _) p.2
    by_cases hab : a = p.2
    · subst hab; rw [sizeAt_set_same ho, sizeAt_some ho]; exact hlen
    · rw [sizeAt_set_other hab]; exact Nat.le_refl _
  | putCrash now ht ho hi hcr => 
    intro t ht; refine ThrAv.grow (s := s) ?_ (h t ht); exact grow_same rfl rfl
  | @putFinish j a oldest loaded now o ht ho hcr =>
    refine avInv_set (t' := .done) h ⟨fun p hp => hp, ?_⟩ rfl trivial
    intro p hp
    show _ ≤ sizeAt (s.heap.set a _) p.2
    by_cases hab : a = p.2
    · subst hab; rw [sizeAt_set_same ho, sizeAt_some ho]; exact Nat.le_refl _
    · rw [sizeAt_set_other hab]; exact Nat.le_refl _
  | getMiss ht hx hcr => exact quiet (g := s.g) rfl rfl
  | getHit ht hx hcr => exact quiet (g := s.g) rfl rfl
  | getRead ht ho hr hcr => exact quiet rfl rfl
  | getCrash ht ho hr hcr => 
    intro t ht; refine ThrAv.grow (s := s) ?_ (h t ht); exact grow_same rfl rfl
  | metaStart ht hcr => exact quiet (g := s.g) rfl rfl
  | metaVisit ht hk hn ho hcr => exact quiet (g := s.g) rfl rfl
  | metaRangeEnd ht hall hp hcr => exact quiet (g := s.g) rfl rfl
  | metaCount ht hx ho hcr => exact quiet (g := s.g) rfl rfl
  | metaCrash ht hx hcr => 
    intro t ht; refine ThrAv.grow (s := s) ?_ (h t ht); exact grow_same rfl rfl
  | metaEnd ht hcr => exact quiet (g := s.g) rfl rfl
  | pruneNothing mc ht hn hcr => exact quiet (g := s.g) rfl rfl
  | @pruneStart j mc ht hn hcr =>
    refine avInv_prune ho1 ht rfl rfl ?_
    rintro rfl
    refine ⟨⟨hi.nodup, fun p hp => hp, ?_⟩, by simp, by simp, by simp, ExpHeap.heap_nil⟩
    have := hst _ List.mem_cons_self
    rw [reachable_eq hi] at this
    exact this
  | @pruneVisit j n hh ptrs start k a st ts v ht hk hn ho hl hcr =>
    refine avInv_prune ho1 ht rfl rfl ?_
    rintro rfl
    obtain ⟨h1, h2, h3, h4, h5⟩ := h _ ht
    refine ⟨⟨h1.nodup, h1.sub, h1.enough⟩, ?_, ?_, ?_, ExpHeap.push_heap h5 _⟩
    · rw [List.map_append, List.nodup_append]
      refine ⟨h2, by simp, ?_⟩
      intro x hx y hy
      simp at hy; subst hy
      rintro rfl; exact hn hx
    · intro p hp
      rcases mem_index_append hp with hp | rfl
      · exact h3 p hp
      · exact hk
    · refine ((ExpHeap.push_perm hh ⟨ts, k⟩).map _).trans ?_
      rw [List.map_append, List.map_cons]
      refine ((h4.cons k)).trans ?_
      exact (List.perm_append_singleton _ _).symm
  | pruneVisitCrash ht hk hn ho hl hcr => 
    intro t ht; refine ThrAv.grow (s := s) ?_ (h t ht); exact grow_same rfl rfl
  | @pruneRangeEnd j n hh ptrs start ht hall hcr =>
    refine avInv_prune ho1 ht rfl rfl ?_
    rintro rfl
    obtain ⟨h1, h2, h3, h4, h5⟩ := h _ ht
    have hlk : ∀ k, k ∈ ptrs.map Prod.fst → ∃ a, ptrs.lookup k = some a ∧ (k, a) ∈ s.index := by
      intro k hk
      obtain ⟨p, hp, rfl⟩ := List.mem_map.1 hk
      exact ⟨p.2, mem_lookup h2 hp, h3 p hp⟩
    refine ⟨⟨?_, ?_, ?_⟩, h5⟩
    · rw [hptrs_keys]; exact h4.nodup_iff.2 h2
    · intro p hp
      obtain ⟨x, hx, rfl⟩ := List.mem_map.1 hp
      obtain ⟨a, ha, hm⟩ := hlk x.sourceId (h4.mem_iff.1 (List.mem_map_of_mem hx))
      simp only [ha, Option.getD_some]; exact hm
    · refine Nat.le_trans h1.enough (isz_subset _ ?_ ?_)
      · exact (List.pairwise_map.1 h1.nodup).imp (fun h he => h (congrArg _ he))
      · intro p hp
        have hk := hall p.1 p.2 hp (h1.sub p hp)
        obtain ⟨a, ha, hm⟩ := hlk p.1 hk
        obtain ⟨x, hx, hxk⟩ := List.mem_map.1 (h4.mem_iff.2 hk)
        refine List.mem_map.2 ⟨x, hx, ?_⟩
        rw [hxk, ha]
        have e1 := mem_lookup hi.nodup hm
        have e2 := mem_lookup hi.nodup (h1.sub p hp : (p.1, p.2) ∈ s.index)
        rw [e1] at e2
        exact Prod.ext rfl (Option.some.inj e2)
  | @prunePopNone j n hh hh' ptrs x a st ht hpop ha ho hl hcr =>
    refine avInv_prune ho1 ht rfl rfl ?_
    rintro rfl
    obtain ⟨h1, h2⟩ := h _ ht
    obtain ⟨hp, hh2, -⟩ := ExpHeap.pop_spec h2 hpop
    have h3 := h1.perm (hptrs_perm hp.symm ptrs)
    have hnil : st.tree.toList = [] := by rw [Tree.left_eq_head] at hl; exact List.head?_eq_none_iff.1 hl
    refine ⟨⟨(List.nodup_cons.1 h3.nodup).2, fun p hp => h3.sub p (List.mem_cons_of_mem _ hp), ?_⟩, hh2⟩
    have := h3.enough
    unfold hptrs at this
    rw [List.map_cons, isz_cons, ha, Option.getD_some, sizeAt_some ho, hnil] at this
    simp only [List.length_nil, Nat.zero_add] at this
    show n ≤ isz s.heap (hptrs hh' ptrs)
    unfold hptrs; omega
  | @prunePopLast j n hh hh' ptrs x a st k v ht hpop ha ho hl hl' hcr =>
    refine avInv_prune ho1 ht rfl rfl ?_
    rintro rfl
    obtain ⟨h1, h2⟩ := h _ ht
    obtain ⟨hp, hh2, -⟩ := ExpHeap.pop_spec h2 hpop
    have h3 := h1.perm (hptrs_perm hp.symm ptrs)
    obtain ⟨hnd1, hnd2⟩ := List.nodup_cons.1 h3.nodup
    have hsub : ∀ p ∈ hptrs hh' ptrs, p ∈ s.index := fun p hp => h3.sub p (List.mem_cons_of_mem _ hp)
    have hpx : Points s.heap x.sourceId a := hi.thr _ _ ht _ (lookup_mem ha)
    have hlen : st.tree.toList.length = 1 := by
      obtain ⟨e1, e2, -⟩ := toList_remove_left (hi.objs a _ ho).bst hl
      rw [Tree.left_eq_head, e1] at hl'
      have e3 := List.head?_eq_none_iff.1 hl'
      have : st.tree.toList.length ≠ 0 := fun h => e2 (List.length_eq_zero_iff.1 h)
      have h4 : st.tree.toList.tail.length = 0 := by
        rw [show st.tree.toList.tail = [] from e3]; rfl
      rw [List.length_tail] at h4; omega
    refine ⟨⟨hnd2, ?_, ?_⟩, hh2⟩
    · intro p hp
      refine List.mem_filter.2 ⟨hsub p hp, ?_⟩
      have : p.1 ≠ x.sourceId := fun he => hnd1 (List.mem_map.2 ⟨p, hp, he⟩)
      simpa using this
    · have := h3.enough
      unfold hptrs at this
      rw [List.map_cons, isz_cons, ha, Option.getD_some, sizeAt_some ho, hlen] at this
      show n ≤ isz (s.heap.set a _) (hptrs hh' ptrs)
      rw [isz_set_other (fun p hp => hi.addr p (hsub p hp)) hpx hnd1]
      unfold hptrs; omega
  | @prunePopMore j n hh hh' ptrs x a st k k' v v' ht hpop ha ho hl hl' hcr =>
    refine avInv_prune ho1 ht rfl rfl ?_
    rintro rfl
    obtain ⟨h1, h2⟩ := h _ ht
    obtain ⟨hp, hh2, -⟩ := ExpHeap.pop_spec h2 hpop
    have h3 := h1.perm (hptrs_perm hp.symm ptrs)
    obtain ⟨hnd1, hnd2⟩ := List.nodup_cons.1 h3.nodup
    have hpp := hptrs_perm (ExpHeap.push_perm hh' ⟨k', x.sourceId⟩) ptrs
    have hmem : (x.sourceId, a) ∈ hptrs (x :: hh') ptrs := by
      unfold hptrs; rw [List.map_cons, ha]; exact List.mem_cons_self
    refine ⟨Avail.perm ⟨h3.nodup, h3.sub, ?_⟩ hpp.symm, ExpHeap.push_heap hh2 _⟩
    show n ≤ isz (s.heap.set a _) (hptrs (x :: hh') ptrs)
    obtain ⟨st2, hst2⟩ : ∃ st2 : Storage, st2 = { st with tree := st.tree.remove k, info :=
      { st.info with expired := st.info.expired + 1, oldest := k' } } := ⟨_, rfl⟩
    have hset := isz_set (o' := { storage := st2 }) h3.nodup (fun p hp => hi.addr p (h3.sub p hp)) hmem ho
    have he := h3.enough
    obtain ⟨e1, e2, -⟩ := toList_remove_left (hi.objs a _ ho).bst hl
    have e4 : st2.tree.toList.length = st.tree.toList.length - 1 := by
      rw [hst2]; simp only; rw [e1, List.length_tail]
    have e5 : st.tree.toList.length ≠ 0 := fun h => e2 (List.length_eq_zero_iff.1 h)
    have key : n ≤ isz (s.heap.set a { storage := st2 }) (hptrs (x :: hh') ptrs) := by
      simp only at hset; omega
    subst hst2; exact key
  | prunePopCrash ht hpop hcr => 
    intro t ht; refine ThrAv.grow (s := s) ?_ (h t ht); exact grow_same rfl rfl
  | pruneEnd now ht hcr => exact quiet rfl rfl

theorem crun_avInv {cfg : Config} (hc : 1 ≤ cfg.maxPerSource) {i : Nat} {evs : List Ev} {s : Conc}
    (h : CRun cfg evs s) (hst : StartOk cfg i evs) (hsp : AllSparse cfg evs) : AvInv i s := by
  induction h with
  | nil => intro t ht; simp at ht
  | @step evs evs' s s' hr hs ih =>
    refine avInv_step hc hr ?_ hsp (ih (startOk_left hst) (allSparse_left hsp)) hs
    intro n hn
    cases hs <;> simp at hn
    exact hst evs [] n s (by rw [hn.2]; simp [hn.1]) hr

/-- A prune that is asked to remove no more than is stored does not run out of work. -/
theorem no_emptyHeap {cfg : Config} (hc : 1 ≤ cfg.maxPerSource) {i : Nat} {evs : List Ev} {s : Conc}
    (h : CRun cfg evs s) (hst : StartOk cfg i evs) (hsp : AllSparse cfg evs) :
    Ev.panic i .emptyHeap ∉ evs := by
  induction h with
  | nil => simp
  | step hr hs ih =>
    intro hm
    rcases List.mem_append.1 hm with hm | hm
    · exact ih (startOk_left hst) (allSparse_left hsp) hm
    · have hav := crun_avInv hc hr (startOk_left hst) (allSparse_left hsp)
      cases hs with
      | prunePopCrash ht hpop hcr =>
        simp at hm
        subst hm
        have := (hav _ ht).1.enough
        simp [(ExpHeap.pop_none_iff _).1 hpop, hptrs, isz_nil] at this
      | _ => simp at hm

/-! ## The count, when no Put goes to a dropped storage -/

theorem noLate_left {evs evs' : List Ev} (h : NoLate (evs ++ evs')) : NoLate evs := by
  intro pre i src e now post he
  exact h pre i src e now (post ++ evs') (by rw [he]; simp)

theorem prune_size_le {mc : Int → Int} {c : Int} {n : Nat} (h : c = n) :
    (if mc c > c then c else mc c).toNat ≤ n := by split <;> omega

theorem crun_count {cfg : Config} (hc : 1 ≤ cfg.maxPerSource) {evs : List Ev} {s : Conc}
    (h : CRun cfg evs s) (hsp : AllSparse cfg evs) (hlate : NoLate evs) :
    s.g.count = isz s.heap s.index ∧ ∀ i, AvInv i s := by
  induction h with
  | nil => exact ⟨rfl, fun i t ht => by simp at ht⟩
  | @step evs evs' s s' hr hs ih =>
    obtain ⟨hcount, hav⟩ := ih (allSparse_left hsp) (noLate_left hlate)
    have hi := crun_inv hc hr
    refine ⟨?_, fun i => avInv_step hc hr ?_ hsp (hav i) hs⟩
    · cases hs with
      | @putLookup j src e ht hcr =>
        unfold Conc.getOrInit
        cases hx : s.index.lookup src with
        | some a => exact hcount
        | none =>
          show s.g.count = ((isz (s.heap ++ [{ storage := { sourceId := src } }]) (s.index ++ [(src, s.heap.length)]) : Nat) : Int)
          rw [isz_append, isz_cons, isz_nil, sizeAt_some (o := { storage := { sourceId := src } }) List.getElem?_concat_length]
          rw [isz_congr (heap := s.heap), hcount]
          · simp [Tree.toList]
          · intro p hp
            obtain ⟨o, ho, -⟩ := hi.addr p hp
            rw [sizeAt_some ho, sizeAt_some (o := o)]
            rw [List.getElem?_append_left (List.getElem?_eq_some_iff.1 ho).1]; exact ho
      | @putInsert j src a e st st' g' now ht ho hins hcr =>
        have h1 := (sparse_insert hc hr ht ho hins (hsp src)).1
        have hlk : s.index.lookup src = some a :=
          (crun_dinv hc hr j _ ht).resolve_right (hlate evs j src e now [] rfl)
        have h2 := isz_set (o' := { storage := st', locked := true }) hi.nodup hi.addr (lookup_mem hlk) ho
        simp only at h2
        show g'.count = ((isz (s.heap.set a { storage := st', locked := true }) s.index : Nat) : Int)
        omega
      | @putFinish j a oldest loaded now o ht ho hcr =>
        show s.g.count = ((isz (s.heap.set a _) s.index : Nat) : Int)
        rw [isz_congr (heap := s.heap), hcount]
        intro p hp
        by_cases hab : a = p.2
        · subst hab; rw [sizeAt_set_same ho, sizeAt_some ho]
        · rw [sizeAt_set_other hab]
      | @prunePopLast j n hh hh' ptrs x a st k v ht hpop ha ho hl hl' hcr =>
        obtain ⟨h1, h2⟩ := hav j _ ht
        obtain ⟨hp, -, -⟩ := ExpHeap.pop_spec h2 hpop
        have hmem : (x.sourceId, a) ∈ s.index := by
          refine h1.sub _ (List.mem_map.2 ⟨x, hp.mem_iff.1 List.mem_cons_self, ?_⟩)
          rw [ha]; rfl
        have h3 := isz_filter (heap := s.heap) hi.nodup hmem
        obtain ⟨e1, e2, -⟩ := toList_remove_left (hi.objs a _ ho).bst hl
        have hlen : st.tree.toList.length = 1 := by
          rw [Tree.left_eq_head, e1] at hl'
          have e3 := List.head?_eq_none_iff.1 hl'
          have : st.tree.toList.length ≠ 0 := fun h => e2 (List.length_eq_zero_iff.1 h)
          have h4 : st.tree.toList.tail.length = 0 := by rw [show st.tree.toList.tail = [] from e3]; rfl
          rw [List.length_tail] at h4; omega
        rw [sizeAt_some ho] at h3
        simp only [hlen] at h3
        show s.g.count - 1 = ((isz (s.heap.set a _) (s.index.filter _) : Nat) : Int)
        rw [isz_set_other (k := x.sourceId) (fun p hp => hi.addr p (List.mem_filter.1 hp).1) (hi.addr _ hmem)]
        · omega
        · intro hm
          obtain ⟨p, hp, hpk⟩ := List.mem_map.1 hm
          have := (List.mem_filter.1 hp).2
          simp [hpk] at this
      | @prunePopMore j n hh hh' ptrs x a st k k' v v' ht hpop ha ho hl hl' hcr =>
        obtain ⟨h1, h2⟩ := hav j _ ht
        obtain ⟨hp, -, -⟩ := ExpHeap.pop_spec h2 hpop
        have hmem : (x.sourceId, a) ∈ s.index := by
          refine h1.sub _ (List.mem_map.2 ⟨x, hp.mem_iff.1 List.mem_cons_self, ?_⟩)
          rw [ha]; rfl
        obtain ⟨st2, hst2⟩ : ∃ st2 : Storage, st2 = { st with tree := st.tree.remove k, info :=
          { st.info with expired := st.info.expired + 1, oldest := k' } } := ⟨_, rfl⟩
        have hset := isz_set (o' := { storage := st2 }) hi.nodup hi.addr hmem ho
        obtain ⟨e1, e2, -⟩ := toList_remove_left (hi.objs a _ ho).bst hl
        have e4 : st2.tree.toList.length = st.tree.toList.length - 1 := by
          rw [hst2]; simp only; rw [e1, List.length_tail]
        have e5 : st.tree.toList.length ≠ 0 := fun h => e2 (List.length_eq_zero_iff.1 h)
        have key : s.g.count - 1 = ((isz (s.heap.set a { storage := st2 }) s.index : Nat) : Int) := by
          simp only at hset; omega
        subst hst2; exact key
      | @pruneEnd j hh ptrs now ht hcr =>
        show (s.pruneEnd j hh now).g.count = _
        unfold Conc.pruneEnd
        cases hh.popLast <;> exact hcount
      | _ => exact hcount
    · intro n hn
      cases hs <;> simp at hn
      rw [hn.2, reachable_eq hi]
      exact prune_size_le hcount

end LogCache
