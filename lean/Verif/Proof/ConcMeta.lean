import Verif.Spec.ConcMeta
import Verif.Proof.ConcExcl
/-! # Meta beside other calls -/
namespace LogCache
open Spec

theorem CRun.append {cfg : Config} {evs evs' : List Ev} {s s' : Conc} (h : CRun cfg evs s) (h' : CSteps s evs' s') :
    CRun cfg (evs ++ evs') s' := by
  induction h' with
  | refl => rw [List.append_nil]; exact h
  | step _ hs ih => rw [← List.append_assoc]; exact ih.step hs

theorem committed_eq (evs : List Ev) (k : Str) : committed evs k = putsOf (seqOps evs) k := by
  induction evs with
  | nil => rfl
  | cons e evs ih =>
    unfold committed seqOps putsOf at *
    cases e <;> simp [seqOp, List.filterMap_cons] at ih ⊢
    all_goals first
      | exact ih
      | (split <;> simp_all)

theorem committed_append (evs evs' : List Ev) (k : Str) : committed (evs ++ evs') k = committed evs k ++ committed evs' k := by
  simp [committed]

/-! ## Objects -/

/-- An object of a source whose Puts took effect is there; one that was not dropped is in the index. -/
structure OneObj (evs : List Ev) (s : Conc) : Prop where
  there : ∀ k, committed evs k ≠ [] → ∃ a, Points s.heap k a
  inIndex : ∀ k a, NeverDropped evs k → Points s.heap k a → s.index.lookup k = some a

theorem committed_ne_step {evs evs' : List Ev} {k : Str} (h : committed (evs ++ evs') k ≠ []) :
    committed evs k ≠ [] ∨ committed evs' k ≠ [] := by
  rw [committed_append] at h
  by_cases h1 : committed evs k = []
  · right; rw [h1] at h; exact h
  · exact .inl h1

theorem neverDropped_left {evs evs' : List Ev} {k : Str} (h : NeverDropped (evs ++ evs') k) : NeverDropped evs k :=
  fun j hm => h j (List.mem_append_left _ hm)

theorem oneObj_keep {evs evs' : List Ev} {s s' : Conc} (h : OneObj evs s) (he : ∀ k, committed evs' k = [])
    (hi : s'.index = s.index) (hh : s'.heap = s.heap) : OneObj (evs ++ evs') s' := by
  refine ⟨fun k hk => ?_, fun k a hd hp => ?_⟩
  · rw [hh]
    rcases committed_ne_step hk with h1 | h1
    · exact h.there k h1
    · exact absurd (he k) h1
  · rw [hi]; rw [hh] at hp; exact h.inIndex k a (neverDropped_left hd) hp

theorem points_set_iff {h : List Obj} {a : Nat} {o o' : Obj} (ho : h[a]? = some o)
    (hs : o'.storage.sourceId = o.storage.sourceId) {k : Str} {b : Nat} : Points (h.set a o') k b ↔ Points h k b := by
  refine ⟨?_, heapLe_set ho hs k b⟩
  rintro ⟨p, hp, hk⟩
  rcases getElem?_set_cases hp with ⟨rfl, rfl⟩ | ⟨-, hp⟩
  · exact ⟨o, ho, hs ▸ hk⟩
  · exact ⟨p, hp, hk⟩

theorem oneObj_set {evs evs' : List Ev} {s s' : Conc} (h : OneObj evs s) {a : Nat} {o o' : Obj}
    (ho : s.heap[a]? = some o) (hs : o'.storage.sourceId = o.storage.sourceId)
    (he : ∀ k, committed evs' k ≠ [] → Points s.heap k a)
    (hi : ∀ k, NeverDropped evs' k → s'.index.lookup k = s.index.lookup k)
    (hh : s'.heap = s.heap.set a o') : OneObj (evs ++ evs') s' := by
  refine ⟨fun k hk => ?_, fun k b hd hp => ?_⟩
  · rw [hh]
    rcases committed_ne_step hk with h1 | h1
    · obtain ⟨b, hb⟩ := h.there k h1; exact ⟨b, (points_set_iff ho hs).2 hb⟩
    · exact ⟨a, (points_set_iff ho hs).2 (he k h1)⟩
  · rw [hh] at hp
    rw [hi k (fun j hm => hd j (List.mem_append_right _ hm))]
    exact h.inIndex k b (neverDropped_left hd) ((points_set_iff ho hs).1 hp)

theorem lookup_filter_ne {idx : List (Str × Nat)} {k x : Str} (h : k ≠ x) :
    (idx.filter (fun p => p.1 ≠ x)).lookup k = idx.lookup k := by
  induction idx with
  | nil => rfl
  | cons p idx ih =>
    obtain ⟨q, a⟩ := p
    by_cases hq : q = x
    · subst hq
      rw [List.filter_cons_of_neg (by simp), ih, List.lookup_cons]
      have : (k == q) = false := by simpa using h
      rw [this]
    · rw [List.filter_cons_of_pos (by simpa using hq), List.lookup_cons, List.lookup_cons, ih]

theorem oneObj_step {evs evs' : List Ev} {s s' : Conc} (hi : CInv evs s) (h : OneObj evs s)
    (hs : CStep s evs' s') : OneObj (evs ++ evs') s' := by
  cases hs with
  | @putLookup i src e ht hcr =>
    unfold Conc.getOrInit
    cases hx : s.index.lookup src with
    | some a => exact oneObj_keep h (fun _ => rfl) rfl rfl
    | none =>
      refine ⟨fun k hk => ?_, fun k a hd hp => ?_⟩
      · obtain ⟨a, ha⟩ := h.there k (by simpa using hk)
        exact ⟨a, heapLe_append _ _ k a ha⟩
      · show (s.index ++ [(src, s.heap.length)]).lookup k = some a
        rw [lookup_append_new _ _ _ _ hx]
        obtain ⟨o, ho, hk⟩ := hp
        replace ho : (s.heap ++ [{ storage := { sourceId := src } }])[a]? = some o := ho
        by_cases ha : a < s.heap.length
        · rw [List.getElem?_append_left ha] at ho
          have h1 := h.inIndex k a (neverDropped_left hd) ⟨o, ho, hk⟩
          rw [if_neg]
          · exact h1
          · rintro rfl; rw [hx] at h1; cases h1
        · have ha' : a = s.heap.length := by
            have := (List.getElem?_eq_some_iff.1 ho).1
            simp at this; omega
          subst ha'
          rw [List.getElem?_concat_length] at ho; cases ho
          rw [if_pos hk.symm]
  | @putInsert i src a e st st' g' now ht ho hins hcr =>
    obtain ⟨f, hf⟩ := insertOrSwap_spec (s := st) (hi.objs a _ ho).bst hins
    refine oneObj_set (a := a) (o' := { storage := st', locked := true }) h ho hf.sourceId ?_ (fun _ _ => rfl) rfl
    intro k hk
    by_cases hks : src = k
    · subst hks; exact hi.thr i _ ht
    · simp [committed, hks] at hk
  | @putFinish i a oldest loaded now o ht ho hcr =>
    exact oneObj_set (a := a) (o' := { o with locked := false }) h ho rfl (fun k hk => absurd rfl hk) (fun _ _ => rfl) rfl
  | @prunePopLast i n hh hh' ptrs x a st k v ht hpop ha ho hl hl' hcr =>
    refine oneObj_set (a := a) (o' := { storage := { st with tree := st.tree.remove k } }) h ho rfl
      (fun k hk => absurd rfl hk) ?_ rfl
    intro k' hd
    exact lookup_filter_ne (fun hk => hd i (by rw [hk]; simp))
  | @prunePopMore i n hh hh' ptrs x a st k k' v v' ht hpop ha ho hl hl' hcr =>
    exact oneObj_set (a := a) (o' := { storage := { st with tree := st.tree.remove k, info :=
      { st.info with expired := st.info.expired + 1, oldest := k' } } }) h ho rfl
      (fun k hk => absurd rfl hk) (fun _ _ => rfl) rfl
  | _ => exact oneObj_keep h (fun _ => rfl) rfl rfl

theorem crun_oneObj {cfg : Config} (hc : 1 ≤ cfg.maxPerSource) {evs : List Ev} {s : Conc} (h : CRun cfg evs s) :
    OneObj evs s := by
  induction h with
  | nil => exact ⟨fun k hk => absurd rfl hk, fun k a _ hp => by obtain ⟨o, ho, -⟩ := hp; simp at ho⟩
  | step hr hs ih => exact oneObj_step (crun_inv hc hr) ih hs

/-- The numbers of one storage. -/
structure Numbers (cfg : Config) (evs : List Ev) (st : Storage) : Prop where
  newest : st.info.newest = 0 ∨ ∃ e ∈ committed evs st.sourceId, e.timestamp = st.info.newest
  expired : st.info.expired + st.tree.toList.length ≤ (committed evs st.sourceId).length
  all : NeverDropped evs st.sourceId → Sparse cfg.maxFudge (committed evs st.sourceId) →
    st.info.expired + st.tree.toList.length = (committed evs st.sourceId).length

theorem sparse_left' {F : Nat} {l l' : List Envelope} (h : Sparse F (l ++ l')) : Sparse F l := by
  intro e he
  refine Nat.le_trans ?_ (h e (List.mem_append_left _ he))
  rw [List.filter_append, List.length_append]; omega

theorem numbers_mono {cfg : Config} {evs evs' : List Ev} {st : Storage} (h : Numbers cfg evs st)
    (hd : committed evs' st.sourceId = [] ∨ ¬ NeverDropped evs st.sourceId) : Numbers cfg (evs ++ evs') st := by
  refine ⟨?_, ?_, ?_⟩
  · rcases h.newest with h | ⟨e, he, h⟩
    · exact .inl h
    · exact .inr ⟨e, by rw [committed_append]; exact List.mem_append_left _ he, h⟩
  · have := h.expired
    rw [committed_append, List.length_append]; omega
  · intro h1 h2
    rcases hd with hd | hd
    · rw [committed_append, hd, List.append_nil] at h2 ⊢
      exact h.all (neverDropped_left h1) h2
    · exact absurd (neverDropped_left h1) hd

def NumInv (evs : List Ev) (s : Conc) : Prop :=
  ∀ (a : Nat) (o : Obj), s.heap[a]? = some o → Numbers s.cfg evs o.storage

theorem numInv_keep {evs evs' : List Ev} {s s' : Conc} (h : NumInv evs s) (he : ∀ k, committed evs' k = [])
    (hc : s'.cfg = s.cfg) (hh : s'.heap = s.heap) : NumInv (evs ++ evs') s' := by
  intro a o ho
  rw [hh] at ho; rw [hc]
  exact numbers_mono (h a o ho) (.inl (he _))

theorem numInv_set {evs evs' : List Ev} {s s' : Conc} (h : NumInv evs s) (he : ∀ k, committed evs' k = []) {a : Nat}
    {o' : Obj} (hc : s'.cfg = s.cfg) (hh : s'.heap = s.heap.set a o') (hn : Numbers s.cfg (evs ++ evs') o'.storage) :
    NumInv (evs ++ evs') s' := by
  intro b o ho
  rw [hh] at ho; rw [hc]
  rcases getElem?_set_cases ho with ⟨rfl, rfl⟩ | ⟨-, hp⟩
  · exact hn
  · exact numbers_mono (h b o hp) (.inl (he _))

theorem numInv_step {cfg : Config} (hc : 1 ≤ cfg.maxPerSource) {evs evs' : List Ev} {s s' : Conc} (hr : CRun cfg evs s)
    (h : NumInv evs s) (hs : CStep s evs' s') : NumInv (evs ++ evs') s' := by
  have hi := crun_inv hc hr
  have ho1 := crun_oneObj hc hr
  have hcfg := crun_cfg hr
  cases hs with
  | @putLookup i src e ht hcr =>
    unfold Conc.getOrInit
    cases hx : s.index.lookup src with
    | some a => exact numInv_keep h (fun _ => rfl) rfl rfl
    | none =>
      intro a o ho
      replace ho : (s.heap ++ [{ storage := { sourceId := src } }])[a]? = some o := ho
      show Numbers s.cfg _ _
      by_cases ha : a < s.heap.length
      · rw [List.getElem?_append_left ha] at ho
        exact numbers_mono (h a o ho) (.inl rfl)
      · have ha' : a = s.heap.length := by
          have := (List.getElem?_eq_some_iff.1 ho).1
          simp at this; omega
        subst ha'
        rw [List.getElem?_concat_length] at ho; cases ho
        refine ⟨.inl rfl, by simp [Tree.toList], ?_⟩
        intro hd _
        have : committed evs src = [] := by
          apply Classical.byContradiction; intro hne
          obtain ⟨a, ha⟩ := ho1.there src hne
          have := ho1.inIndex src a (neverDropped_left hd) ha
          rw [hx] at this; cases this
        simp [Tree.toList, committed_append, this]
  | @putInsert i src a e st st' g' now ht ho hins hcr =>
    have hp := hi.thr i _ ht
    have hsrc : st.sourceId = src := points_fun ⟨_, ho, rfl⟩ hp
    obtain ⟨f, hf⟩ := insertOrSwap_spec (s := st) (hi.objs a _ ho).bst hins
    have hn := h a _ ho
    intro b o hb
    show Numbers s.cfg _ _
    rcases getElem?_set_cases hb with ⟨rfl, rfl⟩ | ⟨hab, hb⟩
    · have hcom : committed [Ev.commit i src e now] src = [e] := by simp [committed]
      have hs' : st'.sourceId = src := hf.sourceId.trans hsrc
      simp only at hn ⊢
      refine ⟨?_, ?_, ?_⟩
      · rw [hf.newest, hs', committed_append, hcom]
        split
        · exact .inr ⟨e, by simp, rfl⟩
        · rcases hn.newest with h | ⟨e', he', h⟩
          · exact .inl h
          · rw [hsrc] at he'
            exact .inr ⟨e', List.mem_append_left _ he', h⟩
      · have h1 := hn.expired
        rw [hsrc] at h1
        have h2 := length_insertKV_le (key := e.timestamp + f) (e := e)
          (makeRoom_sorted (max := s.cfg.maxPerSource) (L := st.tree.toList) (hi.objs a _ ho).bst)
        have h3 := length_makeRoom_eq s.cfg.maxPerSource st.tree.toList (by rw [hcfg]; exact hc)
        rw [hf.expired, hs', committed_append, hcom, hf.toList]
        rw [List.length_append, List.length_singleton]
        by_cases hle : s.cfg.maxPerSource ≤ (st.tree.toList.length : Int)
        · rw [if_pos hle] at h3 ⊢; omega
        · rw [if_neg hle] at h3 ⊢; omega
      · intro hd hsp
        rw [hs'] at hd hsp ⊢
        have hsp0 := hsp
        rw [committed_append, hcom] at hsp ⊢
        have h1 := hn.all (by rw [hsrc]; exact neverDropped_left hd) (by rw [hsrc]; exact sparse_left' hsp)
        rw [committed_eq] at hsp0
        have h2 := (sparse_insert hc hr ht ho hins (by rw [← hcfg]; exact hsp0)).1
        rw [hf.gcount] at h2
        rw [hsrc] at h1
        rw [hf.expired, List.length_append, List.length_singleton]
        by_cases hle : s.cfg.maxPerSource ≤ (st.tree.toList.length : Int)
        · rw [if_pos hle] at h2 ⊢; omega
        · rw [if_neg hle] at h2 ⊢; omega
    · by_cases hk : o.storage.sourceId = src
      · refine numbers_mono (h b o hb) (.inr ?_)
        intro hd
        have h1 := ho1.inIndex _ b hd ⟨o, hb, rfl⟩
        rw [hk] at h1 hd
        have h2 := ho1.inIndex _ a hd hp
        rw [h1] at h2; cases h2; exact hab rfl
      · refine numbers_mono (h b o hb) (.inl ?_)
        simp [committed, Ne.symm hk]
  | @putFinish i a oldest loaded now o ht ho hcr =>
    exact numInv_set (a := a) (o' := { o with locked := false }) h (fun _ => rfl) rfl rfl (numbers_mono (h a o ho) (.inl rfl))
  | @prunePopLast i n hh hh' ptrs x a st k v ht hpop ha ho hl hl' hcr =>
    obtain ⟨h1, h2, -⟩ := toList_remove_left (t := st.tree) (hi.objs a _ ho).bst hl
    have hn := h a _ ho
    have hp : Points s.heap x.sourceId a := hi.thr _ _ ht _ (lookup_mem ha)
    have hsrc : st.sourceId = x.sourceId := points_fun ⟨_, ho, rfl⟩ hp
    refine numInv_set (a := a) (o' := { storage := { st with tree := st.tree.remove k } }) h (fun _ => rfl) rfl rfl ?_
    have hn' := numbers_mono (evs' := [Ev.dropped i x.sourceId]) hn (.inl rfl)
    refine ⟨hn'.newest, ?_, ?_⟩
    · have := hn'.expired
      simp only at this ⊢
      have h3 : (st.tree.remove k).toList.length ≤ st.tree.toList.length := by rw [h1, List.length_tail]; omega
      omega
    · intro hd
      exact absurd (List.mem_append_right _ (by simp [hsrc])) (hd i)
  | @prunePopMore i n hh hh' ptrs x a st k k' v v' ht hpop ha ho hl hl' hcr =>
    obtain ⟨h1, h2, -⟩ := toList_remove_left (t := st.tree) (hi.objs a _ ho).bst hl
    have hn := h a _ ho
    have hlen : (st.tree.remove k).toList.length + 1 = st.tree.toList.length := by
      rw [h1, List.length_tail]
      have : 0 < st.tree.toList.length := List.length_pos_iff.2 h2
      omega
    refine numInv_set (a := a) (o' := { storage := { st with tree := st.tree.remove k, info :=
      { st.info with expired := st.info.expired + 1, oldest := k' } } }) h (fun _ => rfl) rfl rfl ?_
    have hn' := numbers_mono (evs' := []) hn (.inl rfl)
    refine ⟨hn'.newest, ?_, ?_⟩
    · have := hn'.expired
      simp only at this ⊢
      omega
    · intro hd hsp
      have := hn'.all hd hsp
      simp only at this ⊢
      omega
  | _ => exact numInv_keep h (fun _ => rfl) rfl rfl

theorem crun_numInv {cfg : Config} (hc : 1 ≤ cfg.maxPerSource) {evs : List Ev} {s : Conc} (h : CRun cfg evs s) :
    NumInv evs s := by
  induction h with
  | nil => intro a o ho; simp at ho
  | step hr hs ih => exact numInv_step hc hr ih hs

/-! ## What Meta copies -/

theorem describes_visit {cfg : Config} (hc : 1 ≤ cfg.maxPerSource) {evs : List Ev} {s : Conc} (hr : CRun cfg evs s)
    (hcr : s.crashed = false)
    {k : Str} {a : Nat} {o : Obj} (hk : (k, a) ∈ s.index) (ho : s.heap[a]? = some o) :
    Describes cfg evs s k o.storage.info := by
  have hi := crun_inv hc hr
  have hcfg := crun_cfg hr
  have hx := mem_lookup hi.nodup hk
  have hst : storedAt s k = o.storage.tree.toList := storedAt_of hx ho
  have hok := hi.objs a o ho
  have hsrc : o.storage.sourceId = k := points_fun ⟨_, ho, rfl⟩ (hi.addr _ hk)
  have hn := crun_numInv hc hr a o ho
  rw [hcfg] at hok hn
  refine ⟨?_, by rw [hst]; exact hok.newest, hsrc ▸ hn.newest, ⟨hok.expired, by rw [hst, ← hsrc]; exact hn.expired⟩,
    by rw [hst, ← hsrc]; exact hn.all⟩
  rw [hst]
  cases hL : o.storage.tree.toList with
  | nil =>
    obtain ⟨j, e, hj⟩ := hi.nonempty _ hk o ho hL
    have hp := (crun_pinv hr hcr).tr j _ hj
    exact .inl ⟨rfl, j, e, hp⟩
  | cons x L =>
    obtain ⟨key, e⟩ := x
    have h1 := hok.oldest (by rw [hL]; simp)
    rw [hL] at h1
    simp at h1
    have h2 := hok.near (key, e) (by rw [hL]; simp)
    subst h1
    exact .inr ⟨e, L, rfl, h2⟩

/-! ## The threads of Meta -/

/-- How a Meta thread came to be as it is. -/
inductive MetaMove (s : Conc) (evs : List Ev) (i : Nat) : Thread → Prop where
  | same {t : Thread} : s.threads[i]? = some t → MetaMove s evs i t
  | new : evs = [.call i .metaAll] → MetaMove s evs i .meta0
  | start : s.threads[i]? = some .meta0 → evs = [] → MetaMove s evs i (.meta1 [] s.index)
  | visit {seen : List (Str × MetaInfo)} {start : List (Str × Nat)} {k : Str} {a : Nat} {st : Storage} :
      s.threads[i]? = some (.meta1 seen start) → (k, a) ∈ s.index → k ∉ seen.map Prod.fst →
      s.heap[a]? = some { storage := st } → s.crashed = false → evs = [] → MetaMove s evs i (.meta1 (seen ++ [(k, st.info)]) start)
  | rangeEnd {seen todo : List (Str × MetaInfo)} {start : List (Str × Nat)} : s.threads[i]? = some (.meta1 seen start) →
      (∀ k a, (k, a) ∈ start → (k, a) ∈ s.index → k ∈ seen.map Prod.fst) → todo.Perm seen → evs = [] →
      MetaMove s evs i (.meta2 todo [])
  | count {todo acc : List (Str × MetaInfo)} {k : Str} {info : MetaInfo} {a : Nat} {st : Storage} :
      s.threads[i]? = some (.meta2 ((k, info) :: todo) acc) → s.index.lookup k = some a →
      s.heap[a]? = some { storage := st } → evs = [] →
      MetaMove s evs i (.meta2 todo (acc ++ [(k, { info with count := st.tree.size })]))

def Thread.isMeta : Thread → Bool
  | .meta0 => true
  | .meta1 .. => true
  | .meta2 .. => true
  | _ => false

theorem metaMove_goto {s : Conc} {evs : List Ev} {i j : Nat} {t t' : Thread} (ht : t.isMeta = true)
    (h : (s.threads.set j t')[i]? = some t) (hj : j < s.threads.length)
    (hm : j = i → t = t' → MetaMove s evs i t) : MetaMove s evs i t := by
  by_cases hij : j = i
  · subst hij
    rw [List.getElem?_set_self hj] at h
    exact hm rfl (by cases h; rfl)
  · rw [List.getElem?_set_ne hij] at h; exact .same h

theorem lt_of_thread {s : Conc} {i : Nat} {t : Thread} (h : s.threads[i]? = some t) : i < s.threads.length :=
  (List.getElem?_eq_some_iff.1 h).1

theorem metaMove_step {s s' : Conc} {evs : List Ev} (hs : CStep s evs s') {i : Nat} {t : Thread}
    (h : s'.threads[i]? = some t) (ht : t.isMeta = true) : MetaMove s evs i t := by
  cases hs with
  | call c hp hcr =>
    by_cases hi : i < s.threads.length
    · have h : (s.threads ++ [c.start])[i]? = some t := h
      rw [List.getElem?_append_left hi] at h; exact .same h
    · have h : (s.threads ++ [c.start])[i]? = some t := h
      have hi' : i = s.threads.length := by
        have := (List.getElem?_eq_some_iff.1 h).1
        simp at this; omega
      subst hi'
      rw [List.getElem?_concat_length] at h; cases h
      cases c <;> first | exact .new rfl | cases ht
  | putLookup ht' hcr =>
    have hlt := lt_of_thread ht'
    unfold Conc.getOrInit at h
    split at h <;> exact metaMove_goto ht h hlt (fun _ he => by rw [he] at ht; cases ht)
  | metaStart ht' hcr => exact metaMove_goto ht h (lt_of_thread ht') (by rintro rfl rfl; exact .start ht' rfl)
  | metaVisit ht' hk hn ho hcr =>
    exact metaMove_goto ht h (lt_of_thread ht') (by rintro rfl rfl; exact .visit ht' hk hn ho hcr rfl)
  | metaRangeEnd ht' hall hp hcr =>
    exact metaMove_goto ht h (lt_of_thread ht') (by rintro rfl rfl; exact .rangeEnd ht' hall hp rfl)
  | metaCount ht' hx ho hcr =>
    exact metaMove_goto ht h (lt_of_thread ht') (by rintro rfl rfl; exact .count ht' hx ho rfl)
  | pruneEnd now ht' hcr =>
    exact metaMove_goto ht h (lt_of_thread ht') (fun _ he => by rw [he] at ht; cases ht)
  | putCrash => exact .same h
  | getCrash => exact .same h
  | metaCrash => exact .same h
  | pruneVisitCrash => exact .same h
  | prunePopCrash => exact .same h
  | putInsert _ ht' => exact metaMove_goto ht h (lt_of_thread ht') (fun _ he => by rw [he] at ht; cases ht)
  | putFinish ht' => exact metaMove_goto ht h (lt_of_thread ht') (fun _ he => by rw [he] at ht; cases ht)
  | getMiss ht' => exact metaMove_goto ht h (lt_of_thread ht') (fun _ he => by rw [he] at ht; cases ht)
  | getHit ht' => exact metaMove_goto ht h (lt_of_thread ht') (fun _ he => by rw [he] at ht; cases ht)
  | getRead ht' => exact metaMove_goto ht h (lt_of_thread ht') (fun _ he => by rw [he] at ht; cases ht)
  | metaEnd ht' => exact metaMove_goto ht h (lt_of_thread ht') (fun _ he => by rw [he] at ht; cases ht)
  | pruneNothing _ ht' => exact metaMove_goto ht h (lt_of_thread ht') (fun _ he => by rw [he] at ht; cases ht)
  | pruneStart _ ht' => exact metaMove_goto ht h (lt_of_thread ht') (fun _ he => by rw [he] at ht; cases ht)
  | pruneVisit ht' => exact metaMove_goto ht h (lt_of_thread ht') (fun _ he => by rw [he] at ht; cases ht)
  | pruneRangeEnd ht' => exact metaMove_goto ht h (lt_of_thread ht') (fun _ he => by rw [he] at ht; cases ht)
  | prunePopNone ht' => exact metaMove_goto ht h (lt_of_thread ht') (fun _ he => by rw [he] at ht; cases ht)
  | prunePopLast ht' => exact metaMove_goto ht h (lt_of_thread ht') (fun _ he => by rw [he] at ht; cases ht)
  | prunePopMore ht' => exact metaMove_goto ht h (lt_of_thread ht') (fun _ he => by rw [he] at ht; cases ht)

/-- A moment of the run since the call at which `P` held. -/
def Moment (cfg : Config) (i : Nat) (evs : List Ev) (s : Conc) (P : List Ev → Conc → Prop) : Prop :=
  ∃ p q s1, evs = p ++ q ∧ Ev.call i .metaAll ∈ p ∧ CRun cfg p s1 ∧ CSteps s1 q s ∧ P p s1

theorem Moment.mono {cfg : Config} {i : Nat} {evs evs' : List Ev} {s s' : Conc} {P : List Ev → Conc → Prop}
    (h : Moment cfg i evs s P) (hs : CStep s evs' s') : Moment cfg i (evs ++ evs') s' P := by
  obtain ⟨p, q, s1, rfl, h2, h3, h4, h5⟩ := h
  exact ⟨p, q ++ evs', s1, by rw [List.append_assoc], h2, h3, h4.step hs, h5⟩

def Counted (cfg : Config) (k : Str) (m : MetaInfo) (i : Nat) (evs : List Ev) (s : Conc) : Prop :=
  m.count = (storedAt s k).length ∧
    Moment cfg i evs s fun p s1 => Describes cfg p s1 k m

theorem describes_count {cfg : Config} {evs : List Ev} {s : Conc} {k : Str} {m : MetaInfo} (c : Int)
    (h : Describes cfg evs s k m) : Describes cfg evs s k { m with count := c } :=
  ⟨h.oldest, h.newest, h.newest_put, h.expired, h.expired_all⟩

def MetaOk (cfg : Config) (evs : List Ev) (s : Conc) (i : Nat) : Thread → Prop
  | .meta0 => Ev.call i .metaAll ∈ evs
  | .meta1 seen _ => Ev.call i .metaAll ∈ evs ∧ (seen.map Prod.fst).Nodup ∧
      ∀ k m, (k, m) ∈ seen → Moment cfg i evs s fun p s1 => Describes cfg p s1 k m
  | .meta2 todo acc => Ev.call i .metaAll ∈ evs ∧ ((acc ++ todo).map Prod.fst).Nodup ∧
      (∀ k m, (k, m) ∈ todo → Moment cfg i evs s fun p s1 => Describes cfg p s1 k m) ∧
      ∀ k m, (k, m) ∈ acc → Moment cfg i evs s fun p s1 => Counted cfg k m i p s1
  | _ => True

theorem metaOk_mono {cfg : Config} {i : Nat} {evs evs' : List Ev} {s s' : Conc} {t : Thread}
    (h : MetaOk cfg evs s i t) (hs : CStep s evs' s') : MetaOk cfg (evs ++ evs') s' i t := by
  cases t <;> first
    | exact trivial
    | exact List.mem_append_left _ h
    | exact ⟨List.mem_append_left _ h.1, h.2.1, fun k m hm => (h.2.2 k m hm).mono hs⟩
    | exact ⟨List.mem_append_left _ h.1, h.2.1, fun k m hm => (h.2.2.1 k m hm).mono hs, fun k m hm => (h.2.2.2 k m hm).mono hs⟩

theorem moment_now {cfg : Config} {i : Nat} {evs : List Ev} {s s' : Conc} {P : List Ev → Conc → Prop}
    (hr : CRun cfg evs s) (hm : Ev.call i .metaAll ∈ evs) (h : P evs s) (hs : CStep s [] s') :
    Moment cfg i (evs ++ []) s' P :=
  ⟨evs, [], s, rfl, hm, hr, CSteps.step (.refl s) hs, h⟩

theorem metaOk_step {cfg : Config} (hc : 1 ≤ cfg.maxPerSource) {evs evs' : List Ev} {s s' : Conc} (hr : CRun cfg evs s)
    (hs : CStep s evs' s') (h : ∀ i t, s.threads[i]? = some t → MetaOk cfg evs s i t) :
    ∀ i t, s'.threads[i]? = some t → MetaOk cfg (evs ++ evs') s' i t := by
  intro i t ht
  by_cases hm : t.isMeta = true
  · cases metaMove_step hs ht hm with
    | same h1 => exact metaOk_mono (h i t h1) hs
    | new he => subst he; exact List.mem_append_right _ (by simp)
    | start h1 he =>
      subst he
      exact ⟨List.mem_append_left _ (h i _ h1), by simp, by simp⟩
    | @visit seen start k a st h1 hk hn ho hcr he =>
      subst he
      obtain ⟨g1, g2, g3⟩ := metaOk_mono (h i _ h1) hs
      refine ⟨g1, ?_, ?_⟩
      · rw [List.map_append, List.nodup_append]
        refine ⟨g2, by simp, ?_⟩
        intro x hx y hy
        simp at hy; subst hy
        rintro rfl; exact hn hx
      · intro k' m hm
        rcases List.mem_append.1 hm with hm | hm
        · exact g3 k' m hm
        · simp at hm
          obtain ⟨rfl, rfl⟩ := hm
          exact moment_now hr (h i _ h1).1 (describes_visit hc hr hcr hk ho) hs
    | @rangeEnd seen todo start h1 hall hp he =>
      subst he
      obtain ⟨g1, g2, g3⟩ := metaOk_mono (h i _ h1) hs
      exact ⟨g1, by rw [List.nil_append]; exact (hp.map _).nodup_iff.2 g2, fun k m hm => g3 k m (hp.mem_iff.1 hm), by simp⟩
    | @count todo acc k info a st h1 hx ho he =>
      subst he
      obtain ⟨g1, g2, g3, g4⟩ := metaOk_mono (h i _ h1) hs
      refine ⟨g1, by simpa using g2, fun k m hm => g3 k m (List.mem_cons_of_mem _ hm), ?_⟩
      intro k' m hm
      rcases List.mem_append.1 hm with hm | hm
      · exact g4 k' m hm
      · simp at hm
        obtain ⟨rfl, rfl⟩ := hm
        refine moment_now hr (h i _ h1).1 ⟨?_, ?_⟩ hs
        · rw [storedAt_of hx ho, Tree.size_eq_length]
        · obtain ⟨p, q, s1, e1, e2, e3, e4, e5⟩ := (h i _ h1).2.2.1 k' info (by simp)
          exact ⟨p, q, s1, e1, e2, e3, e4, describes_count _ e5⟩
  · cases t <;> first | exact trivial | exact absurd rfl hm

theorem crun_metaOk {cfg : Config} (hc : 1 ≤ cfg.maxPerSource) {evs : List Ev} {s : Conc} (h : CRun cfg evs s) :
    ∀ i t, s.threads[i]? = some t → MetaOk cfg evs s i t := by
  induction h with
  | nil => intro i t ht; simp at ht
  | step hr hs ih => exact metaOk_step hc hr hs ih

/-! ## Completeness -/

theorem index_stays {s s' : Conc} {evs : List Ev} (hs : CStep s evs s') {k : Str} {a : Nat} (hd : NeverDropped evs k)
    (h : (k, a) ∈ s.index) : (k, a) ∈ s'.index := by
  cases hs with
  | putLookup ht hcr =>
    unfold Conc.getOrInit
    split
    · exact h
    · exact List.mem_append_left _ h
  | @prunePopLast i n hh hh' ptrs x a' st k' v ht hpop ha ho hl hl' hcr =>
    refine List.mem_filter.2 ⟨h, ?_⟩
    simp only [ne_eq, decide_not, Bool.not_eq_true', decide_eq_false_iff_not]
    intro hk
    exact hd i (by rw [hk]; simp)
  | _ => exact h

def HasSource (k : Str) (a : Nat) : Thread → Prop
  | .meta1 _ start => (k, a) ∈ start
  | .meta2 todo acc => k ∈ (acc ++ todo).map Prod.fst
  | _ => True

/-- A source that is in the index when Meta is called and stays is on its way into the answer. -/
theorem csteps_hasSource {s0 s : Conc} {evs : List Ev} (h : CSteps s0 evs s) {k : Str} {a : Nat}
    (hk : (k, a) ∈ s0.index) {i : Nat} (hi : s0.threads.length ≤ i) (hd : NeverDropped evs k) :
    (k, a) ∈ s.index ∧ ∀ t, s.threads[i]? = some t → HasSource k a t := by
  induction h with
  | refl => exact ⟨hk, fun t ht => by rw [List.getElem?_eq_none hi] at ht; cases ht⟩
  | @step s' s'' evs evs' h hs ih =>
    obtain ⟨h1, h2⟩ := ih (neverDropped_left hd)
    refine ⟨index_stays hs (fun j hm => hd j (List.mem_append_right _ hm)) h1, ?_⟩
    intro t ht
    by_cases hm : t.isMeta = true
    · cases metaMove_step hs ht hm with
      | same h3 => exact h2 t h3
      | new he => exact trivial
      | start h3 he => exact h1
      | visit h3 => have := h2 _ h3; exact this
      | @rangeEnd seen todo start h3 hall hp he =>
        have := hall k a (h2 _ h3) h1
        exact (hp.map Prod.fst).mem_iff.2 this
      | count h3 => have := h2 _ h3; simpa [HasSource] using this
    · cases t <;> first | exact trivial | exact absurd rfl hm

theorem csteps_split {s0 s : Conc} {evs : List Ev} (h : CSteps s0 evs s) {pre post : List Ev} {e : Ev}
    (he : evs = pre ++ e :: post) :
    ∃ evs0 es1 es2 s1 s2, CSteps s0 evs0 s1 ∧ CStep s1 (es1 ++ e :: es2) s2 ∧ pre = evs0 ++ es1 := by
  induction h generalizing post with
  | refl => simp at he
  | @step s' s'' evs evs' h hs ih =>
    rcases List.append_eq_append_iff.1 he with ⟨a, h1, h2⟩ | ⟨c, h1, h2⟩
    · exact ⟨evs, a, post, s', s'', h, by rw [← h2]; exact hs, h1⟩
    · cases c with
      | nil => exact ⟨evs, [], post, s', s'', h, by simp at h2; rw [List.nil_append, h2]; exact hs, by simpa using h1.symm⟩
      | cons x c =>
        simp at h2
        obtain ⟨rfl, h2⟩ := h2
        exact ih (post := c) h1

end LogCache
