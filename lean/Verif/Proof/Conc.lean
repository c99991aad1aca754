import Verif.Spec.Conc
import Verif.Proof.Invariant
import Verif.Proof.Maps
import Verif.Proof.Series
import Verif.Proof.Heap
import Verif.Proof.Get
/-! # Invariants of concurrent runs -/
namespace LogCache
open Spec

/-! ## Lists -/

theorem lookup_append_new {β : Type} (m : List (Str × β)) (k : Str) (v : β) (a : Str)
    (h : m.lookup k = none) :
    (m ++ [(k, v)]).lookup a = if a = k then some v else m.lookup a := by
  induction m with
  | nil =>
    by_cases hak : a = k
    · simp [hak]
    · have : (a == k) = false := by simpa using hak
      simp [List.lookup, this, hak]
  | cons p m ih =>
    obtain ⟨q, w⟩ := p
    have hq : (k == q) = false := by
      rw [List.lookup_cons] at h
      cases hkq : k == q with
      | true => rw [hkq] at h; cases h
      | false => rfl
    have hm : m.lookup k = none := by rw [List.lookup_cons, hq] at h; exact h
    rw [List.cons_append, List.lookup_cons, List.lookup_cons, ih hm]
    cases haq : a == q with
    | true =>
      have : a ≠ k := by
        intro hak; rw [hak] at haq; rw [haq] at hq; cases hq
      simp [this]
    | false => rfl

theorem not_mem_of_lookup_none {β : Type} {m : List (Str × β)} {k : Str} (h : m.lookup k = none) :
    k ∉ m.map Prod.fst := by
  intro hm
  have := lookup_isSome_mem.2 hm
  rw [h] at this; cases this

theorem mem_index_append {β : Type} {m : List (Str × β)} {k : Str} {v : β} {p : Str × β}
    (h : p ∈ m ++ [(k, v)]) : p ∈ m ∨ p = (k, v) := by
  rcases List.mem_append.1 h with h | h
  · exact .inl h
  · exact .inr (List.mem_singleton.1 h)

/-! ## Objects and threads -/

/-- The object at `a` belongs to source `k`. -/
def Points (heap : List Obj) (k : Str) (a : Nat) : Prop :=
  ∃ o, heap[a]? = some o ∧ o.storage.sourceId = k

def HeapLe (h h' : List Obj) : Prop := ∀ k a, Points h k a → Points h' k a

theorem points_fun {heap : List Obj} {k k' : Str} {a : Nat} (h : Points heap k a)
    (h' : Points heap k' a) : k = k' := by
  obtain ⟨o, h1, rfl⟩ := h
  obtain ⟨o', h2, rfl⟩ := h'
  rw [h1] at h2; cases h2; rfl

theorem heapLe_refl (h : List Obj) : HeapLe h h := fun _ _ h => h

theorem heapLe_append (h : List Obj) (o : Obj) : HeapLe h (h ++ [o]) := by
  rintro k a ⟨o', h1, h2⟩
  refine ⟨o', ?_, h2⟩
  rw [List.getElem?_append_left]
  · exact h1
  · exact (List.getElem?_eq_some_iff.1 h1).1

theorem heapLe_set {h : List Obj} {a : Nat} {o o' : Obj} (ho : h[a]? = some o)
    (hs : o'.storage.sourceId = o.storage.sourceId) : HeapLe h (h.set a o') := by
  rintro k b ⟨p, h1, h2⟩
  by_cases hab : a = b
  · subst hab
    rw [ho] at h1; cases h1
    refine ⟨o', ?_, hs.trans h2⟩
    rw [List.getElem?_set_self (List.getElem?_eq_some_iff.1 ho).1]
  · exact ⟨p, by rw [List.getElem?_set_ne hab]; exact h1, h2⟩

/-- Objects, except the one at `a`, are where they were. -/
theorem getElem?_set_cases {h : List Obj} {a b : Nat} {o' p : Obj} (hb : (h.set a o')[b]? = some p) :
    (a = b ∧ p = o') ∨ (a ≠ b ∧ h[b]? = some p) := by
  by_cases hab : a = b
  · subst hab
    rw [List.getElem?_set] at hb
    simp only [if_true] at hb
    split at hb
    · cases hb; exact .inl ⟨rfl, rfl⟩
    · cases hb
  · rw [List.getElem?_set_ne hab] at hb; exact .inr ⟨hab, hb⟩

def ThrOk (heap : List Obj) : Thread → Prop
  | .put2 src a _ => Points heap src a
  | .put3 a .. => ∃ k, Points heap k a
  | .get2 src a _ => Points heap src a
  | .prune1 _ _ ptrs _ => ∀ p ∈ ptrs, Points heap p.1 p.2
  | .prune2 _ _ ptrs => ∀ p ∈ ptrs, Points heap p.1 p.2
  | _ => True

theorem thrOk_le {h h' : List Obj} (hl : HeapLe h h') {t : Thread} (ht : ThrOk h t) : ThrOk h' t := by
  cases t <;> first
    | exact trivial
    | exact hl _ _ ht
    | exact fun p hp => hl _ _ (ht p hp)
    | (obtain ⟨k, hk⟩ := ht; exact ⟨k, hl _ _ hk⟩)

theorem thr_set {P : Nat → Thread → Prop} {ts : List Thread} {i : Nat} {t : Thread}
    (h : ∀ j u, j ≠ i → ts[j]? = some u → P j u) (ht : P i t) :
    ∀ j u, (ts.set i t)[j]? = some u → P j u := by
  intro j u hu
  by_cases hij : i = j
  · subst hij
    rw [List.getElem?_set] at hu
    simp only [if_true] at hu
    split at hu
    · cases hu; exact ht
    · cases hu
  · rw [List.getElem?_set_ne hij] at hu
    exact h j u (fun h => hij h.symm) hu

theorem thr_append {P : Nat → Thread → Prop} {ts : List Thread} {t : Thread}
    (h : ∀ j u, ts[j]? = some u → P j u) (ht : P ts.length t) :
    ∀ j u, (ts ++ [t])[j]? = some u → P j u := by
  intro j u hu
  by_cases hj : j < ts.length
  · rw [List.getElem?_append_left hj] at hu; exact h j u hu
  · rw [List.getElem?_append_right (by omega)] at hu
    have : j - ts.length = 0 := by
      apply Classical.byContradiction; intro hne
      rw [List.getElem?_eq_none (by simp; omega)] at hu; cases hu
    rw [this] at hu
    simp only [List.length_cons, List.length_nil, Nat.zero_add, List.getElem?_cons_zero, Option.some.injEq] at hu
    subst hu
    rw [show j = ts.length by omega]; exact ht

/-- What holds of one storage. -/
structure ObjOk (cfg : Config) (evs : List Ev) (st : Storage) : Prop where
  bst : st.tree.BST
  cap : (st.tree.toList.length : Int) ≤ cfg.maxPerSource
  newest : ∀ x ∈ st.tree.toList, x.2.timestamp ≤ st.info.newest
  near : ∀ x ∈ st.tree.toList, x.2.timestamp ≤ x.1 ∧ x.1 ≤ x.2.timestamp + cfg.maxFudge
  expired : 0 ≤ st.info.expired
  oldest : st.tree.toList ≠ [] → st.tree.toList.head?.map Prod.fst = some st.info.oldest
  origin : ∀ x ∈ st.tree.toList, ∃ i now, Ev.commit i st.sourceId x.2 now ∈ evs

theorem ObjOk.mono {cfg : Config} {evs evs' : List Ev} {st : Storage} (h : ObjOk cfg evs st) :
    ObjOk cfg (evs ++ evs') st :=
  ⟨h.bst, h.cap, h.newest, h.near, h.expired, h.oldest, fun x hx => by
    obtain ⟨i, now, hm⟩ := h.origin x hx
    exact ⟨i, now, List.mem_append_left _ hm⟩⟩

structure CInv (evs : List Ev) (s : Conc) : Prop where
  nodup : (s.index.map Prod.fst).Nodup
  addr : ∀ p ∈ s.index, Points s.heap p.1 p.2
  objs : ∀ (a : Nat) (o : Obj), s.heap[a]? = some o → ObjOk s.cfg evs o.storage
  thr : ∀ (i : Nat) (t : Thread), s.threads[i]? = some t → ThrOk s.heap t
  nonempty : ∀ p ∈ s.index, ∀ o : Obj, s.heap[p.2]? = some o → o.storage.tree.toList = [] →
    ∃ (j : Nat) (e : Envelope), s.threads[j]? = some (Thread.put2 p.1 p.2 e)

theorem objOk_new {cfg : Config} (hc : 1 ≤ cfg.maxPerSource) (evs : List Ev) (src : Str) :
    ObjOk cfg evs { sourceId := src } :=
  ⟨Tree.bst_nil, by simp [Tree.toList]; omega, by simp [Tree.toList], by simp [Tree.toList], by simp,
    by simp [Tree.toList], by simp [Tree.toList]⟩

theorem objOk_insert {cfg : Config} (hc : 1 ≤ cfg.maxPerSource) {evs : List Ev} {now : Int}
    {g g' : Globals} {s s' : Storage} {e : Envelope} {i : Nat} (h : ObjOk cfg evs s)
    (hi : insertOrSwap cfg now g s e = some (g', s')) :
    ObjOk cfg (evs ++ [.commit i s.sourceId e now]) s' ∧ s'.sourceId = s.sourceId ∧
      s'.tree.toList ≠ [] ∧ e ∈ s'.tree.toList.map Prod.snd := by
  obtain ⟨f, hf⟩ := insertOrSwap_spec h.bst hi
  have hok := insert_ok hc rfl h.bst h.cap h.newest h.near h.expired hf
  refine ⟨⟨hok.bst, hok.cap, hok.newest, hok.near, hok.expired, fun _ => hok.oldest, ?_⟩, hf.sourceId,
    hok.nonempty, ?_⟩
  · intro x hx
    rw [hf.toList] at hx
    rcases Tree.mem_insertKV hx with rfl | hx
    · exact ⟨i, now, by rw [hf.sourceId]; simp⟩
    · obtain ⟨j, now', hm⟩ := h.origin x (mem_makeRoom hx)
      exact ⟨j, now', by rw [hf.sourceId]; exact List.mem_append_left _ hm⟩
  · rw [hf.toList]
    exact List.mem_map.2 ⟨_, mem_insertKV_self, rfl⟩

theorem mem_eraseK_of {L : List (Int × Envelope)} {k : Int} {x : Int × Envelope}
    (h : x ∈ L.tail) : x ∈ L := List.mem_of_mem_tail h

theorem toList_remove_left {t : Tree Envelope} (hb : t.BST) {k : Int} {v : Envelope}
    (hl : t.left = some (k, v)) : (t.remove k).toList = t.toList.tail ∧ t.toList ≠ [] ∧ (t.remove k).BST := by
  rw [Tree.left_eq_head] at hl
  refine ⟨?_, ?_, Tree.bst_remove hb⟩
  · rw [Tree.toList_remove hb]
    cases hL : t.toList with
    | nil => rw [hL] at hl; cases hl
    | cons p L =>
      rw [hL] at hl; simp at hl; subst hl
      exact eraseK_head (by have := hb; unfold Tree.BST at this; rwa [hL] at this)
  · intro h; rw [h] at hl; cases hl

theorem objOk_remove {cfg : Config} {evs : List Ev} {st : Storage} (h : ObjOk cfg evs st) {k : Int}
    {v : Envelope} (hl : st.tree.left = some (k, v)) (info : MetaInfo)
    (hnew : info.newest = st.info.newest) (hexp : 0 ≤ info.expired)
    (hold : (st.tree.remove k).toList ≠ [] → (st.tree.remove k).toList.head?.map Prod.fst = some info.oldest) :
    ObjOk cfg evs { st with tree := st.tree.remove k, info := info } := by
  obtain ⟨h1, h2, h3⟩ := toList_remove_left h.bst hl
  refine ⟨h3, ?_, ?_, ?_, hexp, hold, ?_⟩
  · simp only; rw [h1, List.length_tail]; have := h.cap; omega
  · intro x hx; simp only at hx ⊢; rw [h1] at hx; rw [hnew]; exact h.newest x (List.mem_of_mem_tail hx)
  · intro x hx; simp only at hx ⊢; rw [h1] at hx; exact h.near x (List.mem_of_mem_tail hx)
  · intro x hx; simp only at hx ⊢; rw [h1] at hx; exact h.origin x (List.mem_of_mem_tail hx)

/-- A step of thread `i` that changes neither the heap nor the index. -/
theorem cinv_goto {evs evs' : List Ev} {s : Conc} (h : CInv evs s) {i : Nat} {t t' : Thread} (g : Globals)
    (ht : s.threads[i]? = some t) (hnp : ∀ src a e, t ≠ .put2 src a e) (ht' : ThrOk s.heap t') :
    CInv (evs ++ evs') ({ s with g := g }.goto i t') := by
  refine ⟨h.nodup, h.addr, fun a o ho => (h.objs a o ho).mono,
    thr_set (fun j u _ hu => h.thr j u hu) ht', ?_⟩
  intro p hp o ho he
  obtain ⟨j, e, hj⟩ := h.nonempty p hp o ho he
  refine ⟨j, e, ?_⟩
  have : i ≠ j := by rintro rfl; rw [ht] at hj; cases hj; exact hnp _ _ _ rfl
  show (s.threads.set i t')[j]? = _
  rw [List.getElem?_set_ne this]; exact hj

/-- The same for one object replaced. -/
theorem cinv_set {evs evs' : List Ev} {s : Conc} (h : CInv evs s) {i a : Nat} {t' : Thread}
    {o o' : Obj} (g : Globals) (ho : s.heap[a]? = some o)
    (hs : o'.storage.sourceId = o.storage.sourceId) (hok : ObjOk s.cfg (evs ++ evs') o'.storage)
    (hne : o'.storage.tree.toList = [] → o.storage.tree.toList = [])
    (hput : ∀ src b e, s.threads[i]? = some (.put2 src b e) → b = a ∧ o'.storage.tree.toList ≠ [])
    (ht' : ThrOk s.heap t') :
    CInv (evs ++ evs') ({ s with g := g, heap := s.heap.set a o' }.goto i t') := by
  have hle := heapLe_set ho hs
  refine ⟨h.nodup, fun p hp => hle _ _ (h.addr p hp), ?_, ?_, ?_⟩
  · intro b p hp
    rcases getElem?_set_cases hp with ⟨rfl, rfl⟩ | ⟨-, hp⟩
    · exact hok
    · exact (h.objs b p hp).mono
  · exact thr_set (fun j u _ hu => thrOk_le hle (h.thr j u hu)) (thrOk_le hle ht')
  · intro p hp q hq he
    have key : ∃ o, s.heap[p.2]? = some o ∧ o.storage.tree.toList = [] ∧ (p.2 = a → o'.storage.tree.toList = []) := by
      rcases getElem?_set_cases hq with ⟨hab, rfl⟩ | ⟨hab, hp'⟩
      · exact ⟨o, by rw [← hab]; exact ho, hne he, fun _ => he⟩
      · exact ⟨q, hp', he, fun h => absurd h.symm hab⟩
    obtain ⟨q', hq', he', hpa⟩ := key
    obtain ⟨j, e, hj⟩ := h.nonempty p hp q' hq' he'
    refine ⟨j, e, ?_⟩
    have : i ≠ j := by
      rintro rfl
      obtain ⟨h1, h2⟩ := hput _ _ _ hj
      exact h2 (hpa h1)
    show (s.threads.set i t')[j]? = _
    rw [List.getElem?_set_ne this]; exact hj

theorem cinv_step {evs evs' : List Ev} {s s' : Conc} (hc : 1 ≤ s.cfg.maxPerSource) (h : CInv evs s)
    (hs : CStep s evs' s') : CInv (evs ++ evs') s' := by
  cases hs with
  | call c hp hcr =>
    refine ⟨h.nodup, h.addr, fun a o ho => (h.objs a o ho).mono,
      thr_append h.thr (by cases c <;> exact trivial), ?_⟩
    intro p hp o ho he
    obtain ⟨j, e, hj⟩ := h.nonempty p hp o ho he
    refine ⟨j, e, ?_⟩
    show (s.threads ++ _)[j]? = _
    rw [List.getElem?_append_left (List.getElem?_eq_some_iff.1 hj).1]; exact hj
  | @putLookup i src e ht hcr =>
    unfold Conc.getOrInit
    cases hx : s.index.lookup src with
    | some a => exact cinv_goto h _ ht (by intros; simp) (h.addr _ (lookup_mem hx))
    | none =>
      have hle := heapLe_append s.heap { storage := { sourceId := src } }
      have hnew : Points (s.heap ++ [{ storage := { sourceId := src } }]) src s.heap.length :=
        ⟨_, List.getElem?_concat_length, rfl⟩
      refine ⟨?_, ?_, ?_, ?_, ?_⟩
      · show ((s.index ++ [(src, s.heap.length)]).map Prod.fst).Nodup
        rw [List.map_append, List.nodup_append]
        refine ⟨h.nodup, by simp, ?_⟩
        intro a ha b hb
        simp at hb; subst hb
        rintro rfl
        exact not_mem_of_lookup_none hx ha
      · intro p hp
        rcases mem_index_append hp with hp | rfl
        · exact hle _ _ (h.addr p hp)
        · exact hnew
      · intro a o ho
        have ho : (s.heap ++ [{ storage := { sourceId := src } }])[a]? = some o := ho
        by_cases ha : a < s.heap.length
        · rw [List.getElem?_append_left ha] at ho
          exact (h.objs a o ho).mono
        · have ha' : a = s.heap.length := by
            have := (List.getElem?_eq_some_iff.1 ho).1
            simp at this; omega
          subst ha'
          rw [List.getElem?_concat_length] at ho; cases ho
          exact objOk_new hc _ _
      · exact thr_set (fun j u _ hu => thrOk_le hle (h.thr j u hu)) hnew
      · intro p hp o ho he
        rcases mem_index_append hp with hp | rfl
        · obtain ⟨o', ho', -⟩ := h.addr p hp
          have hlt := (List.getElem?_eq_some_iff.1 ho').1
          have ho : (s.heap ++ [{ storage := { sourceId := src } }])[p.2]? = some o := ho
          rw [List.getElem?_append_left hlt] at ho
          obtain ⟨j, e', hj⟩ := h.nonempty p hp o ho he
          refine ⟨j, e', ?_⟩
          have : i ≠ j := by rintro rfl; rw [ht] at hj; cases hj
          show (s.threads.set i _)[j]? = _
          rw [List.getElem?_set_ne this]; exact hj
        · refine ⟨i, e, ?_⟩
          show (s.threads.set i _)[i]? = _
          rw [List.getElem?_set_self (List.getElem?_eq_some_iff.1 ht).1]
  | @putInsert i src a e st st' g' now ht ho hi hcr =>
    have hp := h.thr i _ ht
    obtain ⟨h1, h2, h3, -⟩ := objOk_insert (i := i) hc (h.objs a _ ho) hi
    have hsrc : st.sourceId = src := points_fun ⟨_, ho, rfl⟩ hp
    rw [hsrc] at h1
    refine cinv_set h _ ho h2 h1 (fun he => absurd he h3) ?_ ⟨src, hp⟩
    intro src' b e' hb
    rw [ht] at hb; cases hb; exact ⟨rfl, h3⟩
  | @putCrash i src a e st now ht ho hi hcr =>
    exact ⟨h.nodup, h.addr, fun a o ho => (h.objs a o ho).mono, h.thr, h.nonempty⟩
  | @putFinish i a oldest loaded now o ht ho hcr =>
    exact cinv_set (o' := { o with locked := false }) h _ ho rfl (h.objs a o ho).mono (fun he => he)
      (by intro src b e hb; rw [ht] at hb; cases hb) trivial
  | getMiss ht hx hcr => exact cinv_goto h s.g ht (by intros; simp) trivial
  | getHit ht hx hcr => exact cinv_goto h s.g ht (by intros; simp) (h.addr _ (lookup_mem hx))
  | getRead ht ho hr hcr => exact cinv_goto h _ ht (by intros; simp) trivial
  | getCrash ht ho hr hcr =>
    exact ⟨h.nodup, h.addr, fun a o ho => (h.objs a o ho).mono, h.thr, h.nonempty⟩
  | metaStart ht hcr => exact cinv_goto h s.g ht (by intros; simp) trivial
  | metaVisit ht hk hn ho hcr => exact cinv_goto h s.g ht (by intros; simp) trivial
  | metaRangeEnd ht hall hp hcr => exact cinv_goto h s.g ht (by intros; simp) trivial
  | metaCount ht hx ho hcr => exact cinv_goto h s.g ht (by intros; simp) trivial
  | metaCrash ht hx hcr =>
    exact ⟨h.nodup, h.addr, fun a o ho => (h.objs a o ho).mono, h.thr, h.nonempty⟩
  | metaEnd ht hcr => exact cinv_goto h s.g ht (by intros; simp) trivial
  | pruneNothing mc ht hn hcr => exact cinv_goto h s.g ht (by intros; simp) trivial
  | pruneStart mc ht hn hcr => exact cinv_goto h s.g ht (by intros; simp) (by intro p hp; cases hp)
  | pruneVisit ht hk hn ho hl hcr =>
    refine cinv_goto h s.g ht (by intros; simp) ?_
    intro p hp
    rcases mem_index_append hp with hp | rfl
    · exact h.thr _ _ ht p hp
    · exact h.addr _ hk
  | pruneVisitCrash ht hk hn ho hl hcr =>
    exact ⟨h.nodup, h.addr, fun a o ho => (h.objs a o ho).mono, h.thr, h.nonempty⟩
  | pruneRangeEnd ht hall hcr => exact cinv_goto h s.g ht (by intros; simp) (fun p hp => h.thr _ _ ht p hp)
  | prunePopNone ht hpop ha ho hl hcr => exact cinv_goto h s.g ht (by intros; simp) (fun p hp => h.thr _ _ ht p hp)
  | @prunePopLast i n hh hh' ptrs x a st k v ht hpop ha ho hl hl' hcr =>
    have hp : Points s.heap x.sourceId a := h.thr _ _ ht _ (lookup_mem ha)
    have hrem := toList_remove_left (h.objs a _ ho).bst hl
    have hnil : (st.tree.remove k).toList = [] := by
      rw [Tree.left_eq_head] at hl'; exact List.head?_eq_none_iff.1 hl'
    have hok : ObjOk s.cfg evs { st with tree := st.tree.remove k } :=
      objOk_remove (h.objs a _ ho) hl st.info rfl (h.objs a _ ho).expired (fun hne => absurd hnil hne)
    have hle : HeapLe s.heap (s.heap.set a { storage := { st with tree := st.tree.remove k } }) :=
      heapLe_set ho rfl
    refine ⟨?_, ?_, ?_, ?_, ?_⟩
    · exact (List.filter_sublist.map _).nodup h.nodup
    · intro p hp; exact hle _ _ (h.addr p (List.mem_filter.1 hp).1)
    · intro b p hp
      rcases getElem?_set_cases hp with ⟨rfl, rfl⟩ | ⟨-, hp⟩
      · exact hok.mono
      · exact (h.objs b p hp).mono
    · exact thr_set (fun j u _ hu => thrOk_le hle (h.thr j u hu)) (thrOk_le hle (t := .prune2 n hh' ptrs) (fun p hp => h.thr _ _ ht p hp))
    · intro p hpm q hq he
      obtain ⟨hpi, hpk⟩ := List.mem_filter.1 hpm
      simp at hpk
      rcases getElem?_set_cases hq with ⟨hab, rfl⟩ | ⟨hab, hq⟩
      · exact absurd (points_fun (h.addr p hpi) (hab ▸ hp)) hpk
      · obtain ⟨j, e, hj⟩ := h.nonempty p hpi q hq he
        refine ⟨j, e, ?_⟩
        have : i ≠ j := by rintro rfl; rw [ht] at hj; cases hj
        show (s.threads.set i _)[j]? = _
        rw [List.getElem?_set_ne this]; exact hj
  | @prunePopMore i n hh hh' ptrs x a st k k' v v' ht hpop ha ho hl hl' hcr =>
    have hrem := toList_remove_left (h.objs a _ ho).bst hl
    rw [Tree.left_eq_head] at hl'
    have hne : (st.tree.remove k).toList ≠ [] := by intro h; rw [h] at hl'; cases hl'
    have hok := objOk_remove (h.objs a _ ho) hl
      { st.info with expired := st.info.expired + 1, oldest := k' } rfl
      (by have := (h.objs a _ ho).expired; simp only at this ⊢; omega) (fun _ => by rw [hl']; rfl)
    refine cinv_set (o' := { storage := { st with tree := st.tree.remove k, info :=
      { st.info with expired := st.info.expired + 1, oldest := k' } } }) h _ ho rfl hok.mono
      (fun he => absurd he hne) ?_ (fun p hp => h.thr _ _ ht p hp)
    intro src b e hb; rw [ht] at hb; cases hb
  | prunePopCrash ht hpop hcr =>
    exact ⟨h.nodup, h.addr, fun a o ho => (h.objs a o ho).mono, h.thr, h.nonempty⟩
  | pruneEnd now ht hcr => exact cinv_goto h _ ht (by intros; simp) trivial

theorem cfg_step {evs : List Ev} {s s' : Conc} (hs : CStep s evs s') : s'.cfg = s.cfg := by
  cases hs <;> first
    | rfl
    | (unfold Conc.getOrInit; split <;> rfl)

theorem crun_cfg {cfg : Config} {evs : List Ev} {s : Conc} (h : CRun cfg evs s) : s.cfg = cfg := by
  induction h with
  | nil => rfl
  | step _ hs ih => rw [cfg_step hs, ih]

theorem crun_inv {cfg : Config} (hc : 1 ≤ cfg.maxPerSource) {evs : List Ev} {s : Conc}
    (h : CRun cfg evs s) : CInv evs s := by
  induction h with
  | nil =>
    exact ⟨by simp, by simp, by simp, by simp, by simp⟩
  | step hr hs ih => exact cinv_step (by rw [crun_cfg hr]; exact hc) ih hs

/-! ## The events of one call -/

def ThreadTrace (i : Nat) : Thread → List Ev → Prop
  | .put1 src e, l => l = [.call i (.put src e)]
  | .put2 src _ e, l => l = [.call i (.put src e)]
  | .put3 .., l => ∃ src e now, l = [.call i (.put src e), .commit i src e now]
  | .get1 src a, l => l = [.call i (.get src a)]
  | .get2 src _ a, l => l = [.call i (.get src a)]
  | .meta0, l => l = [.call i .metaAll]
  | .meta1 .., l => l = [.call i .metaAll]
  | .meta2 .., l => l = [.call i .metaAll]
  | .prune0, l => l = [.call i .prune]
  | .prune1 .., l => ∃ n, l = [.call i .prune, .pruning i n]
  | .prune2 .., l => ∃ (n : Nat) (ds : List Str), l = .call i .prune :: .pruning i n :: ds.map (.dropped i)
  | .done, l => CallHistory i l

structure PInv (evs : List Ev) (s : Conc) : Prop where
  none : ∀ j, s.threads.length ≤ j → eventsOf j evs = []
  tr : ∀ (j : Nat) (t : Thread), s.threads[j]? = some t → ThreadTrace j t (eventsOf j evs)

theorem eventsOf_append (i : Nat) (evs evs' : List Ev) :
    eventsOf i (evs ++ evs') = eventsOf i evs ++ eventsOf i evs' := by simp [eventsOf]

theorem eventsOf_other {i j : Nat} {evs : List Ev} (h : ∀ e ∈ evs, evId e = i) (hne : j ≠ i) :
    eventsOf j evs = [] := by
  unfold eventsOf
  rw [List.filter_eq_nil_iff]
  intro e he; simp [h e he]; omega

theorem eventsOf_self {i : Nat} {evs : List Ev} (h : ∀ e ∈ evs, evId e = i) : eventsOf i evs = evs := by
  unfold eventsOf
  rw [List.filter_eq_self]
  intro e he; simp [h e he]

theorem pinv_set {evs evs' : List Ev} {s : Conc} (h : PInv evs s) {s' : Conc} {i : Nat} {t t' : Thread}
    (ht : s.threads[i]? = some t) (hs : s'.threads = s.threads.set i t')
    (hid : ∀ e ∈ evs', evId e = i) (htr : ThreadTrace i t' (eventsOf i evs ++ evs')) :
    PInv (evs ++ evs') s' := by
  have hlt := (List.getElem?_eq_some_iff.1 ht).1
  refine ⟨?_, ?_⟩
  · intro j hj
    rw [hs, List.length_set] at hj
    rw [eventsOf_append, h.none j hj, eventsOf_other hid (by omega)]; rfl
  · rw [hs]
    refine thr_set (P := fun j u => ThreadTrace j u (eventsOf j (evs ++ evs'))) ?_ ?_
    · intro j u hj hu
      show ThreadTrace j u _
      rw [eventsOf_append, eventsOf_other hid hj, List.append_nil]; exact h.tr j u hu
    · show ThreadTrace i t' _
      rw [eventsOf_append, eventsOf_self hid]; exact htr

theorem pinv_step {evs evs' : List Ev} {s s' : Conc} (h : PInv evs s)
    (hs : CStep s evs' s') (hcr' : s'.crashed = false) : PInv (evs ++ evs') s' := by
  cases hs with
  | call c hp hcr =>
    have hid : ∀ e ∈ [Ev.call s.threads.length c], evId e = s.threads.length := by simp [evId]
    refine ⟨?_, ?_⟩
    · intro j hj
      simp only [List.length_append, List.length_cons, List.length_nil] at hj
      rw [eventsOf_append, h.none j (by omega), eventsOf_other hid (by omega)]; rfl
    · refine thr_append (P := fun j u => ThreadTrace j u (eventsOf j (evs ++ _))) ?_ ?_
      · intro j u hu
        have hlt := (List.getElem?_eq_some_iff.1 hu).1
        show ThreadTrace j u _
        rw [eventsOf_append, eventsOf_other hid (by omega), List.append_nil]; exact h.tr j u hu
      · show ThreadTrace _ _ _
        rw [eventsOf_append, eventsOf_self hid, h.none _ (Nat.le_refl _)]
        cases c <;> exact rfl
  | @putLookup i src e ht hcr =>
    refine pinv_set (t' := .put2 src (s.getOrInit src).2 e) h ht ?_ (by simp)
      (by rw [show eventsOf _ evs = _ from h.tr _ _ ht]; rfl)
    unfold Conc.getOrInit; split <;> rfl
  | @putInsert i src a e st st' g' now ht ho hi hcr =>
    refine pinv_set h ht rfl (by simp [evId]) ⟨src, e, now, ?_⟩
    rw [show eventsOf _ evs = _ from h.tr _ _ ht]; rfl
  | putCrash => cases hcr'
  | putFinish ht ho hcr =>
    refine pinv_set h ht rfl (by simp [evId]) ?_
    obtain ⟨src, e, now, he⟩ := h.tr _ _ ht
    rw [he]; exact .putDone src e now
  | getMiss ht hx hcr =>
    refine pinv_set h ht rfl (by simp [evId]) ?_
    rw [show eventsOf _ evs = _ from h.tr _ _ ht]; exact .getDone _ _ _
  | getHit ht hx hcr =>
    refine pinv_set h ht rfl (by simp) ?_
    rw [show eventsOf _ evs = _ from h.tr _ _ ht]; rfl
  | getRead ht ho hr hcr =>
    refine pinv_set h ht rfl (by simp [evId]) ?_
    rw [show eventsOf _ evs = _ from h.tr _ _ ht]; exact .getDone _ _ _
  | getCrash => cases hcr'
  | metaStart ht hcr =>
    refine pinv_set h ht rfl (by simp) ?_
    rw [show eventsOf _ evs = _ from h.tr _ _ ht]; rfl
  | metaVisit ht hk hn ho hcr =>
    refine pinv_set h ht rfl (by simp) ?_
    rw [show eventsOf _ evs = _ from h.tr _ _ ht]; rfl
  | metaRangeEnd ht hall hp hcr =>
    refine pinv_set h ht rfl (by simp) ?_
    rw [show eventsOf _ evs = _ from h.tr _ _ ht]; rfl
  | metaCount ht hx ho hcr =>
    refine pinv_set h ht rfl (by simp) ?_
    rw [show eventsOf _ evs = _ from h.tr _ _ ht]; rfl
  | metaCrash => cases hcr'
  | metaEnd ht hcr =>
    refine pinv_set h ht rfl (by simp [evId]) ?_
    rw [show eventsOf _ evs = _ from h.tr _ _ ht]; exact .metaDone _
  | pruneNothing mc ht hn hcr =>
    refine pinv_set h ht rfl (by simp [evId]) ?_
    rw [show eventsOf _ evs = _ from h.tr _ _ ht]; exact .pruneIdle
  | pruneStart mc ht hn hcr =>
    refine pinv_set h ht rfl (by simp [evId])
      ⟨(if mc s.g.count > s.g.count then s.g.count else mc s.g.count).toNat, ?_⟩
    rw [show eventsOf _ evs = _ from h.tr _ _ ht]; rfl
  | pruneVisit ht hk hn ho hl hcr =>
    refine pinv_set h ht rfl (by simp) ?_
    obtain ⟨n, he⟩ := h.tr _ _ ht
    exact ⟨n, by rw [he]; rfl⟩
  | pruneVisitCrash => cases hcr'
  | pruneRangeEnd ht hall hcr =>
    refine pinv_set h ht rfl (by simp) ?_
    obtain ⟨n, he⟩ := h.tr _ _ ht
    exact ⟨n, [], by rw [he]; rfl⟩
  | prunePopNone ht hpop ha ho hl hcr =>
    refine pinv_set h ht rfl (by simp) ?_
    obtain ⟨n, ds, he⟩ := h.tr _ _ ht
    exact ⟨n, ds, by rw [he]; simp⟩
  | @prunePopLast i n hh hh' ptrs x a st k v ht hpop ha ho hl hl' hcr =>
    refine pinv_set h ht rfl (by simp [evId]) ?_
    obtain ⟨n, ds, he⟩ := h.tr _ _ ht
    exact ⟨n, ds ++ [x.sourceId], by rw [he]; simp⟩
  | prunePopMore ht hpop ha ho hl hl' hcr =>
    refine pinv_set h ht rfl (by simp) ?_
    obtain ⟨n, ds, he⟩ := h.tr _ _ ht
    exact ⟨n, ds, by rw [he]; simp⟩
  | prunePopCrash => cases hcr'
  | pruneEnd now ht hcr =>
    refine pinv_set h ht rfl (by simp [evId]) ?_
    obtain ⟨n, ds, he⟩ := h.tr _ _ ht
    rw [he]; exact .pruneDone n ds

/-- Steps are taken only by a process that has not crashed. -/
theorem step_alive {evs : List Ev} {s s' : Conc} (hs : CStep s evs s') : s.crashed = false := by
  cases hs <;> assumption

theorem crun_pinv {cfg : Config} {evs : List Ev} {s : Conc} (h : CRun cfg evs s)
    (hcr : s.crashed = false) : PInv evs s := by
  induction h with
  | nil => exact ⟨fun _ _ => rfl, by simp⟩
  | step hr hs ih => exact pinv_step (ih (step_alive hs)) hs hcr

/-- A crash is the panic of one thread; nothing else changes. -/
theorem step_crash {evs : List Ev} {s s' : Conc} (hs : CStep s evs s') (hcr : s'.crashed = true) :
    ∃ (i : Nat) (t : Thread) (why : Panic), s.threads[i]? = some t ∧ t ≠ .done ∧ evs = [.panic i why] ∧
      s' = { s with crashed := true } := by
  cases hs with
  | putLookup h hc => unfold Conc.getOrInit at hcr; split at hcr <;> (have hcr : s.crashed = true := hcr; rw [hc] at hcr; cases hcr)
  | putCrash now h ho hi hc => exact ⟨_, _, _, h, by simp, rfl, rfl⟩
  | getCrash h ho hr hc => exact ⟨_, _, _, h, by simp, rfl, rfl⟩
  | metaCrash h hx hc => exact ⟨_, _, _, h, by simp, rfl, rfl⟩
  | pruneVisitCrash ht hk hn ho hl hc => exact ⟨_, _, _, ht, by simp, rfl, rfl⟩
  | prunePopCrash ht hpop hc => exact ⟨_, _, _, ht, by simp, rfl, rfl⟩
  | _ => rename_i hc; first
    | (have hcr : s.crashed = true := hcr
       rw [hc] at hcr; cases hcr)

theorem threadTrace_history {i : Nat} {t : Thread} {l : List Ev} (h : ThreadTrace i t l) :
    CallHistory i l ∧ (t ≠ .done → Ev.ret i ∉ l) := by
  cases t <;> simp only [ThreadTrace] at h
  case put1 => subst h; exact ⟨.made _, by simp⟩
  case put2 => subst h; exact ⟨.made _, by simp⟩
  case put3 => obtain ⟨src, e, now, rfl⟩ := h; exact ⟨.put src e now, by simp⟩
  case get1 => subst h; exact ⟨.made _, by simp⟩
  case get2 => subst h; exact ⟨.made _, by simp⟩
  case meta0 => subst h; exact ⟨.made _, by simp⟩
  case meta1 => subst h; exact ⟨.made _, by simp⟩
  case meta2 => subst h; exact ⟨.made _, by simp⟩
  case prune0 => subst h; exact ⟨.made _, by simp⟩
  case prune1 => obtain ⟨n, rfl⟩ := h; exact ⟨.pruning n [], by simp⟩
  case prune2 => obtain ⟨n, ds, rfl⟩ := h; exact ⟨.pruning n ds, by simp⟩
  case done => exact ⟨h, by simp⟩

theorem crun_history {cfg : Config} {evs : List Ev} {s : Conc} (h : CRun cfg evs s) (i : Nat) :
    CallHistory i (eventsOf i evs) := by
  have alive : ∀ {evs : List Ev} {s : Conc}, CRun cfg evs s → s.crashed = false →
      CallHistory i (eventsOf i evs) := by
    intro evs s h hcr
    have hp := crun_pinv h hcr
    cases ht : s.threads[i]? with
    | none => rw [hp.none i (List.getElem?_eq_none_iff.1 ht)]; exact .notMade
    | some t => exact (threadTrace_history (hp.tr i t ht)).1
  cases hcr : s.crashed with
  | false => exact alive h hcr
  | true =>
    cases h with
    | nil => cases hcr
    | step hr hs =>
      obtain ⟨j, t, why, hj, htd, rfl, -⟩ := step_crash hs hcr
      rw [eventsOf_append]
      have hp := crun_pinv hr (step_alive hs)
      by_cases hij : i = j
      · subst hij
        rw [eventsOf_self (evs := [Ev.panic i why]) (by simp [evId])]
        obtain ⟨h1, h2⟩ := threadTrace_history (hp.tr i t hj)
        exact .panicked why h1 (h2 htd)
      · rw [eventsOf_other (i := j) (evs := [Ev.panic j why]) (by simp [evId]) hij, List.append_nil]
        exact alive hr (step_alive hs)

/-! ## Pointers into the index -/

theorem since_append {i : Nat} {c : Call} {evs : List Ev} (h : Ev.call i c ∈ evs) (evs' : List Ev) :
    since i (evs ++ evs') = since i evs ++ evs' := by
  induction evs with
  | nil => cases h
  | cons x evs ih =>
    cases x with
    | call j d =>
      show since i (.call j d :: (evs ++ evs')) = _
      unfold since
      by_cases hj : j = i
      · rw [if_pos hj, if_pos hj]
      · rw [if_neg hj, if_neg hj]
        refine ih ?_
        rcases List.mem_cons.1 h with h | h
        · cases h; exact absurd rfl hj
        · exact h
    | _ =>
      refine ih ?_
      rcases List.mem_cons.1 h with h | h
      · cases h
      · exact h

theorem droppedSince_mono {i : Nat} {c : Call} {evs evs' : List Ev} (h : Ev.call i c ∈ evs) {src : Str}
    (hd : DroppedSince evs i src) : DroppedSince (evs ++ evs') i src := by
  obtain ⟨j, hj⟩ := hd
  exact ⟨j, by rw [since_append h]; exact List.mem_append_left _ hj⟩

theorem droppedSince_now {i j : Nat} {c : Call} {evs evs' : List Ev} (h : Ev.call i c ∈ evs) {src : Str}
    (hd : Ev.dropped j src ∈ evs') : DroppedSince (evs ++ evs') i src :=
  ⟨j, by rw [since_append h]; exact List.mem_append_right _ hd⟩

def ThrAtt (evs : List Ev) (index : List (Str × Nat)) (i : Nat) : Thread → Prop
  | .put2 src a _ => index.lookup src = some a ∨ DroppedSince evs i src
  | .get2 src a _ => index.lookup src = some a ∨ DroppedSince evs i src
  | .meta1 seen _ => ∀ p ∈ seen, (∃ a, index.lookup p.1 = some a) ∨ DroppedSince evs i p.1
  | .meta2 todo _ => ∀ p ∈ todo, (∃ a, index.lookup p.1 = some a) ∨ DroppedSince evs i p.1
  | _ => True

def IdxStep (evs' : List Ev) (index index' : List (Str × Nat)) : Prop :=
  ∀ src a, index.lookup src = some a → index'.lookup src = some a ∨ ∃ j, Ev.dropped j src ∈ evs'

theorem idxStep_refl (evs' : List Ev) (index : List (Str × Nat)) : IdxStep evs' index index :=
  fun _ _ h => .inl h

theorem thrAtt_step {evs evs' : List Ev} {index index' : List (Str × Nat)} {i : Nat} {c : Call} {t : Thread}
    (hi : Ev.call i c ∈ evs) (hs : IdxStep evs' index index') (h : ThrAtt evs index i t) :
    ThrAtt (evs ++ evs') index' i t := by
  have one : ∀ {src : Str} {a : Nat}, index.lookup src = some a ∨ DroppedSince evs i src →
      index'.lookup src = some a ∨ DroppedSince (evs ++ evs') i src := by
    intro src a h
    rcases h with h | h
    · rcases hs src a h with h | ⟨j, hj⟩
      · exact .inl h
      · exact .inr (droppedSince_now hi hj)
    · exact .inr (droppedSince_mono hi h)
  have two : ∀ {src : Str}, (∃ a, index.lookup src = some a) ∨ DroppedSince evs i src →
      (∃ a, index'.lookup src = some a) ∨ DroppedSince (evs ++ evs') i src := by
    intro src h
    rcases h with ⟨a, h⟩ | h
    · rcases one (.inl h) with h | h
      · exact .inl ⟨a, h⟩
      · exact .inr h
    · exact .inr (droppedSince_mono hi h)
  cases t <;> simp only [ThrAtt] at h ⊢
  · exact one h
  · exact one h
  · exact fun p hp => two (h p hp)
  · exact fun p hp => two (h p hp)

def DInv (evs : List Ev) (s : Conc) : Prop :=
  ∀ (i : Nat) (t : Thread), s.threads[i]? = some t → ThrAtt evs s.index i t

theorem threadTrace_call {i : Nat} {t : Thread} {evs : List Ev} (h : ThreadTrace i t (eventsOf i evs))
    (hd : t ≠ .done) : ∃ c, Ev.call i c ∈ evs := by
  have key : ∃ c l, eventsOf i evs = .call i c :: l := by
    cases t <;> simp only [ThreadTrace] at h
    case put3 => obtain ⟨_, _, _, h⟩ := h; exact ⟨_, _, h⟩
    case prune1 => obtain ⟨_, h⟩ := h; exact ⟨_, _, h⟩
    case prune2 => obtain ⟨_, _, h⟩ := h; exact ⟨_, _, h⟩
    case done => exact absurd rfl hd
    all_goals exact ⟨_, _, h⟩
  obtain ⟨c, l, h⟩ := key
  have : Ev.call i c ∈ eventsOf i evs := by rw [h]; exact List.mem_cons_self
  exact ⟨c, (List.mem_filter.1 this).1⟩

theorem dinv_set {evs evs' : List Ev} {s s' : Conc} (hp : PInv evs s) (h : DInv evs s) {i : Nat} {t' : Thread}
    (ht : s'.threads = s.threads.set i t') (hi : IdxStep evs' s.index s'.index)
    (htr : ThrAtt (evs ++ evs') s'.index i t') : DInv (evs ++ evs') s' := by
  unfold DInv
  rw [ht]
  refine thr_set (P := fun j u => ThrAtt (evs ++ evs') s'.index j u) ?_ htr
  intro j u hj hu
  by_cases hd : u = .done
  · subst hd; exact trivial
  · obtain ⟨c, hc⟩ := threadTrace_call (hp.tr j u hu) hd
    exact thrAtt_step hc hi (h j u hu)

theorem dinv_step {evs evs' : List Ev} {s s' : Conc} (hcinv : CInv evs s) (hp : PInv evs s) (h : DInv evs s)
    (hs : CStep s evs' s') : DInv (evs ++ evs') s' := by
  have stay : ∀ {i : Nat} {t t' : Thread} (g : Globals) (heap : List Obj), s.threads[i]? = some t → t ≠ .done →
      (ThrAtt evs s.index i t → ThrAtt evs s.index i t') →
      DInv (evs ++ evs') ({ s with g := g, heap := heap }.goto i t') := by
    intro i t t' g heap ht hd himp
    obtain ⟨c, hc⟩ := threadTrace_call (hp.tr i t ht) hd
    exact dinv_set hp h rfl (idxStep_refl _ _) (thrAtt_step hc (idxStep_refl _ _) (himp (h i t ht)))
  have crash : DInv (evs ++ evs') { s with crashed := true } := by
    intro j u hu
    by_cases hd : u = .done
    · subst hd; exact trivial
    · obtain ⟨c, hc⟩ := threadTrace_call (hp.tr j u hu) hd
      exact thrAtt_step hc (idxStep_refl _ _) (h j u hu)
  cases hs with
  | call c hpr hcr =>
    refine thr_append (P := fun j u => ThrAtt _ s.index j u) ?_ (by cases c <;> exact trivial)
    intro j u hu
    by_cases hd : u = .done
    · subst hd; exact trivial
    · obtain ⟨c, hc⟩ := threadTrace_call (hp.tr j u hu) hd
      exact thrAtt_step hc (idxStep_refl _ _) (h j u hu)
  | @putLookup i src e ht hcr =>
    unfold Conc.getOrInit
    cases hx : s.index.lookup src with
    | some a => exact dinv_set (t' := .put2 src a e) hp h rfl (idxStep_refl _ _) (.inl hx)
    | none =>
      refine dinv_set (t' := .put2 src s.heap.length e) hp h rfl ?_ (.inl ?_)
      · intro k a hk
        refine .inl ?_
        show (s.index ++ [(src, s.heap.length)]).lookup k = _
        rw [lookup_append_new _ _ _ _ hx, if_neg]
        · exact hk
        · rintro rfl; rw [hx] at hk; cases hk
      · show (s.index ++ [(src, s.heap.length)]).lookup src = _
        rw [lookup_append_new _ _ _ _ hx, if_pos rfl]
  | putInsert now ht ho hi hcr => exact stay _ _ ht (by simp) (fun _ => trivial)
  | putCrash now ht ho hi hcr => exact crash
  | putFinish ht ho hcr => exact stay _ _ ht (by simp) (fun _ => trivial)
  | getMiss ht hx hcr => exact stay s.g s.heap ht (by simp) (fun _ => trivial)
  | @getHit i src args a ht hx hcr => exact dinv_set (t' := .get2 src a args) hp h rfl (idxStep_refl _ _) (.inl hx)
  | getRead ht ho hr hcr => exact stay _ s.heap ht (by simp) (fun _ => trivial)
  | getCrash ht ho hr hcr => exact crash
  | metaStart ht hcr => exact stay s.g s.heap ht (by simp) (fun _ p hp => by cases hp)
  | @metaVisit i seen start k a st ht hk hn ho hcr =>
    refine stay s.g s.heap ht (by simp) (fun hold p hp => ?_)
    rcases mem_index_append hp with hp | rfl
    · exact hold p hp
    · exact .inl ⟨a, mem_lookup hcinv.nodup hk⟩
  | metaRangeEnd ht hall hp hcr =>
    exact stay s.g s.heap ht (by simp) (fun hold p hpm => hold p (hp.mem_iff.1 hpm))
  | metaCount ht hx ho hcr =>
    exact stay s.g s.heap ht (by simp) (fun hold p hpm => hold p (List.mem_cons_of_mem _ hpm))
  | metaCrash ht hx hcr => exact crash
  | metaEnd ht hcr => exact stay s.g s.heap ht (by simp) (fun _ => trivial)
  | pruneNothing mc ht hn hcr => exact stay s.g s.heap ht (by simp) (fun _ => trivial)
  | pruneStart mc ht hn hcr => exact stay s.g s.heap ht (by simp) (fun _ => trivial)
  | pruneVisit ht hk hn ho hl hcr => exact stay s.g s.heap ht (by simp) (fun _ => trivial)
  | pruneVisitCrash ht hk hn ho hl hcr => exact crash
  | pruneRangeEnd ht hall hcr => exact stay s.g s.heap ht (by simp) (fun _ => trivial)
  | prunePopNone ht hpop ha ho hl hcr => exact stay s.g s.heap ht (by simp) (fun _ => trivial)
  | @prunePopLast i n hh hh' ptrs x a st k v ht hpop ha ho hl hl' hcr =>
    refine dinv_set (t' := .prune2 n hh' ptrs) hp h rfl ?_ trivial
    intro src b hb
    by_cases hx : src = x.sourceId
    · exact .inr ⟨i, by rw [hx]; simp⟩
    · refine .inl ?_
      show (s.index.filter (fun p => decide (p.1 ≠ x.sourceId))).lookup src = _
      rw [lookup_filter_key s.index (fun q => decide (q ≠ x.sourceId)) src]
      simp [hx, hb]
  | prunePopMore ht hpop ha ho hl hl' hcr => exact stay _ _ ht (by simp) (fun _ => trivial)
  | prunePopCrash ht hpop hcr => exact crash
  | pruneEnd now ht hcr => exact stay _ s.heap ht (by simp) (fun _ => trivial)

theorem crun_dinv {cfg : Config} (hc : 1 ≤ cfg.maxPerSource) {evs : List Ev} {s : Conc}
    (h : CRun cfg evs s) : DInv evs s := by
  induction h with
  | nil => intro i t ht; simp at ht
  | step hr hs ih => exact dinv_step (crun_inv hc hr) (crun_pinv hr (step_alive hs)) ih hs

end LogCache
