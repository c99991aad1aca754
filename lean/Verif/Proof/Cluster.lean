import Verif.Spec.Cluster
import Verif.Proof.Clean
/-!
# Lemmas about proxies and clusters
-/
namespace LogCache
open Spec

/-! ### Grouping -/

/-- All envelopes grouped under an index. -/
def gather (m : List (Nat × List Envelope)) (i : Nat) : List Envelope :=
  (m.filter (fun p => p.1 = i)).flatMap Prod.snd

theorem gather_notin {m : List (Nat × List Envelope)} {i : Nat} (h : i ∉ m.map Prod.fst) :
    gather m i = [] := by
  unfold gather
  have : m.filter (fun p => p.1 = i) = [] := by
    rw [List.filter_eq_nil_iff]
    intro p hp he
    exact h (List.mem_map.2 ⟨p, hp, by simpa using he⟩)
  rw [this]; rfl

theorem appendAt_spec (m : List (Nat × List Envelope)) (idx : Nat) (e : Envelope)
    (h : (m.map Prod.fst).Nodup) :
    ((appendAt m idx e).map Prod.fst).Nodup ∧
    (∀ i, i ∈ (appendAt m idx e).map Prod.fst ↔ i = idx ∨ i ∈ m.map Prod.fst) ∧
    (∀ i, gather (appendAt m idx e) i = gather m i ++ if i = idx then [e] else []) := by
  induction m with
  | nil =>
    refine ⟨by simp [appendAt], by simp [appendAt], ?_⟩
    intro i
    by_cases hi : i = idx
    · subst hi; simp [appendAt, gather]
    · have : ¬ idx = i := fun h => hi h.symm
      simp [appendAt, gather, hi, this]
  | cons p rest ih =>
    obtain ⟨k, es⟩ := p
    rw [List.map_cons, List.nodup_cons] at h
    rw [appendAt]
    by_cases hk : k = idx
    · subst hk
      rw [if_pos rfl]
      refine ⟨by rw [List.map_cons, List.nodup_cons]; exact h, by intro i; simp, ?_⟩
      intro i
      by_cases hi : i = k
      · subst hi
        have := gather_notin h.1
        unfold gather at *
        rw [List.filter_cons_of_pos (by simp), List.filter_cons_of_pos (by simp), List.flatMap_cons,
          List.flatMap_cons, this]
        simp
      · have hki : ¬ k = i := fun h => hi h.symm
        simp [gather, hi, hki]
    · rw [if_neg hk]
      obtain ⟨i1, i2, i3⟩ := ih h.2
      refine ⟨?_, ?_, ?_⟩
      · rw [List.map_cons, List.nodup_cons]
        refine ⟨?_, i1⟩
        rw [i2]
        rintro (h1 | h1)
        · exact hk h1
        · exact h.1 h1
      · intro i
        rw [List.map_cons, List.mem_cons, i2, List.map_cons, List.mem_cons]
        constructor <;> (rintro (h1 | h1 | h1) <;> simp [h1])
      · intro i
        by_cases hi : k = i
        · subst hi
          have hg : gather ((k, es) :: appendAt rest idx e) k = es ++ gather (appendAt rest idx e) k := by
            simp [gather]
          have hg2 : gather ((k, es) :: rest) k = es ++ gather rest k := by simp [gather]
          rw [hg, hg2, i3, List.append_assoc]
        · have hg : gather ((k, es) :: appendAt rest idx e) i = gather (appendAt rest idx e) i := by
            simp [gather, hi]
          have hg2 : gather ((k, es) :: rest) i = gather rest i := by simp [gather, hi]
          rw [hg, hg2, i3]

theorem appendAll_spec (e : Envelope) (idxs : List Nat) : ∀ (m : List (Nat × List Envelope)),
    (m.map Prod.fst).Nodup →
    ((idxs.foldl (fun m idx => appendAt m idx e) m).map Prod.fst).Nodup ∧
    (∀ i, i ∈ (idxs.foldl (fun m idx => appendAt m idx e) m).map Prod.fst ↔
      i ∈ idxs ∨ i ∈ m.map Prod.fst) ∧
    (∀ i, gather (idxs.foldl (fun m idx => appendAt m idx e) m) i =
      gather m i ++ List.replicate (idxs.count i) e) := by
  induction idxs with
  | nil => intro m h; exact ⟨h, by simp, by simp⟩
  | cons x xs ih =>
    intro m h
    obtain ⟨a1, a2, a3⟩ := appendAt_spec m x e h
    obtain ⟨b1, b2, b3⟩ := ih _ a1
    refine ⟨b1, ?_, ?_⟩
    · intro i
      rw [List.foldl_cons, b2, a2, List.mem_cons]
      constructor
      · rintro (h1 | h1 | h1) <;> simp [h1]
      · rintro ((h1 | h1) | h1) <;> simp [h1]
    · intro i
      rw [List.foldl_cons, b3, a3, List.append_assoc, List.count_cons]
      congr 1
      by_cases hi : i = x
      · subst hi
        simp [List.replicate_succ]
      · have : (x == i) = false := by simpa using fun h : x = i => hi h.symm
        simp [hi, this]

theorem group_spec (lookup : Str → List Nat) (batch : List Envelope) :
    ∀ (m : List (Nat × List Envelope)), (m.map Prod.fst).Nodup →
    let g := batch.foldl (fun m e => (lookup e.sourceId).foldl (fun m idx => appendAt m idx e) m) m
    (g.map Prod.fst).Nodup ∧
    (∀ i, i ∈ g.map Prod.fst ↔ (∃ e ∈ batch, i ∈ lookup e.sourceId) ∨ i ∈ m.map Prod.fst) ∧
    (∀ i, gather g i = gather m i ++
      batch.flatMap (fun e => List.replicate ((lookup e.sourceId).count i) e)) := by
  induction batch with
  | nil => intro m h; exact ⟨h, by simp, by simp⟩
  | cons x xs ih =>
    intro m h
    obtain ⟨a1, a2, a3⟩ := appendAll_spec x (lookup x.sourceId) m h
    obtain ⟨b1, b2, b3⟩ := ih _ a1
    refine ⟨b1, ?_, ?_⟩
    · intro i
      rw [List.foldl_cons, b2, a2]
      constructor
      · rintro (⟨e, he, h1⟩ | h1 | h1)
        · exact Or.inl ⟨e, List.mem_cons_of_mem _ he, h1⟩
        · exact Or.inl ⟨x, List.mem_cons_self .., h1⟩
        · exact Or.inr h1
      · rintro (⟨e, he, h1⟩ | h1)
        · rcases List.mem_cons.1 he with rfl | he
          · exact Or.inr (Or.inl h1)
          · exact Or.inl ⟨e, he, h1⟩
        · exact Or.inr (Or.inr h1)
    · intro i
      rw [List.foldl_cons, b3, a3, List.flatMap_cons, List.append_assoc]

theorem groupByNode_spec (lookup : Str → List Nat) (batch : List Envelope) :
    ((groupByNode lookup batch).map Prod.fst).Nodup ∧
    (∀ i, i ∈ (groupByNode lookup batch).map Prod.fst ↔ ∃ e ∈ batch, i ∈ lookup e.sourceId) ∧
    (∀ i, gather (groupByNode lookup batch) i =
      batch.flatMap (fun e => List.replicate ((lookup e.sourceId).count i) e)) := by
  obtain ⟨h1, h2, h3⟩ := group_spec lookup batch [] (by simp)
  exact ⟨h1, by intro i; rw [groupByNode, h2]; simp, by intro i; rw [groupByNode, h3]; simp [gather]⟩

theorem filter_perm_eq {m it : List (Nat × List Envelope)} (hp : it.Perm m)
    (h : (m.map Prod.fst).Nodup) (i : Nat) :
    it.filter (fun p => p.1 = i) = m.filter (fun p => p.1 = i) := by
  have hf : (it.filter (fun p => p.1 = i)).Perm (m.filter (fun p => p.1 = i)) := hp.filter _
  have hlen : (m.filter (fun p => p.1 = i)).length ≤ 1 := by
    clear hf hp
    induction m with
    | nil => simp
    | cons p rest ih =>
      rw [List.map_cons, List.nodup_cons] at h
      by_cases hpi : p.1 = i
      · rw [List.filter_cons_of_pos (by simpa using hpi)]
        have : rest.filter (fun p => p.1 = i) = [] := by
          rw [List.filter_eq_nil_iff]
          intro q hq he
          apply h.1
          rw [hpi]
          exact List.mem_map.2 ⟨q, hq, by simpa using he⟩
        simp [this]
      · rw [List.filter_cons_of_neg (by simpa using hpi)]
        exact ih h.2
  match hm : m.filter (fun p => p.1 = i) with
  | [] => rw [hm] at hf; exact (List.perm_nil.1 hf).trans hm.symm
  | [x] => rw [hm] at hf; exact (List.perm_singleton.1 hf).trans hm.symm
  | _ :: _ :: _ => rw [hm] at hlen; simp at hlen

theorem sentTo_map (it : List (Nat × List Envelope)) (i : Nat) :
    sentTo (it.map (fun p => (p.1, ({ envelopes := some p.2, localOnly := true } : SendRequest)))) i =
      gather it i := by
  unfold sentTo gather
  rw [List.filter_map, List.flatMap_map]
  rfl

/-- What a proxied Send does. -/
theorem ingress_proxied {lookup : Str → List Nat} {n l : Nat} {ok : Nat → Bool} {req : SendRequest}
    {batch : List Envelope} {res : SendResult} (hl : req.localOnly = false)
    (hb : req.envelopes = some batch) (h : IngressSend lookup n l ok req (some res)) :
    res.ok = true ∧ (res.sends.map Prod.fst).Nodup ∧
    (∀ s ∈ res.sends, s.2.localOnly = true ∧ s.1 < n) ∧
    ∀ i, sentTo res.sends i =
      batch.flatMap (fun e => List.replicate ((lookup e.sourceId).count i) e) := by
  generalize hres : some res = r at h
  cases h with
  | localOnly h => rw [hl] at h; cases h
  | nilBatch => cases hres
  | proxied _ batch' hb' it hit =>
    rw [hb] at hb'; cases hb'
    obtain ⟨g1, g2, g3⟩ := groupByNode_spec lookup batch
    split at hres
    · rename_i hall
      cases hres
      refine ⟨rfl, ?_, ?_, ?_⟩
      · simp only [List.map_map]
        have : (it.map Prod.fst).Perm ((groupByNode lookup batch).map Prod.fst) := hit.map _
        exact this.nodup_iff.2 g1
      · intro s hs
        obtain ⟨p, hp, rfl⟩ := List.mem_map.1 hs
        rw [List.all_eq_true] at hall
        exact ⟨rfl, by simpa using hall p hp⟩
      · intro i
        simp only
        rw [sentTo_map, ← g3]
        unfold gather
        rw [filter_perm_eq hit g1]
    · cases hres

theorem ingress_local {lookup : Str → List Nat} {n l : Nat} {ok : Nat → Bool} {req : SendRequest}
    {res : SendResult} (hl : req.localOnly = true) (h : IngressSend lookup n l ok req (some res)) :
    res.sends = [(l, req)] ∧ res.ok = ok l := by
  generalize hres : some res = r at h
  cases h with
  | localOnly _ =>
    split at hres
    · cases hres; exact ⟨rfl, rfl⟩
    · cases hres
  | nilBatch h => rw [hl] at h; cases h
  | proxied h => rw [hl] at h; cases h

/-! ### Puts in a row -/

theorem putAll_run {st0 st st' : Store} {ops : List Op} (hr : Run st0 ops st)
    {l : List (Str × Envelope)} (h : PutAll st l st') :
    ∃ ops', Run st0 (ops ++ ops') st' ∧ (∀ src, putsOf ops' src = (l.filter (fun p => p.1 = src)).map Prod.snd) ∧
      NoPrune ops' := by
  induction h generalizing ops with
  | nil st => exact ⟨[], by simpa using hr, fun _ => rfl, by intro _ h; cases h⟩
  | @cons st st1 st2 p rest now hp _ ih =>
    obtain ⟨ops', h1, h2, h3⟩ := ih (hr.snoc (op := .put now p.1 p.2) trivial hp)
    refine ⟨.put now p.1 p.2 :: ops', by simpa using h1, ?_, ?_⟩
    · intro src
      rw [show Op.put now p.1 p.2 :: ops' = [Op.put now p.1 p.2] ++ ops' from rfl, putsOf_append, h2]
      by_cases he : p.1 = src
      · rw [List.filter_cons_of_pos (by simpa using he)]
        simp [putsOf, he]
      · rw [List.filter_cons_of_neg (by simpa using he)]
        simp [putsOf, he]
    · intro op hop
      rcases List.mem_cons.1 hop with rfl | hop
      · rfl
      · exact h3 op hop

theorem putAll_total {cfg : Config} (hc : 1 ≤ cfg.maxPerSource) {ops : List Op} {st : Store}
    (hr : Run (newStore cfg) ops st) (l : List (Str × Envelope)) : ∃ st', PutAll st l st' := by
  induction l generalizing ops st with
  | nil => exact ⟨st, .nil st⟩
  | cons p rest ih =>
    obtain ⟨hi, hcfg⟩ := run_inv hc hr
    obtain ⟨st1, h1⟩ := put_total hi.idx (by rw [hcfg]; exact hc) 0 p.1 p.2
    obtain ⟨st2, h2⟩ := ih (hr.snoc (op := .put 0 p.1 p.2) trivial h1)
    exact ⟨st2, .cons 0 h1 h2⟩

/-- Without prunes and below capacity nothing is forgotten. -/
theorem logRun_keeps {cfg : Config} {ops : List Op} {A : Str → List Envelope} (h : LogRun cfg ops A)
    (hn : NoPrune ops) (src : Str) (hl : ((putsOf ops src).length : Int) ≤ cfg.maxPerSource) :
    (A src).Perm (putsOf ops src) := by
  induction h with
  | nil => exact List.Perm.refl _
  | @snoc ops A A' op hr hs ih =>
    rw [putsOf_append] at hl ⊢
    rw [List.length_append] at hl
    have ih := ih (fun op h => hn op (List.mem_append_left _ h)) (by omega)
    have hop := hn op (by simp)
    cases hs with
    | put now s e =>
      rw [putsOf_put] at hl ⊢
      by_cases he : s = src
      · subst he
        simp only [if_true] at hl ⊢
        have hlen := ih.length_eq
        unfold remember
        rw [if_neg (by rw [hlen]; simp at hl; omega)]
        have hins : ∀ l : List Envelope, (insertByTs e l).Perm (l ++ [e]) := by
          intro l
          induction l with
          | nil => exact List.Perm.refl _
          | cons x t iht =>
            rw [insertByTs]
            split
            · exact (List.perm_append_singleton e (x :: t)).symm
            · exact List.Perm.cons x iht
        exact (hins _).trans (ih.append_right _)
      · have he' : ¬ src = s := fun h => he h.symm
        simp only [if_neg he, if_neg he', List.append_nil]
        exact ih
    | get => rw [putsOf_get, List.append_nil]; exact ih
    | prune => cases hop

/-! ### Cluster accounting -/

/-- The envelopes an event puts into the store of node `i`. -/
def putsAt (lk : Nat → Str → List Nat) (i : Nat) : CEvent → List Envelope
  | .client j req =>
    if j = i then
      if req.localOnly then req.envelopes.getD []
      else (req.envelopes.getD []).flatMap (fun e => List.replicate ((lk j e.sourceId).count i) e)
    else []
  | .deliver _ k batch => if k = i then batch else []
  | _ => []

/-- The envelopes an event destines for node `i`. -/
def destined (lk : Nat → Str → List Nat) (i : Nat) : CEvent → List Envelope
  | .client j req =>
    if req.localOnly then (if j = i then req.envelopes.getD [] else [])
    else (req.envelopes.getD []).flatMap (fun e => List.replicate ((lk j e.sourceId).count i) e)
  | _ => []

/-- Everything waiting for node `i`. -/
def pending (c : Cluster) (i : Nat) : List Envelope :=
  (List.range c.n).flatMap (fun j => if j = i then [] else c.queue j i)

theorem flatMap_update {n j : Nat} (hj : j < n) (f g : Nat → List Envelope) (extra : List Envelope)
    (hne : ∀ k, k ≠ j → f k = g k) (he : (f j ++ extra).Perm (g j)) :
    ((List.range n).flatMap f ++ extra).Perm ((List.range n).flatMap g) := by
  induction n with
  | zero => omega
  | succ n ih =>
    rw [List.range_succ, List.flatMap_append, List.flatMap_append]
    simp only [List.flatMap_cons, List.flatMap_nil, List.append_nil]
    by_cases hjn : j = n
    · subst hjn
      rw [List.append_assoc]
      have : (List.range j).flatMap f = (List.range j).flatMap g := by
        have : ∀ x ∈ List.range j, f x = g x := by
          intro x hx
          exact hne x (by have := List.mem_range.1 hx; omega)
        rw [List.flatMap_def, List.flatMap_def, List.map_congr_left this]
      rw [this]
      exact he.append_left _
    · have h := ih (by omega)
      rw [hne n (fun h => hjn h.symm)]
      have : ((List.range n).flatMap f ++ g n ++ extra).Perm
          ((List.range n).flatMap f ++ extra ++ g n) := by
        rw [List.append_assoc, List.append_assoc]
        exact List.Perm.append_left _ List.perm_append_comm
      exact this.trans (h.append_right _)

theorem localPuts_sentTo (sends : List (Nat × SendRequest)) (i : Nat) :
    (sends.filter (fun s => s.1 = i)).flatMap (fun s => localPuts s.2) =
      (sentTo sends i).map (fun e => (e.sourceId, e)) := by
  unfold sentTo localPuts
  rw [List.map_flatMap]

theorem handle_spec {c c' : Cluster} {i : Nat} {req : SendRequest} (h : Handle c i req c') :
    ∃ res st', c'.n = c.n ∧ c'.lk = c.lk ∧ c'.store i = st' ∧ (∀ k, k ≠ i → c'.store k = c.store k) ∧
      PutAll (c.store i) ((sentTo res i).map (fun e => (e.sourceId, e))) st' ∧
      (∀ a b, c'.queue a b = if a = i ∧ b ≠ i then c.queue a b ++ sentTo res b else c.queue a b) ∧
      (req.localOnly = true → ∀ b, sentTo res b = if b = i then req.envelopes.getD [] else []) ∧
      (req.localOnly = false → ∃ batch, req.envelopes = some batch ∧ ∀ b, sentTo res b =
        batch.flatMap (fun e => List.replicate ((c.lk i e.sourceId).count b) e)) := by
  obtain ⟨ok, res, st', h1, h2, rfl⟩ := h
  rw [localPuts_sentTo] at h2
  refine ⟨res.sends, st', rfl, rfl, by simp, by intro k hk; simp [hk], h2, fun _ _ => rfl, ?_, ?_⟩
  · intro hl b
    rw [(ingress_local hl h1).1]
    by_cases hb : b = i
    · subst hb; simp [sentTo]
    · have : ¬ i = b := fun h => hb h.symm
      simp [sentTo, hb, this]
  · intro hl
    cases hb : req.envelopes with
    | none =>
      exfalso
      generalize hres : some res = r at h1
      cases h1 with
      | localOnly h => rw [hl] at h; cases h
      | nilBatch => cases hres
      | proxied _ _ hb' => rw [hb] at hb'; cases hb'
    | some batch => exact ⟨batch, rfl, (ingress_proxied hl hb h1).2.2.2⟩

theorem crun_fixed {cfg : Config} {n : Nat} {lk : Nat → Str → List Nat} {evs : List CEvent} {c : Cluster}
    (h : CRun (newCluster cfg n lk) evs c) (hr : Reliable evs) : c.n = n ∧ c.lk = lk := by
  generalize hc0 : newCluster cfg n lk = c0 at h
  induction h with
  | nil => subst hc0; exact ⟨rfl, rfl⟩
  | snoc _ hs ih =>
    obtain ⟨h1, h2⟩ := ih (fun ev h => hr ev (List.mem_append_left _ h))
    have hev := hr _ (List.mem_append_right _ (List.mem_singleton.2 rfl))
    cases hs with
    | client _ hh =>
      obtain ⟨_, _, e1, e2, _⟩ := handle_spec hh
      exact ⟨e1.trans h1, e2.trans h2⟩
    | deliver _ _ _ _ hh =>
      obtain ⟨_, _, e1, e2, _⟩ := handle_spec hh
      exact ⟨e1.trans h1, e2.trans h2⟩
    | lose => exact hev.elim
    | retable => exact hev.elim

/-- Conservation: what was put at a node plus what waits for it is what was
destined for it. -/
theorem crun_conserve {cfg : Config} {n : Nat} {lk : Nat → Str → List Nat} {evs : List CEvent}
    {c : Cluster} (h : CRun (newCluster cfg n lk) evs c) (hr : Reliable evs) (i : Nat) :
    (evs.flatMap (putsAt lk i) ++ pending c i).Perm (evs.flatMap (destined lk i)) := by
  generalize hc0 : newCluster cfg n lk = c0 at h
  induction h with
  | nil =>
    subst hc0
    simp only [List.flatMap_nil, List.nil_append, pending, newCluster]
    have : (List.range n).flatMap (fun j => if j = i then ([] : List Envelope) else []) = [] := by
      simp
    rw [this]
  | @snoc c1 c2 evs ev hrun hs ih =>
    have hr1 : Reliable evs := fun ev h => hr ev (List.mem_append_left _ h)
    have ih := ih hr1
    subst hc0
    obtain ⟨hn, hlk⟩ := crun_fixed hrun hr1
    have hev := hr _ (List.mem_append_right _ (List.mem_singleton.2 rfl))
    rw [List.flatMap_append, List.flatMap_append]
    simp only [List.flatMap_cons, List.flatMap_nil, List.append_nil]
    cases hs with
    | lose => exact hev.elim
    | retable => exact hev.elim
    | @client _ j req hj hh =>
      obtain ⟨res, st', e1, e2, e3, e4, e5, e6, e7, e8⟩ := handle_spec hh
      have hpend : (pending c1 i ++ (if j = i then [] else sentTo res i)).Perm (pending c2 i) := by
        unfold pending
        rw [e1]
        refine flatMap_update hj _ _ _ ?_ ?_
        · intro k hk
          simp only [e6]
          by_cases hki : k = i <;> simp [hki, hk]
        · simp only [e6]
          by_cases hji : j = i
          · simp [hji]
          · have : i ≠ j := fun h => hji h.symm
            simp [hji, this]
      have hput : putsAt lk i (.client j req) ++ (if j = i then [] else sentTo res i) =
          destined lk i (.client j req) := by
        cases hl : req.localOnly with
        | true =>
          have := e7 hl i
          by_cases hji : j = i
          · simp [putsAt, destined, hji, hl]
          · have hij : ¬ i = j := fun h => hji h.symm
            simp [putsAt, destined, hji, hl, this, hij]
        | false =>
          obtain ⟨batch, hb, hsent⟩ := e8 hl
          by_cases hji : j = i
          · simp [putsAt, destined, hji, hl]
          · simp [putsAt, destined, hji, hl, hsent, hlk, hb]
      rw [List.append_assoc]
      have s1 : (evs.flatMap (putsAt lk i) ++ (putsAt lk i (.client j req) ++ pending c2 i)).Perm
          (evs.flatMap (putsAt lk i) ++ (putsAt lk i (.client j req) ++
            (pending c1 i ++ (if j = i then [] else sentTo res i)))) :=
        List.Perm.append_left _ (List.Perm.append_left _ hpend.symm)
      have s2 : (evs.flatMap (putsAt lk i) ++ (putsAt lk i (.client j req) ++
            (pending c1 i ++ (if j = i then [] else sentTo res i)))).Perm
          ((evs.flatMap (putsAt lk i) ++ pending c1 i) ++
            (putsAt lk i (.client j req) ++ (if j = i then [] else sentTo res i))) := by
        rw [List.append_assoc]
        refine List.Perm.append_left _ ?_
        rw [← List.append_assoc, ← List.append_assoc]
        exact List.Perm.append_right _ List.perm_append_comm
      rw [hput] at s2
      exact s1.trans (s2.trans (ih.append_right _))
    | @deliver _ i' j batch rest hi hj hij hq hh =>
      obtain ⟨res, st', e1, e2, e3, e4, e5, e6, e7, e8⟩ := handle_spec hh
      have e7 := e7 rfl
      simp only [batchedWrite, Option.getD_some] at e7
      have hd : destined lk i (.deliver j i' batch) = [] := rfl
      rw [hd, List.append_nil]
      -- queues after the step
      have hq2 : ∀ a b, c2.queue a b = if a = j ∧ b = i' then rest else c1.queue a b := by
        intro a b
        rw [e6]
        by_cases hab : a = i' ∧ b ≠ i'
        · rw [if_pos hab, e7, if_neg hab.2, List.append_nil]
        · rw [if_neg hab]
      by_cases hii : i' = i
      · subst hii
        have hpend : (pending c2 i' ++ batch).Perm (pending c1 i') := by
          unfold pending
          rw [e1]
          refine flatMap_update hj _ _ _ ?_ ?_
          · intro k hk
            simp [hq2, hk]
          · have : j ≠ i' := fun h => hij h.symm
            simp only [if_neg this, hq2, and_self, if_true, hq]
            exact List.perm_append_comm
        have hp : putsAt lk i' (.deliver j i' batch) = batch := by simp [putsAt]
        rw [hp, List.append_assoc]
        refine List.Perm.trans ?_ ih
        refine List.Perm.append_left _ ?_
        exact List.perm_append_comm.trans hpend
      · have hp : putsAt lk i (.deliver j i' batch) = [] := by simp [putsAt, hii]
        have hpend : pending c2 i = pending c1 i := by
          unfold pending
          rw [e1]
          simp only [hq2]
          have : ∀ a, ¬ (a = j ∧ i = i') := fun a h => hii h.2.symm
          simp [this]
        rw [hp, List.append_nil, hpend]
        exact ih

/-- Every node's store is the result of a history of Puts, exactly those of the
event list, each under its own source id. -/
theorem crun_store {cfg : Config} {n : Nat} {lk : Nat → Str → List Nat} {evs : List CEvent}
    {c : Cluster} (h : CRun (newCluster cfg n lk) evs c) (hr : Reliable evs) (i : Nat) :
    ∃ ops, Run (newStore cfg) ops (c.store i) ∧ NoPrune ops ∧
      ∀ src, putsOf ops src = (evs.flatMap (putsAt lk i)).filter (fun e => e.sourceId = src) := by
  generalize hc0 : newCluster cfg n lk = c0 at h
  induction h with
  | nil => subst hc0; exact ⟨[], Run.nil _, (by intro _ h; cases h), fun _ => rfl⟩
  | @snoc c1 c2 evs ev hrun hs ih =>
    have hr1 : Reliable evs := fun ev h => hr ev (List.mem_append_left _ h)
    obtain ⟨ops, hops, hnp, hputs⟩ := ih hr1
    subst hc0
    obtain ⟨hn, hlk⟩ := crun_fixed hrun hr1
    have hev := hr _ (List.mem_append_right _ (List.mem_singleton.2 rfl))
    have step : ∀ (l : List Envelope) (st' : Store),
        PutAll (c1.store i) (l.map (fun e => (e.sourceId, e))) st' → c2.store i = st' →
        putsAt lk i ev = l → ∃ ops, Run (newStore cfg) ops (c2.store i) ∧ NoPrune ops ∧
          ∀ src, putsOf ops src =
            ((evs ++ [ev]).flatMap (putsAt lk i)).filter (fun e => e.sourceId = src) := by
      intro l st' hp hst hl
      obtain ⟨ops', h1, h2, h3⟩ := putAll_run hops hp
      refine ⟨ops ++ ops', by rw [hst]; exact h1, ?_, ?_⟩
      · intro op hop
        rcases List.mem_append.1 hop with h | h
        · exact hnp op h
        · exact h3 op h
      · intro src
        rw [putsOf_append, hputs, h2, List.flatMap_append, List.filter_append]
        simp only [List.flatMap_cons, List.flatMap_nil, List.append_nil, hl]
        congr 1
        rw [List.filter_map, List.map_map]
        have : (Prod.snd ∘ fun e : Envelope => (e.sourceId, e)) = id := rfl
        rw [this, List.map_id]; rfl
    cases hs with
    | lose => exact hev.elim
    | retable => exact hev.elim
    | @client _ j req hj hh =>
      obtain ⟨res, st', e1, e2, e3, e4, e5, e6, e7, e8⟩ := handle_spec hh
      by_cases hji : j = i
      · subst hji
        refine step _ _ e5 e3 ?_
        cases hl : req.localOnly with
        | true => have := e7 hl j; simp [putsAt, hl, this]
        | false =>
          obtain ⟨batch, hb, hsent⟩ := e8 hl
          simp [putsAt, hl, hsent, hlk, hb]
      · refine step [] (c1.store i) (PutAll.nil _) (e4 i (fun h => hji h.symm)) ?_
        simp [putsAt, hji]
    | @deliver _ i' j batch rest hi hj hij hq hh =>
      obtain ⟨res, st', e1, e2, e3, e4, e5, e6, e7, e8⟩ := handle_spec hh
      have e7 := e7 rfl
      simp only [batchedWrite, Option.getD_some] at e7
      by_cases hii : i' = i
      · subst hii
        refine step _ _ e5 e3 ?_
        rw [e7]; simp [putsAt]
      · refine step [] (c1.store i) (PutAll.nil _) (e4 i (fun h => hii h.symm)) ?_
        simp [putsAt, hii]

end LogCache
