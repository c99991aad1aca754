import Verif.Spec.Crash
import Verif.Proof.Cluster
/-! # The books of a node are right -/
namespace LogCache
open Spec

theorem sharesOf_local {lk : Nat → Str → List Nat} {k j : Nat} {req : SendRequest} (h : req.localOnly = true) :
    sharesOf lk k j req = if j = k then req.envelopes.getD [] else [] := by
  unfold sharesOf; rw [if_pos h]

theorem step_client {c1 c2 : Cluster} {j : Nat} {req : SendRequest} (hs : Spec.CStep c1 (.client j req) c2) (k : Nat) :
    c2.n = c1.n ∧ c2.lk = c1.lk ∧
    (pending c1 k ++ (if j = k then [] else sharesOf c1.lk k j req)).Perm (pending c2 k) ∧
    PutAll (c1.store k) ((if j = k then sharesOf c1.lk k j req else []).map fun e => (e.sourceId, e)) (c2.store k) := by
  cases hs with
  | client hj hh =>
    obtain ⟨res, st', e1, e2, e3, e4, e5, e6, e7, e8⟩ := handle_spec hh
    have hsh : ∀ b, sentTo res b = sharesOf c1.lk b j req := by
      intro b
      unfold sharesOf
      cases hl : req.localOnly with
      | true =>
        rw [e7 hl b, if_pos rfl]
        by_cases hb : b = j
        · subst hb; simp
        · rw [if_neg hb, if_neg (fun h => hb h.symm)]
      | false =>
        obtain ⟨batch, hb, hsent⟩ := e8 hl
        rw [hsent, if_neg (by simp), hb]; rfl
    refine ⟨e1, e2, ?_, ?_⟩
    · unfold pending
      rw [e1]
      refine flatMap_update hj _ _ _ ?_ ?_
      · intro m hm
        simp only [e6]
        by_cases hmk : m = k <;> simp [hmk, hm]
      · simp only [e6, hsh]
        by_cases hjk : j = k
        · simp [hjk]
        · have : k ≠ j := fun h => hjk h.symm
          simp [hjk, this]
    · by_cases hjk : j = k
      · subst hjk
        rw [if_pos rfl, ← hsh, e3]; exact e5
      · rw [if_neg hjk, e4 k (fun h => hjk h.symm)]; exact PutAll.nil _

theorem step_deliver {c1 c2 : Cluster} {j i : Nat} {batch : List Envelope}
    (hs : Spec.CStep c1 (.deliver j i batch) c2) (k : Nat) :
    c2.n = c1.n ∧ c2.lk = c1.lk ∧
    (pending c2 k ++ (if i = k then batch else [])).Perm (pending c1 k) ∧
    PutAll (c1.store k) ((if i = k then batch else []).map fun e => (e.sourceId, e)) (c2.store k) := by
  cases hs with
  | @deliver _ _ _ _ rest hi hj hij hq hh =>
    obtain ⟨res, st', e1, e2, e3, e4, e5, e6, e7, e8⟩ := handle_spec hh
    have e7 := e7 rfl
    simp only [batchedWrite, Option.getD_some] at e7
    have hq2 : ∀ a b, c2.queue a b = if a = j ∧ b = i then rest else c1.queue a b := by
      intro a b
      rw [e6]
      by_cases hab : a = i ∧ b ≠ i
      · rw [if_pos hab, e7, if_neg hab.2, List.append_nil]
      · rw [if_neg hab]
    refine ⟨e1, e2, ?_, ?_⟩
    · by_cases hii : i = k
      · subst hii
        rw [if_pos rfl]
        unfold pending
        rw [e1]
        refine flatMap_update hj _ _ _ ?_ ?_
        · intro m hm
          simp [hq2, hm]
        · have : j ≠ i := fun h => hij h.symm
          simp only [if_neg this, hq2, and_self, if_true, hq]
          exact List.perm_append_comm
      · rw [if_neg hii, List.append_nil]
        have : pending c2 k = pending c1 k := by
          unfold pending
          rw [e1]
          simp only [hq2]
          have : ∀ a, ¬ (a = j ∧ k = i) := fun a h => hii h.2.symm
          simp [this]
        rw [this]
    · by_cases hii : i = k
      · subst hii
        rw [if_pos rfl, e3]
        rw [e7, if_pos rfl] at e5
        exact e5
      · rw [if_neg hii, e4 k (fun h => hii h.symm)]; exact PutAll.nil _

/-- The books are right: the tables are the tables; what was for a node is in its store, on its
way or gone; and the store has gone through exactly the Puts that the books say. -/
theorem books_right {cfg : Config} {n : Nat} {L : Str → List Nat} {evs : List XEvent} {c : Cluster}
    (h : XRun cfg (newCluster cfg n (fun _ => L)) evs c) (k : Nat) :
    c.n = n ∧ c.lk = (booksOf L k evs).lk ∧
    ((booksOf L k evs).kept ++ pending c k ++ (booksOf L k evs).gone).Perm (booksOf L k evs).due ∧
    ∃ ops, Run (newStore cfg) ops (c.store k) ∧ NoPrune ops ∧
      ∀ src, putsOf ops src = (booksOf L k evs).kept.filter (fun e => e.sourceId = src) := by
  generalize hc0 : newCluster cfg n (fun _ => L) = c0 at h
  induction h with
  | nil =>
    subst hc0
    refine ⟨rfl, rfl, ?_, [], Run.nil _, (by intro _ h; cases h), fun _ => rfl⟩
    simp [booksOf, pending, newCluster]
  | @snoc c1 c2 evs ev hrun hs ih =>
    obtain ⟨hn, hlk, hp, ops, hops, hnp, hputs⟩ := ih
    have hsnoc : booksOf L k (evs ++ [ev]) = (booksOf L k evs).note k ev := by
      unfold booksOf; rw [List.foldl_append]; rfl
    rw [hsnoc]
    generalize booksOf L k evs = b at *
    have grow : ∀ (l : List Envelope) (st' : Store),
        PutAll (c1.store k) (l.map fun e => (e.sourceId, e)) st' →
        ∃ ops, Run (newStore cfg) ops st' ∧ NoPrune ops ∧
          ∀ src, putsOf ops src = (b.kept ++ l).filter (fun e => e.sourceId = src) := by
      intro l st' hpa
      obtain ⟨ops', h1, h2, h3⟩ := putAll_run hops hpa
      refine ⟨ops ++ ops', h1, ?_, ?_⟩
      · intro op hop
        rcases List.mem_append.1 hop with h | h
        · exact hnp op h
        · exact h3 op h
      · intro src
        rw [putsOf_append, hputs, h2, List.filter_append]
        congr 1
        rw [List.filter_map, List.map_map]
        have : (Prod.snd ∘ fun e : Envelope => (e.sourceId, e)) = id := rfl
        rw [this, List.map_id]; rfl
    cases hs with
    | @client _ j req hc =>
      obtain ⟨e1, e2, e3, e4⟩ := step_client hc k
      refine ⟨e1.trans hn, e2.trans hlk, ?_, ?_⟩
      · rw [hlk] at e3
        simp only [Books.note]
        by_cases hjk : j = k
        · rw [if_pos hjk, List.append_nil] at e3
          rw [if_pos hjk]
          refine List.Perm.trans ?_ (hp.append_right _)
          refine (((e3.symm.append_left _).append_right _)).trans ?_
          rw [List.append_assoc b.kept, List.append_assoc b.kept, List.append_assoc b.kept, List.append_assoc b.kept]
          refine List.Perm.append_left _ ?_
          rw [List.append_assoc]
          exact List.perm_append_comm
        · rw [if_neg hjk] at e3 ⊢
          refine List.Perm.trans ?_ (hp.append_right _)
          refine ((e3.symm.append_left _).append_right _).trans ?_
          rw [← List.append_assoc, List.append_assoc (b.kept ++ pending c1 k), List.append_assoc (b.kept ++ pending c1 k)]
          exact List.Perm.append_left _ List.perm_append_comm
      · rw [hlk] at e4
        simp only [Books.note]
        by_cases hjk : j = k
        · rw [if_pos hjk] at e4 ⊢
          exact grow _ _ e4
        · rw [if_neg hjk] at e4 ⊢
          have := grow [] _ e4
          rwa [List.append_nil] at this
    | @deliver _ j i batch hd =>
      obtain ⟨e1, e2, e3, e4⟩ := step_deliver hd k
      by_cases hik : i = k
      · rw [if_pos hik] at e3 e4
        simp only [Books.note, if_pos hik]
        refine ⟨e1.trans hn, e2.trans hlk, ?_, grow _ _ e4⟩
        refine List.Perm.trans ?_ hp
        refine List.Perm.append_right _ ?_
        rw [List.append_assoc]
        exact List.Perm.append_left _ (List.perm_append_comm.trans e3)
      · rw [if_neg hik] at e3 e4
        rw [List.append_nil] at e3
        simp only [Books.note, if_neg hik]
        refine ⟨e1.trans hn, e2.trans hlk, ?_, ?_⟩
        · exact ((e3.append_left _).append_right _).trans hp
        · have := grow [] _ e4
          rwa [List.append_nil] at this
    | @drop j i lost q hj hji hpq hsub =>
      refine ⟨by simp only [Books.note]; exact hn, ?_, ?_, ?_⟩
      · simp only [Books.note]; split <;> exact hlk
      · by_cases hik : i = k
        · simp only [Books.note, if_pos hik]
          refine List.Perm.trans ?_ hp
          have hpe : (pending { c1 with queue := fun a b => if a = j ∧ b = i then q else c1.queue a b } k ++ lost).Perm
              (pending c1 k) := by
            unfold pending
            refine flatMap_update hj _ _ _ ?_ ?_
            · intro m hm
              simp [hm]
            · have : j ≠ k := fun h => hji (h.trans hik.symm)
              simp only [if_neg this, hik, and_self, if_true]
              rw [hik] at hpq
              exact hpq
          rw [← List.append_assoc]
          refine List.Perm.trans ?_ ((hpe.append_left b.kept).append_right b.gone)
          rw [List.append_assoc, List.append_assoc, List.append_assoc, List.append_assoc, ]
          refine List.Perm.append_left _ (List.Perm.append_left _ List.perm_append_comm)
        · simp only [Books.note, if_neg hik]
          have : pending { c1 with queue := fun a b => if a = j ∧ b = i then q else c1.queue a b } k = pending c1 k := by
            unfold pending
            have : ∀ a, ¬ (a = j ∧ k = i) := fun a h => hik h.2.symm
            simp [this]
          rw [this]; exact hp
      · refine ⟨ops, hops, hnp, ?_⟩
        simp only [Books.note]; split <;> exact hputs
    | @retable _ i l hc =>
      cases hc
      refine ⟨hn, ?_, hp, ops, hops, hnp, hputs⟩
      simp only [Books.note, hlk]
    | @crash i hi =>
      by_cases hik : i = k
      · simp only [Books.note, if_pos hik]
        refine ⟨hn, by rw [hlk], ?_, [], ?_, (by intro _ h; cases h), fun _ => rfl⟩
        · have : pending { c1 with
              lk := fun m => if m = i then (fun _ => []) else c1.lk m
              store := fun m => if m = i then newStore cfg else c1.store m
              queue := fun a b => if a = i then [] else c1.queue a b } k = pending c1 k := by
            unfold pending
            simp only
            congr 1
            funext m
            by_cases hm : m = k
            · simp [hm]
            · have : ¬ m = i := fun h => hm (h.trans hik)
              simp [hm, this]
          rw [this, List.nil_append]
          refine List.Perm.trans ?_ hp
          rw [← List.append_assoc]
          refine List.perm_append_comm.trans ?_
          rw [← List.append_assoc]
        · simp only [hik, if_true]; exact Run.nil _
      · simp only [Books.note, if_neg hik]
        refine ⟨hn, by rw [hlk], ?_, ops, ?_, hnp, hputs⟩
        · have hpe : (pending { c1 with
              lk := fun m => if m = i then (fun _ => []) else c1.lk m
              store := fun m => if m = i then newStore cfg else c1.store m
              queue := fun a b => if a = i then [] else c1.queue a b } k ++ c1.queue i k).Perm (pending c1 k) := by
            unfold pending
            refine flatMap_update hi _ _ _ ?_ ?_
            · intro m hm
              simp [hm]
            · simp [hik]
          refine List.Perm.trans ?_ hp
          rw [← List.append_assoc]
          refine List.Perm.trans ?_ ((hpe.append_left b.kept).append_right b.gone)
          rw [List.append_assoc, List.append_assoc, List.append_assoc, List.append_assoc]
          exact List.Perm.append_left _ (List.Perm.append_left _ List.perm_append_comm)
        · have : ¬ k = i := fun h => hik h.symm
          simp only [this, if_false]; exact hops

end LogCache
