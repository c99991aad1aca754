import Verif.Spec.PruneCrash
import Verif.Proof.Crash
import Verif.Proof.Cluster
import Verif.Proof.Clean
/-! # The books of a node are right, also when nodes prune -/
namespace LogCache
open Spec

theorem stepsOf_snoc (evs : List PruneEvent) (ev : PruneEvent) :
    stepsOf (evs ++ [ev]) = stepsOf evs ++ (match ev with | .step e => [e] | .prune _ => []) := by
  unfold stepsOf
  rw [List.filterMap_append]
  cases ev <;> rfl

theorem books_snoc (L : Str → List Nat) (k : Nat) (evs : List XEvent) (ev : XEvent) :
    booksOf L k (evs ++ [ev]) = (booksOf L k evs).note k ev := by
  unfold booksOf; rw [List.foldl_append]; rfl

/-- Pruning changes nothing but what is in the stores: there is a run without it with the same
tables and queues, and the stores have gone through the Puts that the books of that run say. -/
theorem prune_books {cfg : Config} (hc : 1 ≤ cfg.maxPerSource) {n : Nat} {L : Str → List Nat}
    {evs : List PruneEvent} {c : Cluster} (h : PruneRun cfg (newCluster cfg n (fun _ => L)) evs c) :
    (∃ s0, XRun cfg (newCluster cfg n (fun _ => L)) (stepsOf evs) { c with store := s0 }) ∧
    ∀ k, ∃ ops, Run (newStore cfg) ops (c.store k) ∧
      ∀ src, putsOf ops src = (booksOf L k (stepsOf evs)).kept.filter (fun e => e.sourceId = src) := by
  generalize hc0 : newCluster cfg n (fun _ => L) = c0 at h
  induction h with
  | nil =>
    subst hc0
    exact ⟨⟨_, .nil _⟩, fun k => ⟨[], .nil _, fun _ => rfl⟩⟩
  | @snoc c1 c2 evs ev hrun hs ih =>
    subst hc0
    obtain ⟨⟨s0, hx⟩, hb⟩ := ih
    rw [stepsOf_snoc]
    cases hs with
    | @prune i now mc order st' hi ho ht =>
      rw [List.append_nil]
      refine ⟨⟨s0, hx⟩, fun k => ?_⟩
      obtain ⟨ops, h1, h2⟩ := hb k
      by_cases hk : k = i
      · subst hk
        refine ⟨ops ++ [.truncate now mc order], ?_, fun src => ?_⟩
        · simp only [if_true]
          exact h1.snoc ho ht
        · rw [putsOf_append, putsOf_truncate, List.append_nil]
          exact h2 src
      · simp only [if_neg hk]
        exact ⟨ops, h1, h2⟩
    | step hs =>
      have grow : ∀ k (l : List Envelope) (st' : Store), PutAll (c1.store k) (l.map fun e => (e.sourceId, e)) st' →
          ∃ ops, Run (newStore cfg) ops st' ∧ ∀ src, putsOf ops src =
            ((booksOf L k (stepsOf evs)).kept ++ l).filter (fun e => e.sourceId = src) := by
        intro k l st' hpa
        obtain ⟨ops, h1, h2⟩ := hb k
        obtain ⟨ops', g1, g2, -⟩ := putAll_run h1 hpa
        refine ⟨ops ++ ops', g1, fun src => ?_⟩
        rw [putsOf_append, h2, g2, List.filter_append]
        congr 1
        rw [List.filter_map, List.map_map]
        have : (Prod.snd ∘ fun e : Envelope => (e.sourceId, e)) = id := rfl
        rw [this, List.map_id]; rfl
      have hlk : ∀ k, c1.lk = (booksOf L k (stepsOf evs)).lk := fun k => (books_right hx k).2.1
      have hput : ∀ i l, ∃ st', PutAll (s0 i) l st' := by
        intro i l
        obtain ⟨-, -, -, ops0, h0, -⟩ := books_right hx i
        exact putAll_total hc h0 l
      simp only [books_snoc]
      cases hs with
      | @client _ j req hs =>
        constructor
        · cases hs with
          | client hj hh =>
            obtain ⟨ok, res, st', h1, -, rfl⟩ := hh
            obtain ⟨st0, h0⟩ := hput j ((res.sends.filter (fun s => s.1 = j)).flatMap (fun s => localPuts s.2))
            exact ⟨_, hx.snoc (.client (.client hj ⟨ok, res, st0, h1, h0, rfl⟩))⟩
        · intro k
          obtain ⟨-, -, -, e4⟩ := step_client hs k
          rw [hlk k] at e4
          simp only [Books.note]
          by_cases hjk : j = k
          · rw [if_pos hjk] at e4 ⊢
            exact grow k _ _ e4
          · rw [if_neg hjk] at e4 ⊢
            have := grow k [] _ e4
            rwa [List.append_nil] at this
      | @deliver _ j i batch hs =>
        constructor
        · cases hs with
          | deliver hi hj hij hq hh =>
            obtain ⟨ok, res, st', h1, -, rfl⟩ := hh
            obtain ⟨st0, h0⟩ := hput i ((res.sends.filter (fun s => s.1 = i)).flatMap (fun s => localPuts s.2))
            exact ⟨_, hx.snoc (.deliver (.deliver hi hj hij hq ⟨ok, res, st0, h1, h0, rfl⟩))⟩
        · intro k
          obtain ⟨-, -, -, e4⟩ := step_deliver hs k
          by_cases hik : i = k
          · rw [if_pos hik] at e4
            simp only [Books.note, if_pos hik]
            exact grow k _ _ e4
          · rw [if_neg hik] at e4
            simp only [Books.note, if_neg hik]
            have := grow k [] _ e4
            rwa [List.append_nil] at this
      | @drop j i lost q hj hji hpq hsub =>
        refine ⟨⟨s0, hx.snoc (.drop (c := { c1 with store := s0 }) hj hji hpq hsub)⟩, fun k => ?_⟩
        obtain ⟨ops, h1, h2⟩ := hb k
        refine ⟨ops, h1, ?_⟩
        simp only [Books.note]; split <;> exact h2
      | @retable _ i l hs =>
        cases hs
        exact ⟨⟨s0, hx.snoc (.retable .retable)⟩, fun k => hb k⟩
      | @crash i hi =>
        refine ⟨⟨_, hx.snoc (.crash (c := { c1 with store := s0 }) hi)⟩, fun k => ?_⟩
        by_cases hik : i = k
        · simp only [Books.note, if_pos hik]
          refine ⟨[], ?_, fun _ => rfl⟩
          simp only [hik, if_true]; exact Run.nil _
        · simp only [Books.note, if_neg hik]
          have : ¬ k = i := fun h => hik h.symm
          simp only [this, if_false]; exact hb k

/-- A run without pruning is one in which nothing is pruned. -/
theorem prune_none {cfg : Config} {c0 c : Cluster} {evs : List XEvent} (h : XRun cfg c0 evs c) :
    PruneRun cfg c0 (evs.map .step) c := by
  induction h with
  | nil => exact .nil _
  | snoc _ hs ih => rw [List.map_append]; exact ih.snoc (.step hs)

theorem stepsOf_step (evs : List XEvent) : stepsOf (evs.map .step) = evs := by
  unfold stepsOf
  rw [List.filterMap_map]
  exact List.filterMap_some

end LogCache
