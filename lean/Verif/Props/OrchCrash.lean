import Verif.Props.Cluster
import Verif.Props.Routing
/-!
# Exactly when orchestration requests crash (C81), whom the clients talk to (C83)
-/
namespace LogCache
open Spec

theorem findEq_none_iff (req : Option HRange) (l : List (Option HRange)) (i : Nat) :
    findEq req l i = none ↔ ∃ pre x post, l = pre ++ x :: post ∧ (x = none ∨ req = none) ∧
      ∀ q, req = some q → some q ∉ pre := by
  induction l generalizing i with
  | nil => simp [findEq]
  | cons r rs ih =>
    cases r with
    | none =>
      have : findEq req (none :: rs) i = none := by cases req <;> rfl
      rw [this]
      exact ⟨fun _ => ⟨[], none, rs, rfl, Or.inl rfl, fun _ _ h => by cases h⟩, fun _ => rfl⟩
    | some r =>
      cases req with
      | none =>
        have : findEq none (some r :: rs) i = none := rfl
        rw [this]
        exact ⟨fun _ => ⟨[], some r, rs, rfl, Or.inr rfl, fun _ h => by cases h⟩, fun _ => rfl⟩
      | some q =>
        rw [findEq]
        by_cases h : r.start = q.start ∧ r.stop = q.stop
        · have hrq : r = q := by cases r; cases q; simp at h; simp [h]
          subst hrq
          rw [if_pos h]
          simp only [reduceCtorEq, false_iff]
          rintro ⟨pre, x, post, hl, hx, hq⟩
          cases pre with
          | nil =>
            obtain ⟨h1, -⟩ := List.cons.inj hl
            rcases hx with hx | hx
            · rw [hx] at h1; cases h1
            · cases hx
          | cons p pre =>
            obtain ⟨h1, -⟩ := List.cons.inj hl
            exact hq r rfl (h1 ▸ List.mem_cons_self ..)
        · rw [if_neg h, ih]
          have hne : some q ≠ some r := by rintro h'; cases h'; exact h ⟨rfl, rfl⟩
          constructor
          · rintro ⟨pre, x, post, hl, hx, hq⟩
            refine ⟨some r :: pre, x, post, by rw [hl]; rfl, hx, ?_⟩
            intro q' hq' hm
            cases hq'
            rcases List.mem_cons.1 hm with hm | hm
            · exact hne hm
            · exact hq q rfl hm
          · rintro ⟨pre, x, post, hl, hx, hq⟩
            cases pre with
            | nil =>
              obtain ⟨h1, -⟩ := List.cons.inj hl
              rcases hx with hx | hx
              · rw [hx] at h1; cases h1
              · cases hx
            | cons p pre =>
              obtain ⟨-, h2⟩ := List.cons.inj hl
              exact ⟨pre, x, post, h2, hx, fun q' hq' hm => hq q' hq' (List.mem_cons_of_mem _ hm)⟩

/-- Exactly which `RemoveRange` crashes the node: one without a range while there are
ranges in the list, and one with a range if an entry that was added without a range comes
before the first entry that is equal to it (or there is none equal to it). -/
theorem C81_crash_iff {ops : List OrchOp} {o : Orch} (h : OrchRun {} ops o) (req : Option HRange) :
    o.remove req = none ↔
      (req = none ∧ rangeList ops ≠ []) ∨
      ∃ q pre post, req = some q ∧ rangeList ops = pre ++ none :: post ∧ some q ∉ pre := by
  have hv := C39_range_list h
  have hr : o.remove req = none ↔ findEq req (rangeList ops) 0 = none := by
    rw [← hv]
    unfold Orch.remove Orch.list Slice.view
    simp only
    cases hf : findEq req ((o.mem.getD o.addr []).take o.len) 0 with
    | none => simp
    | some x => cases x <;> simp
  rw [hr, findEq_none_iff]
  constructor
  · rintro ⟨pre, x, post, hl, hx, hq⟩
    cases req with
    | none => exact Or.inl ⟨rfl, by rw [hl]; simp⟩
    | some q =>
      rcases hx with rfl | hx
      · exact Or.inr ⟨q, pre, post, rfl, hl, hq q rfl⟩
      · cases hx
  · rintro (⟨rfl, hne⟩ | ⟨q, pre, post, rfl, hl, hq⟩)
    · cases hl : rangeList ops with
      | nil => exact absurd hl hne
      | cons x t => exact ⟨[], x, t, rfl, Or.inr rfl, fun _ h => by cases h⟩
    · exact ⟨pre, none, post, hl, Or.inl rfl, fun q' hq' => by cases hq'; exact hq⟩

/-- An entry without a range behind an equal one does no harm. -/
example : ∃ o, OrchRun {} ([] ++ [.add 0 (some ⟨0, 9⟩)] ++ [.add 0 none]) o ∧
    (o.remove (some ⟨0, 9⟩)).isSome = true ∧ o.remove (some ⟨0, 8⟩) = none ∧ o.remove none = none :=
  ⟨_, .add _ _ (.add _ _ (.nil _)), by decide, by decide, by decide⟩

theorem setup_exact (nodeIndex : Nat) (dialOk : Nat → Bool) (k i : Nat) :
    (setupClients nodeIndex dialOk k i).1 =
      (List.range' i k).filter (fun j => decide (j = nodeIndex) || dialOk j) ∧
    (setupClients nodeIndex dialOk k i).2 = if i ≤ nodeIndex ∧ nodeIndex < i + k then nodeIndex else 0 := by
  induction k generalizing i with
  | zero => exact ⟨rfl, (if_neg (by omega)).symm⟩
  | succ k ih =>
    obtain ⟨h1, h2⟩ := ih (i + 1)
    rcases hs : setupClients nodeIndex dialOk k (i + 1) with ⟨cs, li⟩
    rw [hs] at h1 h2
    simp only at h1 h2
    rw [setupClients, hs, List.range'_succ]
    simp only
    by_cases hi : i = nodeIndex
    · rw [if_neg (by simp [hi])]
      refine ⟨?_, ?_⟩
      · rw [List.filter_cons_of_pos (by simp [hi]), h1]
      · rw [if_pos (by omega)]; exact hi
    · rw [if_pos hi]
      have hcond : (i ≤ nodeIndex ∧ nodeIndex < i + (k + 1)) ↔ (i + 1 ≤ nodeIndex ∧ nodeIndex < i + 1 + k) := by omega
      by_cases hd : dialOk i = true
      · rw [if_pos hd, List.filter_cons_of_pos (by simp [hd]), h1]
        refine ⟨rfl, ?_⟩
        simp only [hcond]; exact h2
      · rw [if_neg hd, List.filter_cons_of_neg (by simp [hi, hd]), h1]
        refine ⟨rfl, ?_⟩
        simp only [hcond]; exact h2

/-- Whatever dials fail: the clients are those of the nodes that could be dialled, and its
own, in the order of the addresses; the local index is the index of the node among all
addresses, not among those.  Missing for the full property: see `C83_clients_false`. -/
theorem C83_clients_exact_partial {n nodeIndex : Nat} (h : nodeIndex < n) (dialOk : Nat → Bool) :
    setupClients nodeIndex dialOk n 0 =
      ((List.range n).filter (fun j => decide (j = nodeIndex) || dialOk j), nodeIndex) := by
  obtain ⟨h1, h2⟩ := setup_exact nodeIndex dialOk n 0
  rw [if_pos (by omega)] at h2
  rw [List.range_eq_range']
  exact Prod.ext h1 h2

/-- Hence a node takes itself for the right node exactly if all nodes before it could be
dialled. -/
theorem C83_local_iff {n nodeIndex : Nat} (h : nodeIndex < n) (dialOk : Nat → Bool) :
    (setupClients nodeIndex dialOk n 0).1[(setupClients nodeIndex dialOk n 0).2]? = some nodeIndex ↔
      ∀ j < nodeIndex, dialOk j = true := by
  rw [C83_clients_exact_partial h dialOk]
  simp only
  have hsplit : List.range n = List.range nodeIndex ++ (nodeIndex :: List.range' (nodeIndex + 1) (n - nodeIndex - 1)) := by
    rw [List.range_eq_range', List.range_eq_range', ← List.range'_succ,
      show n - nodeIndex - 1 + 1 = n - nodeIndex by omega]
    have := List.range'_append_1 (s := 0) (m := nodeIndex) (n := n - nodeIndex)
    rw [Nat.zero_add, show nodeIndex + (n - nodeIndex) = n by omega] at this
    exact this.symm
  rw [hsplit, List.filter_append, List.filter_cons_of_pos (by simp)]
  generalize hA : (List.range nodeIndex).filter _ = A
  have hlen : A.length ≤ nodeIndex := by
    rw [← hA]
    refine Nat.le_trans (List.length_filter_le _ _) ?_
    simp
  have hfull : A.length = nodeIndex ↔ ∀ j < nodeIndex, dialOk j = true := by
    rw [← hA]
    constructor
    · intro hl j hj
      have := List.length_filter_eq_length_iff.1 (hl.trans (List.length_range).symm) j (List.mem_range.2 hj)
      have hne : ¬ j = nodeIndex := by omega
      simpa [hne] using this
    · intro hall
      rw [List.filter_eq_self.2 (fun j hj => by simp [hall j (List.mem_range.1 hj)]), List.length_range]
  rw [← hfull, List.getElem?_append_right hlen]
  constructor
  · intro hx
    apply Classical.byContradiction
    intro hne
    obtain ⟨m, hm⟩ : ∃ m, nodeIndex - A.length = m + 1 := ⟨nodeIndex - A.length - 1, by omega⟩
    rw [hm, List.getElem?_cons_succ] at hx
    have := (List.mem_filter.1 (List.mem_of_getElem? hx)).1
    rw [List.mem_range'_1] at this
    omega
  · intro hl
    rw [hl, Nat.sub_self]; rfl

example : setupClients 1 (fun j => decide (j ≠ 2)) 4 0 = ([0, 1, 3], 1) := by decide

end LogCache
