import Verif.Props.Routing
/-!
# C80: where the ranges of unknown addresses go
-/
namespace LogCache
open Spec

theorem countP_collect_any {t : RTable} {i : Nat} (h : Nat) (req : List (Str × List HRange)) :
    (collectRanges t req).countP (fun x => decide (x.2 = i) && covers h x.1) =
      ((req.filter fun p => (t.addrs p.1).getD 0 = i).flatMap Prod.snd).countP (covers h) := by
  induction req with
  | nil => rfl
  | cons p rest ih =>
    unfold collectRanges at *
    rw [List.flatMap_cons, List.countP_append, ih, List.countP_map]
    by_cases hp : (t.addrs p.1).getD 0 = i
    · rw [List.filter_cons_of_pos (by simpa using hp), List.flatMap_cons, List.countP_append]
      congr 1
      apply List.countP_congr
      intro r _
      simp [hp]
    · rw [List.filter_cons_of_neg (by simpa using hp)]
      have : List.countP ((fun x : HRange × Nat => decide (x.2 = i) && covers h x.1) ∘
          fun r => (r, (t.addrs p.1).getD 0)) p.2 = 0 := by
        rw [List.countP_eq_zero]
        intro r _
        simp [hp]
      rw [this, Nat.zero_add]

theorem countP_filter_or {α β : Type} (p q : α → Bool) (f : α → List β) (c : β → Bool) (l : List α)
    (h : ∀ x ∈ l, p x = true → q x = false) :
    ((l.filter fun x => p x || q x).flatMap f).countP c =
      ((l.filter p).flatMap f).countP c + ((l.filter q).flatMap f).countP c := by
  induction l with
  | nil => rfl
  | cons x l ih =>
    have ih := ih fun y hy => h y (by simp [hy])
    have hx := h x (by simp)
    cases hp : p x <;> cases hq : q x
    · simp [hp, hq, ih]
    · simp only [List.filter_cons, hp, hq, Bool.or_true, if_true, List.flatMap_cons, List.countP_append, ih]
      simp; omega
    · simp only [List.filter_cons, hp, hq, Bool.or_false, if_true, List.flatMap_cons, List.countP_append, ih]
      simp; omega
    · rw [hx hp] at hq; cases hq

/-- Whatever addresses the last `SetRanges` names: every node but the first gets
exactly its own ranges, the first gets its own and those of all unknown
addresses, and no lookup leaves the list of nodes. -/
theorem C80_lookup_partial {nodes : List Str} (hn : nodes.Nodup) {first : Str}
    (h0 : nodes[0]? = some first) {hash : Str → Nat} {t : RTable}
    {reqs : List (List (Str × List HRange))} {req : List (Str × List HRange)}
    (hr : TableRun (newRTable nodes hash) (reqs ++ [req]) t) (id : Str) :
    (∀ i a, nodes[i]? = some a → i ≠ 0 →
      (t.lookup id).count i = ((rangesOf req a).filter (covers (hash id))).length) ∧
    (t.lookup id).count 0 = ((rangesOf req first).filter (covers (hash id))).length +
      ((rangesOfOthers req nodes).filter (covers (hash id))).length ∧
    ∀ i ∈ t.lookup id, i < nodes.length := by
  obtain ⟨t1, ha, hh, hs⟩ := tableRun_last hr
  have hth : t.h = hash := by rw [hs.h, hh]; rfl
  have hunk : ∀ b, b ∉ nodes → t1.addrs b = none := by
    intro b hb
    rw [ha]
    cases hx : (newRTable nodes hash).addrs b with
    | none => rfl
    | some i => exact absurd (List.mem_of_getElem? ((newRTable_addr_iff hn).1 hx)) hb
  have hkn : ∀ b i, t1.addrs b = some i ↔ nodes[i]? = some b := by
    intro b i; rw [ha, newRTable_addr_iff hn]
  have hcount : ∀ i, (t.lookup id).count i =
      ((req.filter fun p => (t1.addrs p.1).getD 0 = i).flatMap Prod.snd).countP (covers (hash id)) := by
    intro i
    rw [RTable.lookup, count_lookup, hth, (setRanges_perm hs).countP_eq, countP_collect_any]
  refine ⟨?_, ?_, ?_⟩
  · intro i a hi hne
    rw [hcount, ← List.countP_eq_length_filter]
    unfold rangesOf
    congr 2
    apply List.filter_congr
    intro p _
    rw [decide_eq_decide]
    constructor
    · intro he
      cases hx : t1.addrs p.1 with
      | none => rw [hx] at he; exact absurd he.symm hne
      | some j =>
        rw [hx] at he
        have hj := (hkn _ _).1 hx
        simp only [Option.getD_some] at he
        rw [he, hi] at hj
        exact (Option.some.inj hj).symm
    · rintro rfl
      rw [(hkn _ _).2 hi]; rfl
  · rw [hcount, ← List.countP_eq_length_filter, ← List.countP_eq_length_filter]
    unfold rangesOf rangesOfOthers
    rw [← countP_filter_or]
    · congr 2
      apply List.filter_congr
      intro p _
      rw [Bool.eq_iff_iff]
      simp only [decide_eq_true_eq, Bool.or_eq_true]
      constructor
      · intro he
        cases hx : t1.addrs p.1 with
        | none =>
          right
          intro hm
          obtain ⟨j, hj⟩ := List.getElem?_of_mem hm
          rw [(hkn _ _).2 hj] at hx; cases hx
        | some j =>
          rw [hx] at he
          simp only [Option.getD_some] at he
          have hj := (hkn _ _).1 hx
          rw [he, h0] at hj
          exact .inl (Option.some.inj hj).symm
      · rintro (he | he)
        · rw [he, (hkn _ _).2 h0]; rfl
        · rw [hunk _ he]; rfl
    · intro p _ hp
      have hp : p.1 = first := by simpa using hp
      have : p.1 ∈ nodes := by rw [hp]; exact List.mem_of_getElem? h0
      simpa using this
  · intro i hi
    have hpos : 0 < (t.lookup id).count i := List.count_pos_iff.2 hi
    rw [hcount] at hpos
    obtain ⟨r, hr1, -⟩ := List.countP_pos_iff.1 hpos
    obtain ⟨p, hp, -⟩ := List.mem_flatMap.1 hr1
    have he := of_decide_eq_true (List.mem_filter.1 hp).2
    cases hx : t1.addrs p.1 with
    | none =>
      rw [hx] at he
      simp only [Option.getD_none] at he
      rw [← he]
      exact (List.getElem?_eq_some_iff.1 h0).1
    | some j =>
      rw [hx] at he
      simp only [Option.getD_some] at he
      rw [← he]
      exact (List.getElem?_eq_some_iff.1 ((hkn _ _).1 hx)).1

/-- Node 1 keeps what it was given; the range of the unknown `c` lands on node 0. -/
example : ∃ t, TableRun (newRTable ["a".toList, "b".toList] (fun s => s.length))
      ([] ++ [[("b".toList, [⟨5, 9⟩]), ("c".toList, [⟨0, maxHash⟩])]]) t ∧
    t.lookup "12345".toList = [0, 1] ∧ t.lookup "1".toList = [0] := by
  refine ⟨{ newRTable ["a".toList, "b".toList] (fun s => s.length) with
    table := [(⟨0, maxHash⟩, 0), (⟨5, 9⟩, 1)] }, ?_, by decide, by decide⟩
  exact TableRun.snoc (reqs := []) (TableRun.nil _)
    ⟨rfl, rfl, ⟨_, List.Perm.refl _, by decide⟩, by simp [rangeLess]⟩

end LogCache
