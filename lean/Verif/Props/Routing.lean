import Verif.Proof.Routing
import Verif.Proof.Maps

/-!
# Property theorems about routing tables, static lookup, scheduler ranges and the
# orchestrator agent (C27-C31, C39-C42, C80, C81, C84)
-/
namespace LogCache
open Spec

/-- After any sequence of `SetRanges` ending with `req`, whose addresses are all
known, looking up an id returns the index of each node exactly once per range of
that node containing the id's hash, and no other index. -/
theorem C27_lookup_exact {nodes : List Str} (hn : nodes.Nodup) {hash : Str → Nat} {t : RTable}
    {reqs : List (List (Str × List HRange))} {req : List (Str × List HRange)}
    (hr : TableRun (newRTable nodes hash) (reqs ++ [req]) t) (hk : ∀ p ∈ req, p.1 ∈ nodes)
    (id : Str) :
    (∀ i a, nodes[i]? = some a →
      (t.lookup id).count i = ((rangesOf req a).filter (covers (hash id))).length) ∧
    ∀ i ∈ t.lookup id, i < nodes.length := by
  obtain ⟨t1, ha, hh, hs⟩ := tableRun_last hr
  have hth : t.h = hash := by rw [hs.h, hh]; rfl
  have hknown : ∀ p ∈ req, ∃ i, t1.addrs p.1 = some i ∧ i < nodes.length := by
    intro p hp
    obtain ⟨j, hj⟩ := List.getElem?_of_mem (hk p hp)
    refine ⟨j, by rw [ha]; exact newRTable_addr hn hj, ?_⟩
    rcases Nat.lt_or_ge j nodes.length with h | h
    · exact h
    · rw [List.getElem?_eq_none h] at hj; cases hj
  constructor
  · intro i a hi
    rw [RTable.lookup, count_lookup, hth, (setRanges_perm hs).countP_eq, ← List.countP_eq_length_filter]
    apply countP_collect
    · intro b
      rw [ha, newRTable_addr_iff hn]
      constructor
      · intro hb
        rw [hi] at hb; exact (Option.some.inj hb).symm
      · rintro rfl; exact hi
    · intro p hp
      obtain ⟨j, hj, _⟩ := hknown p hp
      simp [hj]
  · intro i hi
    rw [RTable.lookup, lookupLoop_eq] at hi
    obtain ⟨x, hx, rfl⟩ := List.mem_map.1 hi
    have hx2 := (setRanges_perm hs).mem_iff.1 (List.mem_filter.1 hx).1
    unfold collectRanges at hx2
    obtain ⟨p, hp, hx3⟩ := List.mem_flatMap.1 hx2
    obtain ⟨r, _, rfl⟩ := List.mem_map.1 hx3
    obtain ⟨j, hj, hlt⟩ := hknown p hp
    simpa [hj] using hlt

/-- A node without any `SetRanges` routes nowhere. -/
theorem C27_initial (nodes : List Str) (hash : Str → Nat) (id : Str) :
    (newRTable nodes hash).lookup id = [] := rfl

/-- A table with two nodes; both bounds are inclusive. -/
def exReq : List (Str × List HRange) :=
  [("b".toList, [⟨5, 9⟩]), ("a".toList, [⟨0, 5⟩, ⟨10, maxHash⟩])]

example : ∃ t, TableRun (newRTable ["a".toList, "b".toList] (fun s => s.length)) ([[]] ++ [exReq]) t ∧
    (∀ p ∈ exReq, p.1 ∈ ["a".toList, "b".toList]) ∧ t.lookup "12345".toList = [0, 1] := by
  refine ⟨{ newRTable ["a".toList, "b".toList] (fun s => s.length) with
    table := [(⟨0, 5⟩, 0), (⟨5, 9⟩, 1), (⟨10, maxHash⟩, 0)] }, ?_, by decide, by decide⟩
  refine TableRun.snoc (t1 := newRTable ["a".toList, "b".toList] (fun s => s.length))
    (reqs := [[]]) ?_ ?_
  · exact TableRun.snoc (reqs := []) (TableRun.nil _)
      ⟨rfl, rfl, ⟨[], List.Perm.refl _, List.Perm.refl _⟩, List.Pairwise.nil⟩
  · refine ⟨rfl, rfl, ⟨exReq, List.Perm.refl _, ?_⟩, by simp [rangeLess]⟩
    decide

/-- The ranges of an address the node does not know are not ignored: they are
routed to node 0. -/
theorem C80_unknown_address_false :
    ∃ (t : RTable) (hash : Str → Nat) (req : List (Str × List HRange)),
      TableRun (newRTable ["a".toList, "b".toList] hash) ([] ++ [req]) t ∧
      (∀ p ∈ req, p.1 ∉ ["a".toList, "b".toList]) ∧ t.lookup "id".toList = [0] := by
  refine ⟨{ newRTable ["a".toList, "b".toList] (fun _ => 7) with table := [(⟨0, maxHash⟩, 0)] },
    fun _ => 7, [("c".toList, [⟨0, maxHash⟩])], ?_, by decide, by decide⟩
  exact TableRun.snoc (reqs := []) (TableRun.nil _)
    ⟨rfl, rfl, ⟨_, List.Perm.refl _, List.Perm.refl _⟩, List.pairwise_singleton _ _⟩

/-- Lookups depend only on the last request, as a map: not on earlier tables, nor
on the order in which the map is iterated or ties are sorted. -/
theorem C28_last_request {nodes : List Str} {hash : Str → Nat} {t t' : RTable}
    {reqs reqs' : List (List (Str × List HRange))} {req req' : List (Str × List HRange)}
    (hr : TableRun (newRTable nodes hash) (reqs ++ [req]) t)
    (hr' : TableRun (newRTable nodes hash) (reqs' ++ [req']) t') (hp : req.Perm req') :
    ∀ id, t.lookup id = t'.lookup id := by
  intro id
  obtain ⟨t1, ha, hh, hs⟩ := tableRun_last hr
  obtain ⟨t1', ha', hh', hs'⟩ := tableRun_last hr'
  unfold RTable.lookup
  rw [hs.h, hs'.h, hh, hh']
  refine lookup_determined ?_ (sorted_keys hs) (sorted_keys hs') _
  refine (setRanges_perm hs).trans ?_
  rw [collect_congr (ha.trans ha'.symm)]
  exact (collect_perm hp).trans (setRanges_perm hs').symm

/-- `SetRanges` always has a result. -/
theorem C28_total (nodes : List Str) (hash : Str → Nat) (reqs : List (List (Str × List HRange))) :
    ∃ t, TableRun (newRTable nodes hash) reqs t := by
  suffices h : ∀ l : List (List (Str × List HRange)), ∃ t, TableRun (newRTable nodes hash) l.reverse t by
    simpa using h reqs.reverse
  intro l
  induction l with
  | nil => exact ⟨_, TableRun.nil _⟩
  | cons r l ih =>
    obtain ⟨t, ht⟩ := ih
    obtain ⟨t', ht'⟩ := setRanges_exists t r
    exact ⟨t', by rw [List.reverse_cons]; exact TableRun.snoc ht ht'⟩

/-- `LookupAll` never fails and gives the same list as `Lookup`. -/
theorem C29_lookupAll (t : RTable) (id : Str) : t.lookupAll id = some (t.lookup id) :=
  lookupAllLoop_eq _ _ _ (by omega)

/-- Every 64-bit hash lies in exactly one of the scheduler's ranges. -/
theorem C30_partition {count : Int} (h1 : 1 ≤ count) (h2 : count ≤ 2 ^ 32) :
    ∃ rs, schedRanges count = some rs ∧ rs.length = count.toNat ∧
      (∀ h, h ≤ maxHash → (rs.filter (covers h)).length = 1) ∧
      ∀ r ∈ rs, r.start ≤ r.stop ∧ r.stop ≤ r.start + maxHash / count.toNat ∧ r.stop ≤ maxHash := by
  obtain ⟨c, rfl⟩ : ∃ c : Nat, count = c := ⟨count.toNat, by omega⟩
  have hf := sched_fits (c := c) (by omega) (by omega)
  refine ⟨schedLoop (maxHash / c) (c - 1) 0, ?_, ?_, ?_, ?_⟩
  · unfold schedRanges
    rw [if_neg (by omega), if_neg (by omega)]
    simp
  · rw [schedLoop_length]; omega
  · intro h hh
    rw [← List.countP_eq_length_filter, schedLoop_count _ _ hh _ _ (by omega)]
    simp
  · exact schedLoop_width _ _ _ (by omega) (by simp; omega)

example : schedRanges 3 = some [⟨0, 6148914691236517205⟩,
    ⟨6148914691236517206, 12297829382473034411⟩, ⟨12297829382473034412, maxHash⟩] := by decide

/-- With `2^32 + 1` ranges the arithmetic wraps around and the last range covers
the whole hash space once more, so hashes are covered twice. -/
theorem C30_wrap_false :
    ∃ rs, schedRanges (2 ^ 32 + 1) = some rs ∧ (rs.filter (covers 0)).length ≠ 1 := by
  have key : ∀ (x k s : Nat), s + k * (x + 1) ≤ maxHash →
      (schedLoop x (k + 1) s).countP (covers 0) =
        ((if s = 0 then 1 else 0) +
          (if (s + (k + 1) * (x + 1)) % 2 ^ 64 = 0 then 1 else 0)) := by
    intro x k
    induction k with
    | zero =>
      intro s hs
      rw [schedLoop, schedLoop, List.countP_cons, List.countP_cons]
      simp only [covers, List.countP_nil, Nat.zero_add, Nat.one_mul]
      generalize (s + (x + 1)) % 2 ^ 64 = y
      by_cases h0 : s = 0 <;> by_cases h1 : y = 0 <;> simp [h0, h1]
    | succ k ih =>
      intro s hs
      have e : (k + 1) * (x + 1) = k * (x + 1) + (x + 1) := Nat.succ_mul ..
      have e2 : (k + 1 + 1) * (x + 1) = (k + 1) * (x + 1) + (x + 1) := Nat.succ_mul ..
      have hm : maxHash < 2 ^ 64 := by decide
      rw [schedLoop, Nat.mod_eq_of_lt (by omega), Nat.mod_eq_of_lt (by omega), List.countP_cons,
        ih (s + (x + 1)) (by omega), if_neg (by omega)]
      have : s + (x + 1) + (k + 1) * (x + 1) = s + (k + 1 + 1) * (x + 1) := by omega
      rw [this]
      by_cases h0 : s = 0 <;> simp [covers, h0] <;> omega
  refine ⟨schedLoop (maxHash / (2 ^ 32 + 1)) (2 ^ 32) 0, ?_, ?_⟩
  · unfold schedRanges
    rw [if_neg (by decide), if_neg (by decide)]
    rfl
  · rw [← List.countP_eq_length_filter]
    have h := key (maxHash / (2 ^ 32 + 1)) (2 ^ 32 - 1) 0 (by decide)
    rw [show (2 ^ 32 - 1 + 1 : Nat) = 2 ^ 32 by decide] at h
    rw [h]
    decide

/-- Static lookup with `n` routes: total, and equal to `min (h / x) (n-1)` with
`x = (2^64-1)/n`; hence in range, monotone, and every index but the last owns a
block of exactly `x` consecutive hashes. -/
theorem C31_static {n : Int} (h1 : 1 ≤ n) (h2 : n < 2 ^ 63) :
    ∃ t, newStaticLookup n = some t ∧ ∀ h,
      staticLookup t h = some (min (h / (maxHash / n.toNat)) (n.toNat - 1)) := by
  obtain ⟨c, rfl⟩ : ∃ c : Nat, n = c := ⟨n.toNat, by omega⟩
  have hx : 1 ≤ maxHash / c := by
    rw [Nat.le_div_iff_mul_le (by omega)]
    have : (2 : Nat) ^ 63 ≤ maxHash := by decide
    omega
  refine ⟨staticLoop (maxHash / c) c 0 .nil, ?_, ?_⟩
  · unfold newStaticLookup; rw [if_neg (by omega)]; simp
  · intro h
    have hs := staticLoop_spec hx c 0 .nil (by
      rw [Nat.zero_add, Nat.mul_comm]; exact Nat.div_mul_le_self _ _) Tree.bst_nil rfl
    unfold staticLookup
    rw [floor_spec hs.1, hs.2, Nat.zero_add]
    simp only [Option.or_none]
    rw [staticPairs_floor hx h c (by omega)]
    simp

theorem C31_in_range_monotone {n : Int} (h1 : 1 ≤ n) (h2 : n < 2 ^ 63) :
    ∃ t, newStaticLookup n = some t ∧
      (∀ h, ∃ i, staticLookup t h = some i ∧ i < n.toNat) ∧
      (∀ h h' i i', h ≤ h' → staticLookup t h = some i → staticLookup t h' = some i' → i ≤ i') ∧
      (∀ i, i + 1 < n.toNat → ∀ h, staticLookup t h = some i ↔
        i * (maxHash / n.toNat) ≤ h ∧ h < i * (maxHash / n.toNat) + maxHash / n.toNat) := by
  obtain ⟨t, ht, hl⟩ := C31_static h1 h2
  refine ⟨t, ht, ?_, ?_, ?_⟩
  · intro h
    exact ⟨_, hl h, by omega⟩
  · intro h h' i i' hle hi hi'
    rw [hl] at hi hi'
    cases hi; cases hi'
    have := Nat.div_le_div_right (c := maxHash / n.toNat) hle
    omega
  · intro i hi h
    have hx : 0 < maxHash / n.toNat := by
      apply Nat.div_pos
      · have : (2 : Nat) ^ 63 ≤ maxHash := by decide
        omega
      · omega
    rw [hl]
    generalize maxHash / n.toNat = x at *
    have e1 : i ≤ h / x ↔ i * x ≤ h := Nat.le_div_iff_mul_le hx
    have e2 : h / x < i + 1 ↔ h < (i + 1) * x := Nat.div_lt_iff_lt_mul hx
    rw [Nat.succ_mul] at e2
    simp only [Option.some.injEq]
    omega

example : ∃ t, newStaticLookup 4 = some t ∧ staticLookup t 0 = some 0 ∧
    staticLookup t maxHash = some 3 ∧ staticLookup t (2 ^ 63) = some 2 := ⟨_, rfl, by decide, by decide, by decide⟩

/-- `NewStaticLookup` panics exactly for a non-positive number of routes. -/
theorem C31_invalid (n : Int) : newStaticLookup n = none ↔ n ≤ 0 := by
  unfold newStaticLookup
  by_cases h : n ≤ 0 <;> simp [h]

/-- The range list is exactly what the history of calls says. -/
theorem C39_range_list {ops : List OrchOp} {o : Orch} (h : OrchRun {} ops o) :
    o.list.view o.mem = rangeList ops := (orchRun_ok h).2

example : ∃ o, OrchRun {} ([] ++ [.add 0 (some ⟨0, 4⟩)] ++ [.add 1 (some ⟨5, 9⟩)] ++
    [.add 0 (some ⟨0, 4⟩)] ++ [.remove (some ⟨0, 4⟩)]) o ∧
    o.list.view o.mem = [some ⟨5, 9⟩, some ⟨0, 4⟩] :=
  ⟨_, .remove _ (.add _ _ (.add _ _ (.add _ _ (.nil _)))) rfl, by decide⟩

/-- As long as only ranges that are present in the message are added, no call
crashes, provided removals name a range. -/
theorem C81_no_crash_partial {ops : List OrchOp} {o : Orch} (h : OrchRun {} ops o)
    (hn : ∀ g, OrchOp.add g none ∉ ops) (q : HRange) : (o.remove (some q)).isSome := by
  have hv := C39_range_list h
  have hnone : none ∉ rangeList ops := by
    clear h hv
    suffices hs : ∀ l : List OrchOp, (∀ g, OrchOp.add g none ∉ l) → none ∉ rangeList l.reverse by
      have := hs ops.reverse (by simpa using hn)
      simpa using this
    intro l
    induction l with
    | nil => intro _; simp [rangeList]
    | cons op l ih =>
      intro hl
      have h' := ih (fun g hg => hl g (List.mem_cons_of_mem _ hg))
      rw [List.reverse_cons, rangeList, List.foldl_append]
      cases op with
      | add g r =>
        simp only [List.foldl_cons, List.foldl_nil, List.mem_append, List.mem_singleton, not_or]
        refine ⟨h', ?_⟩
        rintro rfl
        exact hl g (List.mem_cons_self ..)
      | remove r =>
        simp only [List.foldl_cons, List.foldl_nil]
        exact fun hm => h' (List.mem_of_mem_erase hm)
  have hne : ∀ r ∈ o.list.view o.mem, r ≠ none := by
    intro r hr h0; subst h0; rw [hv] at hr; exact hnone hr
  unfold Orch.remove
  rcases findEq_spec q (o.list.view o.mem) 0 hne with ⟨h1, _⟩ | ⟨i, h1, _, _⟩ <;>
    (simp only [Orch.list, Slice.view] at h1; simp only [h1]; rfl)

/-- An `AddRange` request without a range is accepted, and the next `RemoveRange`
crashes the node. -/
theorem C81_no_crash_false :
    ∃ o, OrchRun {} ([] ++ [.add 0 none]) o ∧ o.remove (some ⟨0, 9⟩) = none :=
  ⟨_, .add _ _ (.nil _), by decide⟩

/-- A list handed out by `ListRanges` does not change while ranges are only
added. -/
theorem C40_snapshot_partial {ops : List OrchOp} {o : Orch} (h : OrchRun {} ops o)
    {adds : List OrchOp} (ha : ∀ op ∈ adds, ∃ g r, op = .add g r) {o' : Orch}
    (h' : OrchRun o adds o') : o.list.view o'.mem = o.list.view o.mem := by
  have hok := (orchRun_ok h).1
  clear h
  -- the snapshot stays a prefix of live or abandoned arrays
  suffices hs : OrchOk o' ∧ o.list.view o'.mem = o.list.view o.mem ∧ o.addr < o'.mem.length ∧
      (o'.addr = o.addr → o.len ≤ o'.len) from hs.2.1
  induction h' with
  | nil => exact ⟨hok, rfl, hok.1, fun _ => Nat.le_refl _⟩
  | remove r _ _ _ =>
    obtain ⟨_, _, hr⟩ := ha (.remove r) (by simp)
    cases hr
  | @add o1 ops1 g r _ ih =>
    obtain ⟨i1, i2, i3, i4⟩ := ih (fun op hop => ha op (List.mem_append_left _ hop))
    refine ⟨(orch_add_ok i1 g r).1, ?_⟩
    obtain ⟨j1, j2⟩ := i1
    rw [← i2]
    unfold Orch.add
    generalize harr : o1.mem.getD o1.addr [] = arr at *
    simp only
    by_cases hc : o1.len < arr.length
    · rw [if_pos hc]
      refine ⟨?_, by simpa using i3, fun he => by have := i4 he; simp only; omega⟩
      simp only [Orch.list, Slice.view]
      by_cases hea : o1.addr = o.addr
      · have hlen := i4 hea
        rw [← hea, harr]
        have : (o1.mem.set o1.addr (arr.set o1.len r)).getD o1.addr [] = arr.set o1.len r := by
          simp [List.getD, j1]
        rw [this, List.take_set_of_le hlen]
      · congr 1
        simp [List.getD, List.getElem?_set, hea]
    · rw [if_neg hc]
      refine ⟨?_, by simp; omega, ?_⟩
      · simp only [Orch.list, Slice.view]
        congr 1
        simp [List.getD, List.getElem?_append_left i3]
      · simp only; intro he; omega

example : ∃ o o', OrchRun {} ([] ++ [.add 1 (some ⟨0, 4⟩)]) o ∧
    OrchRun o ([] ++ [.add 0 (some ⟨5, 9⟩)]) o' ∧ o.list.view o'.mem = [some ⟨0, 4⟩] ∧
    o'.list.view o'.mem = [some ⟨0, 4⟩, some ⟨5, 9⟩] :=
  ⟨_, _, .add _ _ (.nil _), .add _ _ (.nil _), by decide, by decide⟩

/-- A list handed out by `ListRanges` is changed by a later `RemoveRange`: the
removed range disappears from it and another appears twice. -/
theorem C40_snapshot_false :
    ∃ o o', OrchRun {} ([] ++ [.add 1 (some ⟨0, 4⟩)] ++ [.add 0 (some ⟨5, 9⟩)]) o ∧
      o.list.view o.mem = [some ⟨0, 4⟩, some ⟨5, 9⟩] ∧
      o.remove (some ⟨0, 4⟩) = some o' ∧
      o.list.view o'.mem = [some ⟨5, 9⟩, some ⟨5, 9⟩] :=
  ⟨_, _, .add _ _ (.add _ _ (.nil _)), by decide, rfl, by decide⟩

theorem findEq_hit (q : Option HRange) : ∀ (l : List (Option HRange)) (k j : Nat), findEq q l k = some (some j) →
    ∃ i, j = k + i ∧ i < l.length ∧ q ∈ l ∧ l.erase q = l.take i ++ l.drop (i + 1) := by
  intro l
  induction l with
  | nil => intro k j hf; simp [findEq] at hf
  | cons r rest ih =>
    intro k j hf
    cases r with
    | none => simp [findEq] at hf
    | some r =>
      cases q with
      | none => simp [findEq] at hf
      | some q =>
        rw [findEq] at hf
        by_cases he : r.start = q.start ∧ r.stop = q.stop
        · simp [he] at hf
          have : r = q := by cases r; cases q; simp_all
          subst this
          exact ⟨0, by simp [hf], by simp, by simp, by simp⟩
        · simp only [if_neg he] at hf
          have hne : r ≠ q := by rintro rfl; exact he ⟨rfl, rfl⟩
          obtain ⟨i, e1, e2, e3, e4⟩ := ih _ _ hf
          exact ⟨i + 1, by omega, by simpa using e2, List.mem_cons_of_mem _ e3,
            by rw [List.erase_cons_tail (by simpa using hne), e4]; rfl⟩

theorem findEq_miss (q : Option HRange) : ∀ (l : List (Option HRange)) (k : Nat), findEq q l k = some none →
    q ∉ l := by
  intro l
  induction l with
  | nil => intro k _ h; cases h
  | cons r rest ih =>
    intro k hf
    cases r with
    | none => simp [findEq] at hf
    | some r =>
      cases q with
      | none => simp [findEq] at hf
      | some q =>
        rw [findEq] at hf
        by_cases he : r.start = q.start ∧ r.stop = q.stop
        · simp [he] at hf
        · simp only [if_neg he] at hf
          have hne : q ≠ r := by rintro rfl; exact he ⟨rfl, rfl⟩
          intro hm
          rcases List.mem_cons.1 hm with h | h
          · exact hne (Option.some.inj h)
          · exact ih _ hf h

/-- What `RemoveRange` does to the list that `ListRanges` handed out last: if it has the range,
the first copy disappears from it and its last range is repeated; else it stays as it is. -/
theorem C40_removed {ops : List OrchOp} {o : Orch} (h : OrchRun {} ops o) {q : Option HRange} {o' : Orch}
    (hr : o.remove q = some o') :
    o.list.view o'.mem =
      if q ∈ rangeList ops then (rangeList ops).erase q ++ (rangeList ops).getLast?.toList else rangeList ops := by
  obtain ⟨⟨h1, h2⟩, h3⟩ := orchRun_ok h
  suffices hg : (q ∈ o.list.view o.mem → o.list.view o'.mem =
        (o.list.view o.mem).erase q ++ (o.list.view o.mem).getLast?.toList) ∧
      (q ∉ o.list.view o.mem → o.list.view o'.mem = o.list.view o.mem) by
    rw [h3] at hg
    split
    · exact hg.1 ‹_›
    · exact hg.2 ‹_›
  clear h3
  unfold Orch.remove at hr
  simp only [Orch.list, Slice.view] at *
  generalize harr : o.mem.getD o.addr [] = arr at *
  cases hf : findEq q (arr.take o.len) 0 with
  | none => rw [hf] at hr; cases hr
  | some r =>
    rw [hf] at hr
    cases r with
    | none =>
      cases hr
      exact ⟨fun hm => absurd hm (findEq_miss _ _ _ hf), fun _ => by rw [harr]⟩
    | some j =>
      cases hr
      obtain ⟨i, e1, e2, e3, e4⟩ := findEq_hit _ _ _ _ hf
      refine ⟨fun _ => ?_, fun hm => absurd e3 hm⟩
      rw [e4]
      have hi : i < o.len := by simp at e2; omega
      have hj : j = i := by omega
      subst hj
      have hget : (o.mem.set o.addr (arr.take j ++ (arr.take o.len).drop (j + 1) ++
          arr.drop (o.len - 1))).getD o.addr [] =
          arr.take j ++ (arr.take o.len).drop (j + 1) ++ arr.drop (o.len - 1) := by
        simp [List.getD, h1]
      have hlen1 : (arr.take j ++ (arr.take o.len).drop (j + 1)).length = o.len - 1 := by
        simp; omega
      simp only [hget]
      rw [List.take_append, List.take_of_length_le (by omega), hlen1, List.take_take,
        Nat.min_eq_left (by omega)]
      congr 1
      have hl : o.len - (o.len - 1) = 1 := by omega
      rw [hl, List.getLast?_eq_getElem?, List.length_take, Nat.min_eq_left (by omega),
        List.getElem?_take, if_pos (by omega), List.take_one, List.head?_drop]

/-- Three ranges, the second is removed. -/
example : ∃ o o', OrchRun {} ([] ++ [.add 5 (some ⟨0, 4⟩)] ++ [.add 0 (some ⟨5, 9⟩)] ++ [.add 0 (some ⟨10, 14⟩)]) o ∧
    o.remove (some ⟨5, 9⟩) = some o' ∧
    o.list.view o'.mem = [some ⟨0, 4⟩, some ⟨10, 14⟩, some ⟨10, 14⟩] :=
  ⟨_, _, .add _ _ (.add _ _ (.add _ _ (.nil _))), rfl, by decide⟩

/-- Only the leader sends assignment requests, exactly one to the addressed
worker; a non-leader reports success without sending anything. -/
theorem C41_leader_only (leader ok : Bool) (worker : Str) (task : HRange) :
    commAdd leader worker task ok =
      (if leader then ([(worker, .addRange task)], ok) else ([], true)) ∧
    commRemove leader worker task ok =
      (if leader then ([(worker, .removeRange task)], ok) else ([], true)) := by
  cases leader <;> exact ⟨rfl, rfl⟩

/-- Only the leader pushes tables, the same one to every node. -/
theorem C41_push (leader : Bool) (clients : List Str) (ws : List (Str × List HRange)) :
    pushTables leader clients ws =
      if leader then clients.map (fun c => (c, .setRanges (convertWorkerState ws))) else [] := by
  cases leader <;> rfl

/-- The pushed table is a map that gives each address the tasks of the last worker
state listed for it. -/
theorem C84_worker_state (ws : List (Str × List HRange)) :
    ((convertWorkerState ws).map Prod.fst).Nodup ∧
    ∀ a, (convertWorkerState ws).lookup a = ws.reverse.lookup a := by
  suffices h : ∀ l : List (Str × List HRange),
      ((convertWorkerState l.reverse).map Prod.fst).Nodup ∧
      ∀ a, (convertWorkerState l.reverse).lookup a = l.lookup a by
    have := h ws.reverse
    simpa using this
  intro l
  induction l with
  | nil => exact ⟨List.nodup_nil, fun _ => rfl⟩
  | cons w l ih =>
    have e : convertWorkerState (w :: l).reverse = mapSet (convertWorkerState l.reverse) w.1 w.2 := by
      rw [List.reverse_cons, convertWorkerState, List.foldl_append]; rfl
    rw [e]
    refine ⟨(mapSet_keys _ _ _ ih.1).1, ?_⟩
    intro a
    rw [mapSet_lookup, ih.2]
    obtain ⟨k, v⟩ := w
    by_cases h : a = k
    · subst h; simp
    · have : (a == k) = false := by simpa using h
      simp [List.lookup, h, this]

/-- Nodes that know the same peers and whose last table came from the same push
agree on every lookup. -/
theorem C84_pushed_tables_agree {nodes : List Str} {hash : Str → Nat} {t t' : RTable}
    {reqs reqs' : List (List (Str × List HRange))} {clients : List Str} {c c' : Str}
    {ws req req' : List (Str × List HRange)}
    (hc : (c, OrchReq.setRanges req) ∈ pushTables true clients ws)
    (hc' : (c', OrchReq.setRanges req') ∈ pushTables true clients ws)
    (hr : TableRun (newRTable nodes hash) (reqs ++ [req]) t)
    (hr' : TableRun (newRTable nodes hash) (reqs' ++ [req']) t') (id : Str) :
    t.lookup id = t'.lookup id := by
  rw [C41_push] at hc hc'
  simp only [if_true, List.mem_map, Prod.mk.injEq, OrchReq.setRanges.injEq] at hc hc'
  obtain ⟨_, _, _, rfl⟩ := hc
  obtain ⟨_, _, _, rfl⟩ := hc'
  exact C28_last_request hr hr' (List.Perm.refl _) id

/-- If every scheduler range is assigned to `k` distinct nodes and nothing else is
assigned, every source id has exactly `k` distinct owners. -/
theorem C42_owners {nodes : List Str} (hn : nodes.Nodup) {hash : Str → Nat} {t : RTable}
    {reqs : List (List (Str × List HRange))} {req : List (Str × List HRange)}
    (hr : TableRun (newRTable nodes hash) (reqs ++ [req]) t) (hk : ∀ p ∈ req, p.1 ∈ nodes)
    {count : Int} (h1 : 1 ≤ count) (h2 : count ≤ 2 ^ 32) {rs : List HRange}
    (hrs : schedRanges count = some rs) {k : Nat}
    (hsched : ∀ r, (req.flatMap Prod.snd).count r = if r ∈ rs then k else 0)
    (hdist : ∀ a, (rangesOf req a).Nodup) (id : Str) (hid : hash id ≤ maxHash) :
    (t.lookup id).length = k ∧ (t.lookup id).Nodup := by
  obtain ⟨rs', e, _, hone, _⟩ := C30_partition h1 h2
  rw [hrs] at e; cases e
  have hf := hone (hash id) hid
  -- the unique range of the hash
  obtain ⟨r0, hr0⟩ : ∃ r0, rs.filter (covers (hash id)) = [r0] := by
    match hm : rs.filter (covers (hash id)) with
    | [] => rw [hm] at hf; simp at hf
    | [r0] => exact ⟨r0, rfl⟩
    | _ :: _ :: _ => rw [hm] at hf; simp at hf
  have huniq : ∀ r ∈ rs, covers (hash id) r = true → r = r0 := by
    intro r hr1 hr2
    have : r ∈ rs.filter (covers (hash id)) := List.mem_filter.2 ⟨hr1, hr2⟩
    rw [hr0] at this; simpa using this
  have hr0m : r0 ∈ rs ∧ covers (hash id) r0 = true := by
    have : r0 ∈ rs.filter (covers (hash id)) := by rw [hr0]; simp
    exact List.mem_filter.1 this
  have hmem : ∀ r ∈ req.flatMap Prod.snd, r ∈ rs := by
    intro r hr
    have h0 := List.count_pos_iff.2 hr
    rw [hsched] at h0
    by_cases h : r ∈ rs
    · exact h
    · rw [if_neg h] at h0; omega
  have hcov : ∀ l : List HRange, (∀ r ∈ l, r ∈ rs) → l.countP (covers (hash id)) = l.count r0 := by
    intro l hl
    rw [List.count]
    apply List.countP_congr
    intro r hr
    constructor
    · intro h; have := huniq r (hl r hr) h; simp [this]
    · intro h; have : r = r0 := by simpa using h
      rw [this]; exact hr0m.2
  have hex := C27_lookup_exact hn hr hk id
  obtain ⟨t1, ha, hh, hs⟩ := tableRun_last hr
  have hth : t.h = hash := by rw [hs.h, hh]; rfl
  constructor
  · rw [RTable.lookup, lookupLoop_eq, hth, List.length_map, ← List.countP_eq_length_filter,
      (setRanges_perm hs).countP_eq]
    have : (collectRanges t1 req).countP (fun x => covers (hash id) x.1) =
        (req.flatMap Prod.snd).countP (covers (hash id)) := by
      unfold collectRanges
      clear hr hk hsched hdist hmem hex hs
      induction req with
      | nil => rfl
      | cons p rest ih =>
        rw [List.flatMap_cons, List.flatMap_cons, List.countP_append, List.countP_append, ih,
          List.countP_map]
        rfl
    rw [this, hcov _ hmem, hsched, if_pos hr0m.1]
  · rw [List.nodup_iff_count]
    intro i
    rcases Nat.eq_zero_or_pos ((t.lookup id).count i) with h0 | h0
    · omega
    · have hlt := hex.2 i (List.count_pos_iff.1 h0)
      rw [hex.1 i nodes[i] (by simp [hlt]), ← List.countP_eq_length_filter, hcov]
      · exact List.nodup_iff_count.1 (hdist _) r0
      · intro r hr
        unfold rangesOf at hr
        obtain ⟨p, hp, hpr⟩ := List.mem_flatMap.1 hr
        exact hmem r (List.mem_flatMap.2 ⟨p, (List.mem_filter.1 hp).1, hpr⟩)

/-- A two-node cluster with three ranges and replication factor 2. -/
example : ∃ rs, schedRanges 3 = some rs ∧
    (∀ r, ([("a".toList, rs), ("b".toList, rs)].flatMap Prod.snd).count r = if r ∈ rs then 2 else 0) ∧
    ∀ a, (rangesOf [("a".toList, rs), ("b".toList, rs)] a).Nodup := by
  refine ⟨_, rfl, ?_, ?_⟩
  · intro r
    simp only [List.flatMap_cons, List.flatMap_nil, List.append_nil, List.count_append]
    generalize hl : schedLoop (maxHash / (3 : Int).toNat) ((3 : Int).toNat - 1) 0 = l
    have hnd : l.Nodup := by subst hl; decide
    by_cases h : r ∈ l
    · rw [if_pos h]
      have h1 := List.nodup_iff_count.1 hnd r
      have h2 := List.count_pos_iff.2 h
      omega
    · rw [if_neg h, List.count_eq_zero.2 h]
  · intro a
    have hl : (schedLoop (maxHash / (3 : Int).toNat) ((3 : Int).toNat - 1) 0).Nodup := by decide
    unfold rangesOf
    by_cases h1 : "a".toList = a
    · subst h1; simpa using hl
    · by_cases h2 : "b".toList = a
      · subst h2; simpa using hl
      · simp at h1 h2
        simp [h1, h2]

end LogCache
