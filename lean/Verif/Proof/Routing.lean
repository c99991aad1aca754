import Verif.Spec.Routing
import Verif.Proof.Avl
/-!
# Lemmas about routing
-/
namespace LogCache
open Spec

theorem outside_eq (h : Nat) (r : HRange) : outside h r = !covers h r := by
  unfold outside covers
  by_cases h1 : h < r.start <;> by_cases h2 : h > r.stop <;> simp [h1, h2] <;> omega

theorem lookupLoop_eq (h : Nat) (l : List (HRange × Nat)) :
    lookupLoop h l = (l.filter (fun x => covers h x.1)).map Prod.snd := by
  induction l with
  | nil => rfl
  | cons x rest ih =>
    obtain ⟨r, i⟩ := x
    rw [lookupLoop, outside_eq, ih]
    cases hc : covers h r <;> simp [hc]

/-! ### Addresses -/

theorem addrLoop_notin {as : List Str} {x : Str} (hx : x ∉ as) :
    ∀ (k : Nat) (m : Str → Option Nat), addrLoop as k m x = m x := by
  induction as with
  | nil => intros; rfl
  | cons a as ih =>
    intro k m
    rw [addrLoop, ih (fun h => hx (List.mem_cons_of_mem _ h))]
    have : x ≠ a := fun h => hx (h ▸ List.mem_cons_self ..)
    simp [this]

theorem addrLoop_spec {as : List Str} (hn : as.Nodup) (x : Str) :
    ∀ (k : Nat) (m : Str → Option Nat),
      (∀ i, as[i]? = some x → addrLoop as k m x = some (k + i)) := by
  induction as with
  | nil => intro k m i hi; simp at hi
  | cons a as ih =>
    intro k m i hi
    have hn' := List.nodup_cons.1 hn
    rw [addrLoop]
    cases i with
    | zero =>
      simp at hi
      subst hi
      rw [addrLoop_notin hn'.1]; simp
    | succ i =>
      rw [ih hn'.2 (k + 1) _ i (by simpa using hi)]
      congr 1; omega

theorem newRTable_addr {nodes : List Str} (hn : nodes.Nodup) {h : Str → Nat} {a : Str} {i : Nat}
    (hi : nodes[i]? = some a) : (newRTable nodes h).addrs a = some i := by
  have := addrLoop_spec hn a 0 (fun _ => none) i hi
  simpa [newRTable] using this

theorem newRTable_addr_iff {nodes : List Str} (hn : nodes.Nodup) {h : Str → Nat} {a : Str} {i : Nat} :
    (newRTable nodes h).addrs a = some i ↔ nodes[i]? = some a := by
  constructor
  · intro h1
    by_cases ha : a ∈ nodes
    · obtain ⟨j, hj⟩ := List.getElem?_of_mem ha
      rw [newRTable_addr hn hj] at h1
      cases h1; exact hj
    · simp only [newRTable] at h1
      rw [addrLoop_notin ha] at h1; cases h1
  · exact newRTable_addr hn

/-! ### SetRanges -/

theorem tableRun_keeps {t0 t : RTable} {reqs : List (List (Str × List HRange))}
    (hr : TableRun t0 reqs t) : t.addrs = t0.addrs ∧ t.h = t0.h := by
  induction hr with
  | nil => exact ⟨rfl, rfl⟩
  | snoc _ hs ih => exact ⟨hs.addrs.trans ih.1, hs.h.trans ih.2⟩

theorem tableRun_last {t0 t : RTable} {reqs : List (List (Str × List HRange))}
    {req : List (Str × List HRange)} (hr : TableRun t0 (reqs ++ [req]) t) :
    ∃ t1, t1.addrs = t0.addrs ∧ t1.h = t0.h ∧ SetRanges t1 req t := by
  generalize he : reqs ++ [req] = l at hr
  cases hr with
  | nil => simp at he
  | snoc hr' hs =>
    obtain ⟨h1, h2⟩ := List.append_inj_left' he rfl, List.append_inj_right' he rfl
    simp at h2
    subst h2
    exact ⟨_, (tableRun_keeps hr').1, (tableRun_keeps hr').2, hs⟩

theorem collect_perm {t : RTable} {a b : List (Str × List HRange)} (h : a.Perm b) :
    (collectRanges t a).Perm (collectRanges t b) := h.flatMap_right _

theorem collect_congr {t t' : RTable} (h : t.addrs = t'.addrs) (a : List (Str × List HRange)) :
    collectRanges t a = collectRanges t' a := by
  unfold collectRanges; rw [h]

theorem setRanges_perm {t t' : RTable} {req : List (Str × List HRange)} (h : SetRanges t req t') :
    t'.table.Perm (collectRanges t req) := by
  obtain ⟨it, h1, h2⟩ := h.table
  exact h2.trans (collect_perm h1)

/-- The sort key: entries are ordered by start, then by descending index. -/
def skey (x : HRange × Nat) : Nat × Nat := (x.1.start, x.2)

def kle (a b : Nat × Nat) : Prop := a.1 < b.1 ∨ (a.1 = b.1 ∧ b.2 ≤ a.2)

theorem kle_antisymm {a b : Nat × Nat} (h1 : kle a b) (h2 : kle b a) : a = b := by
  unfold kle at *
  apply Prod.ext <;> omega

theorem rangeLess_false {x y : HRange × Nat} : rangeLess y x = false ↔ kle (skey x) (skey y) := by
  unfold rangeLess kle skey
  split <;> simp <;> omega

theorem sorted_keys {t t' : RTable} {req : List (Str × List HRange)} (h : SetRanges t req t') :
    (t'.table.map skey).Pairwise kle := by
  rw [List.pairwise_map]
  exact h.sorted.imp (fun hxy => rangeLess_false.1 hxy)

theorem perm_sorted_eq {a b : List (Nat × Nat)} (hp : a.Perm b) (ha : a.Pairwise kle)
    (hb : b.Pairwise kle) : a = b :=
  List.Perm.eq_of_pairwise (le := kle) (fun _ _ _ _ h1 h2 => kle_antisymm h1 h2) ha hb hp

theorem lookup_keys (h : Nat) (l : List (HRange × Nat)) :
    lookupLoop h l = ((l.filter (fun x => covers h x.1)).map skey).map Prod.snd := by
  rw [lookupLoop_eq, List.map_map]; rfl

theorem lookup_determined {l l' : List (HRange × Nat)} (hp : l.Perm l')
    (h1 : (l.map skey).Pairwise kle) (h2 : (l'.map skey).Pairwise kle) (h : Nat) :
    lookupLoop h l = lookupLoop h l' := by
  rw [lookup_keys, lookup_keys]
  congr 1
  apply perm_sorted_eq
  · exact ((hp.filter _).map _)
  · exact List.Pairwise.sublist (List.filter_sublist.map _) h1
  · exact List.Pairwise.sublist (List.filter_sublist.map _) h2

theorem rangeLess_total (x y : HRange × Nat) : (!rangeLess y x || !rangeLess x y) = true := by
  have h1 := @rangeLess_false x y
  have h2 := @rangeLess_false y x
  cases hx : rangeLess y x <;> cases hy : rangeLess x y <;> simp
  rw [hx] at h1; rw [hy] at h2
  simp [kle, skey] at h1 h2
  omega

theorem rangeLess_trans (x y z : HRange × Nat) (h1 : (!rangeLess y x) = true)
    (h2 : (!rangeLess z y) = true) : (!rangeLess z x) = true := by
  simp only [Bool.not_eq_true'] at *
  rw [rangeLess_false] at *
  unfold kle at *
  omega

theorem setRanges_exists (t : RTable) (req : List (Str × List HRange)) : ∃ t', SetRanges t req t' := by
  refine ⟨{ t with table := (collectRanges t req).mergeSort (fun x y => !rangeLess y x) },
    rfl, rfl, ⟨req, List.Perm.refl _, List.mergeSort_perm _ _⟩, ?_⟩
  have := List.pairwise_mergeSort (le := fun x y => !rangeLess y x)
    (fun a b c => rangeLess_trans a b c) (fun a b => rangeLess_total a b) (collectRanges t req)
  exact this.imp (fun h => by simpa using h)

/-- Counting an index in the collected entries. -/
theorem countP_collect {t : RTable} {i : Nat} {a : Str} (hi : ∀ b, t.addrs b = some i ↔ b = a) (h : Nat) :
    ∀ req : List (Str × List HRange), (∀ p ∈ req, (t.addrs p.1).isSome) →
      (collectRanges t req).countP (fun x => decide (x.2 = i) && covers h x.1) =
        (rangesOf req a).countP (covers h) := by
  intro req
  induction req with
  | nil => intro _; rfl
  | cons p rest ih =>
    intro hk
    have hih := ih (fun q hq => hk q (List.mem_cons_of_mem _ hq))
    have hp := hk p (List.mem_cons_self ..)
    unfold collectRanges rangesOf at *
    rw [List.flatMap_cons, List.countP_append, hih, List.countP_map]
    by_cases hpa : p.1 = a
    · have : t.addrs p.1 = some i := (hi _).2 hpa
      rw [List.filter_cons_of_pos (by simpa using hpa), List.flatMap_cons, List.countP_append]
      congr 1
      apply List.countP_congr
      intro r _
      simp [this]
    · have hne : (t.addrs p.1).getD 0 ≠ i := by
        intro he
        apply hpa
        obtain ⟨j, hj⟩ := Option.isSome_iff_exists.1 hp
        rw [hj] at he
        simp at he
        exact (hi _).1 (he ▸ hj)
      rw [List.filter_cons_of_neg (by simpa using hpa)]
      have : List.countP ((fun x : HRange × Nat => decide (x.2 = i) && covers h x.1) ∘
          fun r => (r, (t.addrs p.1).getD 0)) p.2 = 0 := by
        rw [List.countP_eq_zero]
        intro r _
        simp [hne]
      omega

theorem count_lookup (h i : Nat) (l : List (HRange × Nat)) :
    (lookupLoop h l).count i = l.countP (fun x => decide (x.2 = i) && covers h x.1) := by
  rw [lookupLoop_eq, List.count, List.countP_map, List.countP_filter]
  apply List.countP_congr
  intro x _
  simp

/-! ### LookupAll -/

theorem findRange_spec (h : Nat) (l : List (HRange × Nat)) : ∀ k,
    (findRange h l k = none ∧ lookupLoop h l = []) ∨
    ∃ (i : Nat) (x : HRange × Nat), findRange h l k = some (k + i) ∧ l[i]? = some x ∧
      lookupLoop h l = x.2 :: lookupLoop h (l.drop (i + 1)) := by
  induction l with
  | nil => intro k; left; exact ⟨rfl, rfl⟩
  | cons y rest ih =>
    intro k
    obtain ⟨r, j⟩ := y
    rw [findRange, lookupLoop]
    cases ho : outside h r with
    | false => right; exact ⟨0, (r, j), by simp, by simp, by simp⟩
    | true =>
      simp only [if_true]
      rcases ih (k + 1) with ⟨h1, h2⟩ | ⟨i, x, h1, h2, h3⟩
      · left; exact ⟨h1, h2⟩
      · right
        refine ⟨i + 1, x, ?_, by simpa using h2, by simpa using h3⟩
        rw [h1]; congr 1; omega

theorem lookupAllLoop_eq (h : Nat) : ∀ (n : Nat) (l : List (HRange × Nat)), l.length < n →
    lookupAllLoop h n l = some (lookupLoop h l) := by
  intro n
  induction n with
  | zero => intro l hl; omega
  | succ n ih =>
    intro l hl
    rw [lookupAllLoop]
    rcases findRange_spec h l 0 with ⟨h1, h2⟩ | ⟨i, x, h1, h2, h3⟩
    · rw [h1, h2]
    · rw [h1]
      simp only [Nat.zero_add, h2]
      have hil : i < l.length := by
        rcases Nat.lt_or_ge i l.length with h | h
        · exact h
        · rw [List.getElem?_eq_none h] at h2; cases h2
      rw [ih _ (by simp; omega), h3]; rfl

/-! ### Scheduler ranges -/

theorem schedLoop_count (x h : Nat) (hh : h ≤ maxHash) : ∀ (k s : Nat), s + k * (x + 1) ≤ maxHash →
    (schedLoop x k s).countP (covers h) = if s ≤ h then 1 else 0 := by
  intro k
  induction k with
  | zero =>
    intro s hs
    by_cases h1 : s ≤ h <;> simp [schedLoop, covers, h1, hh]
  | succ k ih =>
    intro s hs
    have e : (k + 1) * (x + 1) = k * (x + 1) + (x + 1) := Nat.succ_mul ..
    have hm : maxHash < 2 ^ 64 := by decide
    rw [schedLoop, Nat.mod_eq_of_lt (by omega), Nat.mod_eq_of_lt (by omega), List.countP_cons,
      ih (s + (x + 1)) (by omega)]
    unfold covers
    by_cases h1 : s ≤ h
    · by_cases h2 : s + (x + 1) ≤ h
      · have h3 : ¬ h ≤ s + x := by omega
        simp [h1, h2, h3]
      · have h3 : h ≤ s + x := by omega
        simp [h1, h2, h3]
    · have h2 : ¬ s + (x + 1) ≤ h := by omega
      simp [h1, h2]

theorem schedLoop_length (x : Nat) : ∀ (k s : Nat), (schedLoop x k s).length = k + 1 := by
  intro k
  induction k with
  | zero => intro s; rfl
  | succ k ih => intro s; simp [schedLoop, ih]

theorem schedLoop_width (x : Nat) : ∀ (k s : Nat), s + k * (x + 1) ≤ maxHash →
    maxHash ≤ s + k * (x + 1) + x →
    ∀ r ∈ schedLoop x k s, r.start ≤ r.stop ∧ r.stop ≤ r.start + x ∧ r.stop ≤ maxHash := by
  intro k
  induction k with
  | zero => intro s hs hs2 r hr; simp [schedLoop] at hr; subst hr; simp; omega
  | succ k ih =>
    intro s hs hs2 r hr
    have e : (k + 1) * (x + 1) = k * (x + 1) + (x + 1) := Nat.succ_mul ..
    have hm : maxHash < 2 ^ 64 := by decide
    rw [schedLoop, Nat.mod_eq_of_lt (by omega), Nat.mod_eq_of_lt (by omega)] at hr
    rcases List.mem_cons.1 hr with h | h
    · subst h; simp; omega
    · exact ih (s + (x + 1)) (by omega) (by omega) r h

/-- The last range starts inside the hash space iff `(c-1)(x+1) ≤ maxHash`. -/
theorem sched_fits {c : Nat} (h1 : 1 ≤ c) (h2 : c ≤ 2 ^ 32) :
    (c - 1) * (maxHash / c + 1) ≤ maxHash ∧
      maxHash ≤ (c - 1) * (maxHash / c + 1) + maxHash / c := by
  have hx : c - 1 ≤ maxHash / c := by
    rw [Nat.le_div_iff_mul_le (by omega)]
    have : (c - 1) * c ≤ (2 ^ 32 - 1) * 2 ^ 32 := Nat.mul_le_mul (by omega) h2
    have : (2 ^ 32 - 1) * 2 ^ 32 ≤ maxHash := by decide
    omega
  have hd := Nat.div_add_mod maxHash c
  have hlt := Nat.mod_lt maxHash (show c > 0 by omega)
  generalize maxHash / c = x at *
  obtain ⟨d, rfl⟩ : ∃ d, c = d + 1 := ⟨c - 1, by omega⟩
  simp only [Nat.add_sub_cancel] at *
  have e1 : (d + 1) * x = d * x + x := Nat.succ_mul ..
  have e2 : d * (x + 1) = d * x + d := Nat.mul_succ ..
  omega

/-! ### Static lookup -/

open Tree

theorem floor_spec {t : Tree Nat} (hb : BST t) (key : Int) : ∀ acc,
    t.floor key acc = ((t.toList.filter (fun p => p.1 ≤ key)).getLast?).or acc := by
  induction t with
  | nil => intro acc; simp [Tree.floor, toList]
  | node l k v b r ihl ihr =>
    intro acc
    obtain ⟨hl, hr, hlk, hrk⟩ := bst_node.1 hb
    rw [Tree.floor, toList, List.filter_append, List.filter_cons]
    by_cases h1 : key = k
    · rw [if_pos h1]
      have : r.toList.filter (fun p => p.1 ≤ key) = [] := by
        rw [List.filter_eq_nil_iff]; intro x hx; have := hrk x hx; simp; omega
      have hk : k ≤ key := by omega
      simp [this, hk]
    · rw [if_neg h1]
      by_cases h2 : key < k
      · rw [if_pos h2, ihl hl]
        have : r.toList.filter (fun p => p.1 ≤ key) = [] := by
          rw [List.filter_eq_nil_iff]; intro x hx; have := hrk x hx; simp; omega
        have hk : ¬ k ≤ key := by omega
        simp [this, hk]
      · rw [if_neg h2, ihr hr]
        have hk : k ≤ key := by omega
        simp only [hk, decide_true, if_true]
        generalize r.toList.filter (fun p => p.1 ≤ key) = R
        generalize l.toList.filter (fun p => p.1 ≤ key) = L
        cases R with
        | nil => simp
        | cons y ys => simp [List.getLast?_append, List.getLast?_cons]

/-- The pairs `(j*x, j)` for `j < i`. -/
def staticPairs (x : Nat) (i : Nat) : List (Int × Nat) :=
  (List.range i).map (fun (j : Nat) => (((j * x : Nat) : Int), j))

theorem insertKV_end {α : Type} {key : Int} {val : α} : ∀ {l : List (Int × α)}, (∀ p ∈ l, p.1 < key) →
    insertKV key val l = l ++ [(key, val)]
  | [], _ => rfl
  | (k, v) :: t, h => by
    have hk : k < key := h (k, v) (List.mem_cons_self ..)
    rw [insertKV, if_neg (by omega), if_neg (by omega),
      insertKV_end (fun p hp => h p (List.mem_cons_of_mem _ hp))]
    rfl

theorem staticLoop_spec {x : Nat} (hx : 1 ≤ x) : ∀ (k i : Nat) (t : Tree Nat),
    (i + k) * x ≤ maxHash → BST t → t.toList = staticPairs x i →
    BST (staticLoop x k i t) ∧ (staticLoop x k i t).toList = staticPairs x (i + k) := by
  intro k
  induction k with
  | zero => intro i t _ hb ht; exact ⟨hb, ht⟩
  | succ k ih =>
    intro i t hle hb ht
    rw [staticLoop]
    have hix : i * x ≤ (i + (k + 1)) * x := Nat.mul_le_mul_right _ (by omega)
    have hm : maxHash < 2 ^ 64 := by decide
    rw [Nat.mod_eq_of_lt (by omega)]
    have hput : (t.put ((i * x : Nat) : Int) i).toList = staticPairs x (i + 1) := by
      rw [toList_put hb, ht, insertKV_end]
      · simp [staticPairs, List.range_succ]
      · intro p hp
        simp only [staticPairs, List.mem_map, List.mem_range] at hp
        obtain ⟨j, hj, rfl⟩ := hp
        have : (j + 1) * x ≤ i * x := Nat.mul_le_mul_right _ (by omega)
        rw [Nat.succ_mul] at this
        simp only
        omega
    have := ih (i + 1) _ (by rw [show i + 1 + k = i + (k + 1) by omega]; exact hle) (bst_put hb) hput
    rw [show i + 1 + k = i + (k + 1) by omega] at this
    exact this

theorem staticPairs_floor {x : Nat} (hx : 1 ≤ x) (h : Nat) : ∀ n, 1 ≤ n →
    (((staticPairs x n).filter (fun p => p.1 ≤ (h : Int))).getLast?).map Prod.snd =
      some (min (h / x) (n - 1)) := by
  intro n hn
  obtain ⟨m, rfl⟩ : ∃ m, n = m + 1 := ⟨n - 1, by omega⟩
  clear hn
  induction m with
  | zero => simp [staticPairs, List.range_succ]
  | succ m ih =>
    have e : staticPairs x (m + 1 + 1) = staticPairs x (m + 1) ++ [((((m + 1) * x : Nat) : Int), m + 1)] := by
      simp [staticPairs, List.range_succ]
    rw [e, List.filter_append]
    by_cases hle : (m + 1) * x ≤ h
    · have h1 : m + 1 ≤ h / x := (Nat.le_div_iff_mul_le (by omega)).2 hle
      have h2 : ((((m + 1) * x : Nat) : Int)) ≤ (h : Int) := by omega
      rw [List.filter_cons_of_pos (by simpa using h2)]
      simp
      omega
    · have h1 : h / x < m + 1 := (Nat.div_lt_iff_lt_mul (by omega)).2 (by omega)
      have h2 : ¬ ((((m + 1) * x : Nat) : Int)) ≤ (h : Int) := by omega
      rw [List.filter_cons_of_neg (by simpa using h2)]
      simp only [List.filter_nil, List.append_nil, ih, Option.some.injEq]
      omega

/-! ### Orchestrator agent -/

/-- The agent's slice lies inside its array. -/
def OrchOk (o : Orch) : Prop := o.addr < o.mem.length ∧ o.len ≤ (o.mem.getD o.addr []).length

theorem orch_add_ok {o : Orch} (h : OrchOk o) (g : Nat) (r : Option HRange) :
    OrchOk (o.add g r) ∧ (o.add g r).list.view (o.add g r).mem = o.list.view o.mem ++ [r] := by
  obtain ⟨h1, h2⟩ := h
  unfold Orch.add OrchOk
  generalize harr : o.mem.getD o.addr [] = arr at *
  simp only
  by_cases hc : o.len < arr.length
  · simp only [if_pos hc, Orch.list, Slice.view]
    have : (o.mem.set o.addr (arr.set o.len r)).getD o.addr [] = arr.set o.len r := by
      simp [List.getD, h1]
    rw [this, harr]
    refine ⟨⟨by simpa using h1, by simp; omega⟩, ?_⟩
    rw [List.take_add_one, List.take_set_of_le (by omega)]
    simp [hc]
  · simp only [if_neg hc, Orch.list, Slice.view]
    have he : o.len = arr.length := by omega
    have : (o.mem ++ [arr.take o.len ++ r :: List.replicate g none]).getD o.mem.length [] =
        arr.take o.len ++ r :: List.replicate g none := by
      simp [List.getD]
    rw [this, harr]
    refine ⟨⟨by simp, by simp [he]⟩, ?_⟩
    have : (List.take o.len arr).length = o.len := by simp [he]
    rw [List.take_append, this, List.take_take]
    simp [he]

theorem findEq_spec (q : HRange) : ∀ (l : List (Option HRange)) (k : Nat), (∀ r ∈ l, r ≠ none) →
    (findEq (some q) l k = some none ∧ some q ∉ l) ∨
    ∃ i, findEq (some q) l k = some (some (k + i)) ∧ i < l.length ∧
      l.erase (some q) = l.take i ++ l.drop (i + 1) := by
  intro l
  induction l with
  | nil => intro k _; left; exact ⟨rfl, by simp⟩
  | cons r rest ih =>
    intro k hk
    cases r with
    | none => exact absurd rfl (hk none (List.mem_cons_self ..))
    | some r =>
      rw [findEq]
      by_cases he : r.start = q.start ∧ r.stop = q.stop
      · right
        have : r = q := by cases r; cases q; simp_all
        subst this
        exact ⟨0, by simp, by simp, by simp⟩
      · simp only [if_neg he]
        have hne : r ≠ q := by rintro rfl; exact he ⟨rfl, rfl⟩
        rcases ih (k + 1) (fun x hx => hk x (List.mem_cons_of_mem _ hx)) with ⟨h1, h2⟩ | ⟨i, h1, h2, h3⟩
        · left
          refine ⟨h1, ?_⟩
          simp only [List.mem_cons, Option.some.injEq, not_or]
          exact ⟨fun h => hne h.symm, h2⟩
        · right
          refine ⟨i + 1, by rw [h1]; congr 2; omega, by simpa using h2, ?_⟩
          rw [List.erase_cons_tail (by simpa using hne), h3]; rfl

theorem orch_remove_ok {o o' : Orch} (h : OrchOk o) {q : Option HRange} (hr : o.remove q = some o')  :
    OrchOk o' ∧ o'.list.view o'.mem = (o.list.view o.mem).erase q := by
  obtain ⟨h1, h2⟩ := h
  unfold Orch.remove at hr
  simp only [Orch.list, Slice.view] at *
  generalize harr : o.mem.getD o.addr [] = arr at *
  have herase : ∀ l : List (Option HRange), ∀ k, findEq q l k = some none → l.erase q = l := by
    intro l
    induction l with
    | nil => intros; rfl
    | cons r rest ih =>
      intro k hf
      cases r with
      | none => simp [findEq] at hf
      | some r =>
        cases q with
        | none => simp [findEq] at hf
        | some q =>
          rw [findEq] at hf
          by_cases he : r.start = q.start ∧ r.stop = q.stop
          · simp [he] at hf
          · simp only [if_neg he] at hf
            have hne : r ≠ q := by rintro rfl; exact he ⟨rfl, rfl⟩
            rw [List.erase_cons_tail (by simpa using hne), ih _ hf]
  have hfound : ∀ l : List (Option HRange), ∀ k j, findEq q l k = some (some j) →
      ∃ i, j = k + i ∧ i < l.length ∧ l.erase q = l.take i ++ l.drop (i + 1) := by
    intro l
    induction l with
    | nil => intro k j hf; simp [findEq] at hf
    | cons r rest ih =>
      intro k j hf
      cases r with
      | none => simp [findEq] at hf
      | some r =>
        cases q with
        | none => simp [findEq] at hf
        | some q =>
          rw [findEq] at hf
          by_cases he : r.start = q.start ∧ r.stop = q.stop
          · simp [he] at hf
            have : r = q := by cases r; cases q; simp_all
            subst this
            exact ⟨0, by simp [hf], by simp, by simp⟩
          · simp only [if_neg he] at hf
            have hne : r ≠ q := by rintro rfl; exact he ⟨rfl, rfl⟩
            obtain ⟨i, e1, e2, e3⟩ := ih _ _ hf
            exact ⟨i + 1, by omega, by simpa using e2,
              by rw [List.erase_cons_tail (by simpa using hne), e3]; rfl⟩
  cases hf : findEq q (arr.take o.len) 0 with
  | none => rw [hf] at hr; cases hr
  | some r =>
    rw [hf] at hr
    cases r with
    | none =>
      cases hr
      exact ⟨⟨h1, by rw [harr]; exact h2⟩, by rw [harr, herase _ _ hf]⟩
    | some j =>
      cases hr
      obtain ⟨i, e1, e2, e3⟩ := hfound _ _ _ hf
      have hi : i < o.len := by simp at e2; omega
      have hj : j = i := by omega
      subst hj
      have hget : (o.mem.set o.addr (arr.take j ++ (arr.take o.len).drop (j + 1) ++
          arr.drop (o.len - 1))).getD o.addr [] =
          arr.take j ++ (arr.take o.len).drop (j + 1) ++ arr.drop (o.len - 1) := by
        simp [List.getD, h1]
      have hlen1 : (arr.take j ++ (arr.take o.len).drop (j + 1)).length = o.len - 1 := by
        simp; omega
      refine ⟨⟨by simpa using h1, ?_⟩, ?_⟩
      · simp only [hget]
        rw [List.length_append, hlen1]; omega
      · simp only [hget]
        rw [List.take_append_of_le_length (by omega), List.take_of_length_le (by omega), e3,
          List.take_take, Nat.min_eq_left (by omega)]

theorem orchRun_ok {o : Orch} {ops : List OrchOp} (h : OrchRun {} ops o) :
    OrchOk o ∧ o.list.view o.mem = rangeList ops := by
  generalize ho : ({} : Orch) = o0 at h
  induction h with
  | nil => subst ho; exact ⟨⟨by decide, by decide⟩, rfl⟩
  | add g r _ ih =>
    obtain ⟨h1, h2⟩ := ih
    obtain ⟨h3, h4⟩ := orch_add_ok h1 g r
    refine ⟨h3, ?_⟩
    rw [h4, h2]
    simp [rangeList, List.foldl_append]
  | remove r _ hr ih =>
    obtain ⟨h1, h2⟩ := ih
    obtain ⟨h3, h4⟩ := orch_remove_ok h1 hr
    refine ⟨h3, ?_⟩
    rw [h4, h2]
    simp [rangeList, List.foldl_append]

end LogCache
