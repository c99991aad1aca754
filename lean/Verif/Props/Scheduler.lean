import Verif.Props.Routing
import Verif.Spec.Scheduler
/-!
# Property theorems about rounds of the scheduler (C155)
-/
namespace LogCache
open Spec

theorem mapM_some (l : List HRange) : (l.map some).mapM id = some l := by
  induction l with
  | nil => rfl
  | cons r l ih => rw [List.map_cons, List.mapM_cons, ih]; rfl

theorem commList_of {o : Orch} {l : List HRange} (h : ListsRanges o l) : commList o = some l := by
  rw [commList, h]; exact mapM_some l

theorem listsRanges_inj {o : Orch} {l l' : List HRange} (h : ListsRanges o l) (h' : ListsRanges o l') : l = l' := by
  have := (commList_of h).symm.trans (commList_of h')
  exact Option.some.inj this

theorem rangeList_some {ops : List OrchOp} (hn : ∀ g, OrchOp.add g none ∉ ops) :
    ∃ l : List HRange, rangeList ops = l.map some := by
  suffices h : ∀ (ops : List OrchOp) (s : List HRange), (∀ g, OrchOp.add g none ∉ ops) →
      ∃ l : List HRange, ops.foldl (fun l op => match op with | .add _ r => l ++ [r] | .remove r => l.erase r)
        (s.map some) = l.map some from h ops [] hn
  intro ops
  induction ops with
  | nil => intro s _; exact ⟨s, rfl⟩
  | cons op ops ih =>
    intro s hn
    have hn' : ∀ g, OrchOp.add g none ∉ ops := fun g hg => hn g (List.mem_cons_of_mem _ hg)
    rw [List.foldl_cons]
    cases op with
    | add g r =>
      cases r with
      | none => exact absurd List.mem_cons_self (hn g)
      | some r =>
        obtain ⟨l, hl⟩ := ih (s ++ [r]) hn'
        exact ⟨l, by simpa using hl⟩
    | remove r =>
      cases r with
      | none =>
        obtain ⟨l, hl⟩ := ih s hn'
        refine ⟨l, ?_⟩
        have : (s.map some).erase none = s.map some := by
          rw [List.erase_of_not_mem]; simp
        simpa [this] using hl
      | some r =>
        obtain ⟨l, hl⟩ := ih (s.erase r) hn'
        refine ⟨l, ?_⟩
        have : (s.map some).erase (some r) = (s.erase r).map some := by
          clear hl ih hn hn'
          induction s with
          | nil => rfl
          | cons x s ihs =>
            by_cases hx : x = r
            · subst hx; simp
            · have h1 : (some x == some r) = false := by simpa using hx
              have h2 : (x == r) = false := by simpa using hx
              rw [List.map_cons, List.erase_cons, List.erase_cons, h1, h2]
              simp only [Bool.false_eq_true, if_false, List.map_cons]
              rw [ihs]
        simpa [this] using hl

/-- An agent that was never sent a nil range. -/
private def GoodAgent (o : Orch) : Prop := ∃ ops, OrchRun {} ops o ∧ ∀ g, OrchOp.add g none ∉ ops

private theorem GoodAgent.lists {o : Orch} (h : GoodAgent o) : ∃ l, ListsRanges o l := by
  obtain ⟨ops, h1, h2⟩ := h
  obtain ⟨l, hl⟩ := rangeList_some h2
  exact ⟨l, (C39_range_list h1).trans hl⟩

private theorem GoodAgent.add {o : Orch} (h : GoodAgent o) (g : Nat) (r : HRange) {l : List HRange}
    (hl : ListsRanges o l) : GoodAgent (o.add g (some r)) ∧ ListsRanges (o.add g (some r)) (l ++ [r]) := by
  obtain ⟨ops, h1, h2⟩ := h
  refine ⟨⟨ops ++ [.add g (some r)], .add g _ h1, fun g' hm => ?_⟩, ?_⟩
  · rcases List.mem_append.1 hm with hm | hm
    · exact h2 g' hm
    · simp at hm
  · have := (orch_add_ok (orchRun_ok h1).1 g (some r)).2
    unfold ListsRanges at *
    rw [this, hl]; simp

private theorem GoodAgent.remove {o : Orch} (h : GoodAgent o) (r : HRange) {l : List HRange}
    (hl : ListsRanges o l) : ∃ o', o.remove (some r) = some o' ∧ GoodAgent o' ∧ ListsRanges o' (l.erase r) := by
  obtain ⟨ops, h1, h2⟩ := h
  obtain ⟨o', ho'⟩ := Option.isSome_iff_exists.1 (C81_no_crash_partial h1 h2 r)
  have h3 : OrchRun {} (ops ++ [.remove (some r)]) o' := .remove _ h1 ho'
  refine ⟨o', ho', ⟨_, h3, fun g' hm => ?_⟩, ?_⟩
  · rcases List.mem_append.1 hm with hm | hm
    · exact h2 g' hm
    · simp at hm
  · have e1 := C39_range_list h1
    have e3 := C39_range_list h3
    unfold ListsRanges at *
    have hstep : rangeList (ops ++ [.remove (some r)]) = (rangeList ops).erase (some r) := by
      rw [rangeList, List.foldl_append]; rfl
    rw [e3, hstep, ← e1, hl]
    clear hstep hl e1 e3
    induction l with
    | nil => rfl
    | cons x s ihs =>
      by_cases hx : x = r
      · subst hx; simp
      · have h1 : (some x == some r) = false := by simpa using hx
        have h2 : (x == r) = false := by simpa using hx
        rw [List.map_cons, List.erase_cons, List.erase_cons, h1, h2]
        simp only [Bool.false_eq_true, if_false, List.map_cons]
        rw [ihs]

/-- What calls leave as it is, and that agents stay good. -/
private structure Same (nodes : List Str) (ns ns' : Str → NodeSide) : Prop where
  table : ∀ a, (ns' a).table = (ns a).table
  agent : ∀ a ∈ nodes, GoodAgent (ns' a).agent

private theorem call_same {nodes : List Str} {ns ns' : Str → NodeSide} (hg : ∀ a ∈ nodes, GoodAgent (ns a).agent)
    {c : TermCall} (h : runCall ns c = some ns') : Same nodes ns ns' := by
  have hsame : Same nodes ns ns := ⟨fun _ => rfl, hg⟩
  cases c with
  | add leads reached grow w r =>
    cases leads with
    | false => cases h; exact hsame
    | true =>
      cases reached with
      | false => cases h; exact hsame
      | true =>
        cases h
        constructor
        · intro a
          simp only [setNode]
          split
          · rename_i e; subst e; rfl
          · rfl
        · intro a ha
          simp only [setNode]
          split
          · rename_i e; subst e
            obtain ⟨l, hl⟩ := (hg a ha).lists
            exact ((hg a ha).add grow r hl).1
          · exact hg a ha
  | remove leads reached w r =>
    cases leads with
    | false => cases h; exact hsame
    | true =>
      cases reached with
      | false => cases h; exact hsame
      | true =>
        simp only [runCall, commRemove, handleAll, agentHandles, Bool.not_true, Bool.false_eq_true, if_false, if_true] at h
        cases hr : (ns w).agent.remove (some r) with
        | none => rw [hr] at h; cases h
        | some o =>
          rw [hr] at h
          cases h
          constructor
          · intro a
            simp only [setNode]
            split
            · rename_i e; subst e; rfl
            · rfl
          · intro a ha
            simp only [setNode]
            split
            · rename_i e; subst e
              obtain ⟨l, hl⟩ := (hg a ha).lists
              obtain ⟨o', ho', hgo, _⟩ := (hg a ha).remove r hl
              rw [hr] at ho'
              cases ho'
              exact hgo
            · exact hg a ha

private theorem calls_same {nodes : List Str} {calls : List TermCall} {ns ns' : Str → NodeSide}
    (hg : ∀ a ∈ nodes, GoodAgent (ns a).agent) (h : runCalls ns calls = some ns') : Same nodes ns ns' := by
  induction calls generalizing ns with
  | nil => cases h; exact ⟨fun _ => rfl, hg⟩
  | cons c cs ih =>
    rw [runCalls] at h
    cases hc : runCall ns c with
    | none => rw [hc] at h; cases h
    | some n1 =>
      rw [hc] at h
      have h1 := call_same hg hc
      have h2 := ih h1.agent h
      exact ⟨fun a => (h2.table a).trans (h1.table a), h2.agent⟩

private theorem call_works {nodes : List Str} {ns : Str → NodeSide} (hg : ∀ a ∈ nodes, GoodAgent (ns a).agent)
    {lists : Str → List HRange} (hl : ∀ a ∈ nodes, ListsRanges (ns a).agent (lists a)) {c : TermCall} (hw : TermCall.works c)
    {ns' : Str → NodeSide} (h : runCall ns c = some ns') :
    ∀ a ∈ nodes, ListsRanges (ns' a).agent (afterCalls lists [c] a) := by
  intro a ha
  cases c with
  | add leads reached grow w r =>
    obtain ⟨rfl, rfl⟩ := hw
    cases h
    simp only [setNode, afterCalls, List.foldl_cons, List.foldl_nil]
    by_cases e : a = w
    · subst e
      rw [if_pos rfl, if_pos rfl]
      exact ((hg a ha).add grow r (hl a ha)).2
    · rw [if_neg e, if_neg e]; exact hl a ha
  | remove leads reached w r =>
    obtain ⟨rfl, rfl⟩ := hw
    simp only [runCall, commRemove, handleAll, agentHandles, Bool.not_true, Bool.false_eq_true, if_false, if_true] at h
    cases hr : (ns w).agent.remove (some r) with
    | none => rw [hr] at h; cases h
    | some o =>
      rw [hr] at h
      cases h
      simp only [setNode, afterCalls, List.foldl_cons, List.foldl_nil]
      by_cases e : a = w
      · subst e
        rw [if_pos rfl, if_pos rfl]
        obtain ⟨o', ho', _, h3⟩ := (hg a ha).remove r (hl a ha)
        rw [hr] at ho'
        cases ho'
        exact h3
      · rw [if_neg e, if_neg e]; exact hl a ha

private theorem calls_work {nodes : List Str} {calls : List TermCall} {ns ns' : Str → NodeSide}
    (hg : ∀ a ∈ nodes, GoodAgent (ns a).agent) {lists : Str → List HRange}
    (hl : ∀ a ∈ nodes, ListsRanges (ns a).agent (lists a)) (hw : ∀ c ∈ calls, TermCall.works c)
    (h : runCalls ns calls = some ns') :
    ∀ a ∈ nodes, ListsRanges (ns' a).agent (afterCalls lists calls a) := by
  induction calls generalizing ns lists with
  | nil => cases h; exact hl
  | cons c cs ih =>
    rw [runCalls] at h
    cases hc : runCall ns c with
    | none => rw [hc] at h; cases h
    | some n1 =>
      rw [hc] at h
      have h1 := call_works hg hl (hw c List.mem_cons_self) hc
      exact ih (call_same hg hc).agent h1 (fun c' h' => hw c' (List.mem_cons_of_mem _ h')) h

private theorem gather_lookup {answers : Str → Bool} {ns : Str → NodeSide} {ws : List Str} {l : List (Str × List HRange)}
    (hn : ws.Nodup) (h : askWorkers answers ns ws = some l) :
    (l.map Prod.fst).Nodup ∧ (∀ p ∈ l, p.1 ∈ ws ∧ answers p.1 = true ∧ commList (ns p.1).agent = some p.2) ∧
    ∀ a ∈ ws, answers a = true → a ∈ l.map Prod.fst := by
  induction ws generalizing l with
  | nil => cases h; exact ⟨List.nodup_nil, fun p hp => absurd hp (by simp), fun a ha => absurd ha (by simp)⟩
  | cons w ws ih =>
    obtain ⟨hw, hn⟩ := List.nodup_cons.1 hn
    rw [askWorkers] at h
    cases ha : answers w with
    | false =>
      rw [ha] at h
      simp only [Bool.false_eq_true, if_false] at h
      obtain ⟨h1, h2, h3⟩ := ih hn h
      refine ⟨h1, fun p hp => ⟨List.mem_cons_of_mem _ (h2 p hp).1, (h2 p hp).2⟩, fun a hm he => ?_⟩
      rcases List.mem_cons.1 hm with rfl | hm
      · rw [ha] at he; cases he
      · exact h3 a hm he
    | true =>
      rw [ha] at h
      simp only [if_true] at h
      cases hc : commList (ns w).agent with
      | none => rw [hc] at h; cases h
      | some r =>
        rw [hc] at h
        simp only at h
        cases hg : askWorkers answers ns ws with
        | none => rw [hg] at h; cases h
        | some l' =>
          rw [hg] at h
          cases h
          obtain ⟨h1, h2, h3⟩ := ih hn hg
          refine ⟨?_, ?_, ?_⟩
          · rw [List.map_cons, List.nodup_cons]
            refine ⟨fun hm => ?_, h1⟩
            obtain ⟨p, hp, e⟩ := List.mem_map.1 hm
            simp only at e
            exact hw (e ▸ (h2 p hp).1)
          · intro p hp
            rcases List.mem_cons.1 hp with rfl | hp
            · exact ⟨List.mem_cons_self, ha, hc⟩
            · exact ⟨List.mem_cons_of_mem _ (h2 p hp).1, (h2 p hp).2⟩
          · intro a hm he
            rcases List.mem_cons.1 hm with rfl | hm
            · simp
            · exact List.mem_cons_of_mem _ (h3 a hm he)

private theorem pushed_table {reached : Str → Bool} {m : List (Str × List HRange)} {ws : List Str} (hn : ws.Nodup)
    {ns ns' : Str → NodeSide} (h : Pushed reached ns (setRemoteTables ws m) ns') :
    (∀ a, (a ∉ ws ∨ reached a = false) → (ns' a).table = (ns a).table) ∧
    (∀ a ∈ ws, reached a = true → SetRanges (ns a).table m (ns' a).table) ∧ ∀ a, (ns' a).agent = (ns a).agent := by
  induction ws generalizing ns with
  | nil => cases h; exact ⟨fun _ _ => rfl, fun _ ha => absurd ha (by simp), fun _ => rfl⟩
  | cons w ws ih =>
    obtain ⟨hw, hn⟩ := List.nodup_cons.1 hn
    rw [setRemoteTables, List.map_cons] at h
    cases h with
    | lost hr h =>
      obtain ⟨h1, h2, h3⟩ := ih hn h
      refine ⟨fun a ha => ?_, fun a ha hre => ?_, h3⟩
      · exact h1 a (ha.imp (fun h hm => h (List.mem_cons_of_mem _ hm)) id)
      · rcases List.mem_cons.1 ha with rfl | ha
        · rw [hr] at hre; cases hre
        · exact h2 a ha hre
    | set hr hs h =>
      obtain ⟨h1, h2, h3⟩ := ih hn h
      refine ⟨fun a ha => ?_, fun a ha hre => ?_, fun a => ?_⟩
      · have hne : a ≠ w := by
          rcases ha with ha | ha
          · intro e; exact ha (e ▸ List.mem_cons_self)
          · intro e; subst e; rw [hr] at ha; cases ha
        rw [h1 a (ha.imp (fun h hm => h (List.mem_cons_of_mem _ hm)) id)]
        simp [setNode, hne]
      · rcases List.mem_cons.1 ha with rfl | ha
        · rw [h1 a (.inl hw)]
          simpa [setNode] using hs
        · have hne : a ≠ w := fun e => hw (e ▸ ha)
          have := h2 a ha hre
          simpa [setNode, hne] using this
      · rw [h3 a]
        simp only [setNode]
        split
        · rename_i e; subst e; rfl
        · rfl

private theorem lookup_of_mem {m : List (Str × List HRange)} (hn : (m.map Prod.fst).Nodup) {a : Str} {l : List HRange} :
    (a, l) ∈ m → m.lookup a = some l := by
  induction m with
  | nil => intro h; simp at h
  | cons p m ih =>
    obtain ⟨k, v⟩ := p
    rw [List.map_cons, List.nodup_cons] at hn
    intro h
    rcases List.mem_cons.1 h with h | h
    · cases h; simp
    · have hne : a ≠ k := fun e => hn.1 (e ▸ List.mem_map.2 ⟨_, h, rfl⟩)
      have : (a == k) = false := by simpa using hne
      rw [List.lookup, this]
      exact ih hn.2 h

private theorem rangesOf_lookup {m : List (Str × List HRange)} (hn : (m.map Prod.fst).Nodup) (a : Str) :
    rangesOf m a = (m.lookup a).getD [] := by
  induction m with
  | nil => rfl
  | cons p m ih =>
    obtain ⟨k, v⟩ := p
    rw [List.map_cons, List.nodup_cons] at hn
    have ih := ih hn.2
    unfold rangesOf at ih ⊢
    by_cases e : a = k
    · subst e
      have h0 : m.filter (fun p => decide (p.1 = a)) = [] := by
        rw [List.filter_eq_nil_iff]
        intro p hp
        simp only [decide_eq_true_eq]
        intro e
        exact hn.1 (e ▸ List.mem_map.2 ⟨p, hp, rfl⟩)
      rw [List.filter_cons_of_pos (by simp), List.flatMap_cons, h0]
      simp
    · have h1 : (a == k) = false := by simpa using e
      rw [List.filter_cons_of_neg (by simpa using fun h => e h.symm), List.lookup, h1]
      exact ih

private theorem lookup_mem {m : List (Str × List HRange)} {a : Str} {l : List HRange} (h : m.lookup a = some l) :
    (a, l) ∈ m := by
  induction m with
  | nil => simp at h
  | cons p m ih =>
    obtain ⟨k, v⟩ := p
    rw [List.lookup] at h
    by_cases e : a = k
    · subst e
      simp at h
      subst h
      exact List.mem_cons_self
    · have h1 : (a == k) = false := by simpa using e
      rw [h1] at h
      exact List.mem_cons_of_mem _ (ih h)

/-- The tables of a round. -/
private theorem round_tables {nodes : List Str} (hn : nodes.Nodup) {hash : Str → Nat} {ans1 ans2 reached : Str → Bool}
    {calls1 calls2 : List TermCall} {ns ns1 ns' : Str → NodeSide} (h0 : AnyState nodes hash ns)
    (h : SchedRound nodes ans1 ans2 calls1 calls2 true reached ns ns1 ns') :
    ∃ m : List (Str × List HRange), (∀ p ∈ m, p.1 ∈ nodes) ∧
      (∀ a ∈ nodes, ∀ l, ListsRanges (ns1 a).agent l → rangesOf m a = if ans2 a then l else []) ∧
      (m.map Prod.fst).Nodup ∧
      (∀ c ∈ nodes, reached c = true → ∃ reqs, TableRun (newRTable nodes hash) (reqs ++ [m]) (ns' c).table) ∧
      ∀ c, reached c = false → (ns' c).table = (ns c).table := by
  obtain ⟨seen1, seen2, ns2, t1, t2, hp⟩ := h.steps
  have hg0 : ∀ a ∈ nodes, GoodAgent (ns a).agent := fun a ha => (h0 a ha).1
  have s1 := calls_same hg0 t1.called
  have s2 := calls_same s1.agent t2.called
  obtain ⟨l, hl, hperm⟩ := t2.gathered
  obtain ⟨g1, g2, g3⟩ := gather_lookup hn hl
  obtain ⟨w1, w2⟩ := C84_worker_state seen2
  have hsn : (seen2.map Prod.fst).Nodup := (hperm.map Prod.fst).nodup_iff.2 g1
  have hrn : (seen2.reverse.map Prod.fst).Nodup := by
    exact ((List.reverse_perm seen2).map Prod.fst).nodup_iff.2 hsn
  rw [pushTables, if_pos rfl] at hp
  obtain ⟨p1, p2, _⟩ := pushed_table hn hp
  refine ⟨convertWorkerState seen2, ?_, ?_, w1, ?_, ?_⟩
  · intro p hpm
    have e := lookup_of_mem w1 (a := p.1) (l := p.2) hpm
    rw [w2] at e
    have hm := lookup_mem e
    exact (g2 _ (hperm.mem_iff.1 (List.mem_reverse.1 hm))).1
  · intro a ha lst hlst
    rw [rangesOf_lookup w1, w2]
    cases hA : ans2 a with
    | true =>
      simp only [if_true]
      obtain ⟨p, hpm, rfl⟩ := List.mem_map.1 (g3 a ha hA)
      have e2 := (g2 p hpm).2.2
      rw [commList_of hlst] at e2
      have : (p.1, lst) ∈ seen2.reverse := by
        rw [List.mem_reverse, hperm.mem_iff]
        cases e2
        exact hpm
      rw [lookup_of_mem hrn this]; rfl
    | false =>
      simp only [Bool.false_eq_true, if_false]
      cases e : seen2.reverse.lookup a with
      | none => rfl
      | some x =>
        have hm := lookup_mem e
        have := (g2 _ (hperm.mem_iff.1 (List.mem_reverse.1 hm))).2.1
        simp only at this
        rw [hA] at this; cases this
  · intro c hc hr
    obtain ⟨reqs, hreqs⟩ := (h0 c hc).2
    refine ⟨reqs, .snoc hreqs ?_⟩
    have := p2 c hc hr
    rwa [s2.table c, s1.table c] at this
  · intro c hr
    rw [p1 c (.inr hr), s2.table c, s1.table c]

/-- Whatever state the nodes are in, and whatever the orchestrator makes of it: after a round of
the leader every node that was reached looks up an id at exactly the nodes that answered the
second time they were asked, once for each range they said they had that has the id's hash; and a
node that was not reached has the table it had. -/
theorem C155_tables {nodes : List Str} (hn : nodes.Nodup) {hash : Str → Nat} {ans1 ans2 reached : Str → Bool}
    {calls1 calls2 : List TermCall} {ns ns1 ns' : Str → NodeSide} (h0 : AnyState nodes hash ns)
    (h : SchedRound nodes ans1 ans2 calls1 calls2 true reached ns ns1 ns') (id : Str) :
    (∀ c ∈ nodes, reached c = true →
      (∀ i a l, nodes[i]? = some a → ListsRanges (ns1 a).agent l →
        ((ns' c).table.lookup id).count i = if ans2 a then (l.filter (covers (hash id))).length else 0) ∧
      (∀ i ∈ (ns' c).table.lookup id, i < nodes.length) ∧
      ∀ c' ∈ nodes, reached c' = true → (ns' c').table.lookup id = (ns' c).table.lookup id) ∧
    ∀ c, reached c = false → (ns' c).table = (ns c).table := by
  obtain ⟨m, hm1, hm2, hm3, hm4, hm5⟩ := round_tables hn h0 h
  refine ⟨fun c hc hr => ?_, hm5⟩
  obtain ⟨reqs, hreqs⟩ := hm4 c hc hr
  obtain ⟨e1, e2⟩ := C27_lookup_exact hn hreqs hm1 id
  refine ⟨fun i a l hi hl => ?_, e2, fun c' hc' hr' => ?_⟩
  · rw [e1 i a hi, hm2 a (List.mem_of_getElem? hi) l hl]
    split <;> simp
  · obtain ⟨reqs', hreqs'⟩ := hm4 c' hc' hr'
    exact C28_last_request hreqs' hreqs (List.Perm.refl _) id

private theorem rangesOf_flat {m : List (Str × List HRange)} (hm : (m.map Prod.fst).Nodup) {nodes : List Str}
    (hn : nodes.Nodup) (hk : ∀ p ∈ m, p.1 ∈ nodes) (r : HRange) :
    (m.flatMap Prod.snd).count r = (nodes.flatMap (rangesOf m)).count r := by
  induction m with
  | nil =>
    have : nodes.flatMap (rangesOf []) = [] := by
      rw [List.flatMap_eq_nil_iff]; intro a _; rfl
    rw [this]; rfl
  | cons p m ih =>
    obtain ⟨k, v⟩ := p
    rw [List.map_cons, List.nodup_cons] at hm
    rw [List.flatMap_cons, List.count_append, ih hm.2 (fun p hp => hk p (List.mem_cons_of_mem _ hp))]
    have hkn : k ∈ nodes := hk (k, v) List.mem_cons_self
    have e1 : ∀ a, (rangesOf ((k, v) :: m) a).count r = (if a = k then v.count r else 0) + (rangesOf m a).count r := by
      intro a
      unfold rangesOf
      by_cases h : a = k
      · subst h
        rw [List.filter_cons_of_pos (by simp), List.flatMap_cons, List.count_append]
        simp
      · rw [List.filter_cons_of_neg (by simpa using fun h' => h h'.symm)]
        simp [h]
    have e2 : ∀ l : List Str, l.Nodup → (l.flatMap (rangesOf ((k, v) :: m))).count r =
        (if k ∈ l then v.count r else 0) + (l.flatMap (rangesOf m)).count r := by
      intro l
      induction l with
      | nil => intro _; simp
      | cons a l ihl =>
        intro hl
        obtain ⟨h1, h2⟩ := List.nodup_cons.1 hl
        rw [List.flatMap_cons, List.flatMap_cons, List.count_append, List.count_append, e1, ihl h2]
        by_cases h : a = k
        · subst h
          simp only [List.mem_cons, true_or, if_true, h1, if_false]
          omega
        · have : (k ∈ a :: l) = (k ∈ l) := by
            have hka : k ≠ a := fun h' => h h'.symm
            simp [hka]
          simp only [this]
          rw [if_neg h]
          omega
    rw [e2 nodes hn, if_pos hkn]

/-- If the orchestrator does its work (its calls in the first term, on what the nodes say, put
every range on `k` nodes) and all requests get through, then after one round all nodes agree, and
every id belongs to exactly `k` different nodes: those that have a range with its hash. So it is
whatever happened before, such as crashes of nodes, which lose their ranges and tables.  Missing
for "after every round": see `C155_absent_false` and `C155_unreached_false`. -/
theorem C155_owners_partial {nodes : List Str} (hn : nodes.Nodup) {hash : Str → Nat}
    {calls1 calls2 : List TermCall} {ns ns1 ns' : Str → NodeSide} (h0 : AnyState nodes hash ns)
    (h : SchedRound nodes (fun _ => true) (fun _ => true) calls1 calls2 true (fun _ => true) ns ns1 ns')
    {count : Int} (h1 : 1 ≤ count) (h2 : count ≤ 2 ^ 32) {rs : List HRange} (hrs : schedRanges count = some rs) {k : Nat}
    {lists : Str → List HRange} (hl : ∀ a ∈ nodes, ListsRanges (ns a).agent (lists a))
    (hw : ∀ c ∈ calls1, TermCall.works c) (hplaced : Placed rs k nodes (afterCalls lists calls1))
    (id : Str) (hid : hash id ≤ maxHash) :
    ∃ owners : List Nat, owners.length = k ∧ owners.Nodup ∧
      (∀ i a, nodes[i]? = some a →
        (i ∈ owners ↔ ∃ r ∈ afterCalls lists calls1 a, covers (hash id) r = true)) ∧
      ∀ c ∈ nodes, (ns' c).table.lookup id = owners := by
  obtain ⟨m, hm1, hm2, hm3, hm4, _⟩ := round_tables hn h0 h
  obtain ⟨seen1, seen2, ns2, t1, t2, hp⟩ := h.steps
  have hg0 : ∀ a ∈ nodes, GoodAgent (ns a).agent := fun a ha => (h0 a ha).1
  have hafter := calls_work hg0 hl hw t1.called
  have hrof : ∀ a ∈ nodes, rangesOf m a = afterCalls lists calls1 a := by
    intro a ha
    simpa using hm2 a ha _ (hafter a ha)
  have hsched : ∀ r, (m.flatMap Prod.snd).count r = if r ∈ rs then k else 0 := by
    intro r
    rw [rangesOf_flat hm3 hn hm1, ← hplaced.1 r]
    have : nodes.flatMap (rangesOf m) = nodes.flatMap (afterCalls lists calls1) := by
      rw [List.flatMap_def, List.flatMap_def, List.map_congr_left hrof]
    rw [this]
  have hdist : ∀ a, (rangesOf m a).Nodup := by
    intro a
    by_cases ha : a ∈ nodes
    · rw [hrof a ha]; exact hplaced.2 a ha
    · rw [rangesOf_lookup hm3]
      cases e : m.lookup a with
      | none => exact List.nodup_nil
      | some x => exact absurd (hm1 _ (lookup_mem e)) ha
  cases nodes with
  | nil =>
    -- no nodes: no range is placed, so `k = 0`
    obtain ⟨rs', e, hlen, _, _⟩ := C30_partition h1 h2
    rw [hrs] at e; cases e
    have hk0 : k = 0 := by
      cases rs with
      | nil => simp at hlen; omega
      | cons r rs =>
        have := hplaced.1 r
        simp at this
        exact this.symm
    subst hk0
    exact ⟨[], rfl, List.nodup_nil, fun i a hi => by simp at hi, fun c hc => by simp at hc⟩
  | cons c0 rest =>
    obtain ⟨reqs, hreqs⟩ := hm4 c0 List.mem_cons_self rfl
    obtain ⟨o1, o2⟩ := C42_owners hn hreqs hm1 h1 h2 hrs hsched hdist id hid
    refine ⟨_, o1, o2, fun i a hi => ?_, fun c hc => ?_⟩
    · have e := (C27_lookup_exact hn hreqs hm1 id).1 i a hi
      rw [hrof a (List.mem_of_getElem? hi)] at e
      rw [← List.count_pos_iff, e, List.length_pos_iff_exists_mem]
      simp only [List.mem_filter]
    · obtain ⟨reqs', hreqs'⟩ := hm4 c hc rfl
      exact C28_last_request hreqs' hreqs (List.Perm.refl _) id

/-- A scheduler that is not the leader changes nothing. -/
theorem C155_follower {nodes : List Str} {ans1 ans2 reached : Str → Bool}
    {calls1 calls2 : List TermCall} {ns ns1 ns' : Str → NodeSide}
    (h : SchedRound nodes ans1 ans2 calls1 calls2 false reached ns ns1 ns')
    (hi : ∀ c ∈ calls1 ++ calls2, TermCall.idle c) : ns' = ns := by
  obtain ⟨seen1, seen2, ns2, t1, t2, hp⟩ := h.steps
  have hcalls : ∀ (calls : List TermCall) (a b : Str → NodeSide), (∀ c ∈ calls, TermCall.idle c) →
      runCalls a calls = some b → b = a := by
    intro calls
    induction calls with
    | nil => intro a b _ h; cases h; rfl
    | cons c cs ih =>
      intro a b hi h
      have : runCall a c = some a := by
        have := hi c List.mem_cons_self
        cases c with
        | add leads reached grow w r => cases this; rfl
        | remove leads reached w r => cases this; rfl
      rw [runCalls, this] at h
      exact ih a b (fun c' h' => hi c' (List.mem_cons_of_mem _ h')) h
  have e1 := hcalls calls1 ns ns1 (fun c hc => hi c (List.mem_append_left _ hc)) t1.called
  have e2 := hcalls calls2 ns1 ns2 (fun c hc => hi c (List.mem_append_right _ hc)) t2.called
  rw [pushTables] at hp
  simp only [Bool.false_eq_true, if_false] at hp
  cases hp
  rw [e2, e1]

/-- The state of the nodes stays one the theorems are about: after every round, and when a node
crashes and starts again, without ranges and without a table. -/
theorem C155_any_state {nodes : List Str} (hn : nodes.Nodup) {hash : Str → Nat} {ns : Str → NodeSide}
    (h0 : AnyState nodes hash ns) :
    (∀ {ans1 ans2 reached : Str → Bool} {calls1 calls2 : List TermCall} {leads : Bool} {ns1 ns' : Str → NodeSide},
      SchedRound nodes ans1 ans2 calls1 calls2 leads reached ns ns1 ns' → AnyState nodes hash ns') ∧
    ∀ a, AnyState nodes hash (setNode ns a ⟨{}, newRTable nodes hash⟩) := by
  constructor
  · intro ans1 ans2 reached calls1 calls2 leads ns1 ns' h
    have h' := h
    obtain ⟨seen1, seen2, ns2, t1, t2, hp⟩ := h.steps
    have hg0 : ∀ a ∈ nodes, GoodAgent (ns a).agent := fun a ha => (h0 a ha).1
    have s1 := calls_same hg0 t1.called
    have s2 := calls_same s1.agent t2.called
    cases leads with
    | false =>
      rw [pushTables] at hp
      simp only [Bool.false_eq_true, if_false] at hp
      cases hp
      exact fun a ha => ⟨s2.agent a ha, by rw [s2.table a, s1.table a]; exact (h0 a ha).2⟩
    | true =>
      obtain ⟨m, _, _, _, hm4, hm5⟩ := round_tables hn h0 h'
      rw [pushTables, if_pos rfl] at hp
      obtain ⟨_, _, p3⟩ := pushed_table hn hp
      intro a ha
      refine ⟨by rw [p3 a]; exact s2.agent a ha, ?_⟩
      cases hr : reached a with
      | true =>
        obtain ⟨reqs, hreqs⟩ := hm4 a ha hr
        exact ⟨_, hreqs⟩
      | false => rw [hm5 a hr]; exact (h0 a ha).2
  · intro a b hb
    simp only [setNode]
    by_cases e : b = a
    · rw [if_pos e]; exact ⟨⟨[], .nil _, by simp⟩, ⟨[], .nil _⟩⟩
    · rw [if_neg e]; exact h0 b hb

/-! ## Examples and counterexamples -/

/-- Two nodes that have just started. -/
def twoFresh (hash : Str → Nat) : Str → NodeSide :=
  fun _ => ⟨{}, newRTable ["a".toList, "b".toList] hash⟩

theorem twoFresh_any (hash : Str → Nat) : AnyState ["a".toList, "b".toList] hash (twoFresh hash) :=
  fun _ _ => ⟨⟨[], .nil _, by simp⟩, ⟨[], .nil _⟩⟩

/-- The lower half of the hashes. -/
def lowHalf : HRange := ⟨0, 2 ^ 63 - 1⟩
/-- The upper half of the hashes. -/
def highHalf : HRange := ⟨2 ^ 63, 2 ^ 64 - 1⟩

/-- The lower half to one node, the upper half to the other. -/
def splitCalls : List TermCall :=
  [.add true true 0 "a".toList lowHalf, .add true true 3 "b".toList highHalf]

theorem pushed_exists (reached : Str → Bool) (ws : List Str) (m : List (Str × List HRange)) (ns : Str → NodeSide) :
    ∃ ns', Pushed reached ns (setRemoteTables ws m) ns' := by
  induction ws generalizing ns with
  | nil => exact ⟨ns, .nil _⟩
  | cons w ws ih =>
    cases hr : reached w with
    | false =>
      obtain ⟨ns', h⟩ := ih ns
      exact ⟨ns', .lost hr h⟩
    | true =>
      obtain ⟨t, ht⟩ := setRanges_exists (ns w).table m
      obtain ⟨ns', h⟩ := ih (setNode ns w { ns w with table := t })
      exact ⟨ns', .set hr ht h⟩

/-- The two nodes after the calls. -/
def twoSplit (hash : Str → Nat) : Str → NodeSide :=
  setNode (setNode (twoFresh hash) "a".toList { twoFresh hash "a".toList with agent := ({} : Orch).add 0 (some lowHalf) })
    "b".toList { twoFresh hash "b".toList with agent := ({} : Orch).add 3 (some highHalf) }

theorem twoSplit_a (hash : Str → Nat) : ListsRanges (twoSplit hash "a".toList).agent [lowHalf] := by
  have : (twoSplit hash "a".toList).agent = ({} : Orch).add 0 (some lowHalf) := rfl
  rw [ListsRanges, this]; decide

theorem twoSplit_b (hash : Str → Nat) : ListsRanges (twoSplit hash "b".toList).agent [highHalf] := by
  have : (twoSplit hash "b".toList).agent = ({} : Orch).add 3 (some highHalf) := rfl
  rw [ListsRanges, this]; decide

theorem splitRound (hash : Str → Nat) (ans2 reached : Str → Bool) :
    ∃ ns', SchedRound ["a".toList, "b".toList] (fun _ => true) ans2 splitCalls [] true reached
      (twoFresh hash) (twoSplit hash) ns' := by
  have hg : ∃ l, askWorkers ans2 (twoSplit hash) ["a".toList, "b".toList] = some l := by
    have ca := commList_of (twoSplit_a hash)
    have cb := commList_of (twoSplit_b hash)
    rw [askWorkers, askWorkers, askWorkers, ca, cb]
    cases ans2 "a".toList <;> cases ans2 "b".toList <;> exact ⟨_, rfl⟩
  obtain ⟨l, hl⟩ := hg
  obtain ⟨ns', h⟩ := pushed_exists reached ["a".toList, "b".toList] (convertWorkerState l) (twoSplit hash)
  refine ⟨ns', ⟨_, l, twoSplit hash, ⟨⟨_, rfl, List.Perm.refl _⟩, rfl⟩, ⟨⟨l, hl, List.Perm.refl _⟩, rfl⟩, ?_⟩⟩
  rw [pushTables, if_pos rfl]
  exact h

/-- Two fresh nodes, of which the orchestrator gives each one half: the case of
`C155_owners_partial`. -/
example (hash : Str → Nat) : ∃ ns',
    AnyState ["a".toList, "b".toList] hash (twoFresh hash) ∧
    SchedRound ["a".toList, "b".toList] (fun _ => true) (fun _ => true) splitCalls [] true (fun _ => true)
      (twoFresh hash) (twoSplit hash) ns' ∧
    schedRanges 2 = some [lowHalf, highHalf] ∧
    (∀ a ∈ ["a".toList, "b".toList], ListsRanges (twoFresh hash a).agent ((fun _ => []) a)) ∧
    (∀ c ∈ splitCalls, TermCall.works c) ∧
    Placed [lowHalf, highHalf] 1 ["a".toList, "b".toList] (afterCalls (fun _ => []) splitCalls) := by
  obtain ⟨ns', h⟩ := splitRound hash (fun _ => true) (fun _ => true)
  refine ⟨ns', twoFresh_any hash, h, by decide, fun a _ => rfl, ?_, ?_, ?_⟩
  · intro c hc
    simp only [splitCalls, List.mem_cons, List.not_mem_nil, or_false] at hc
    rcases hc with rfl | rfl <;> exact ⟨rfl, rfl⟩
  · intro r
    have : ["a".toList, "b".toList].flatMap (afterCalls (fun _ => []) splitCalls) = [lowHalf, highHalf] := by decide
    rw [this]
    by_cases h1 : r = lowHalf
    · subst h1; decide
    · by_cases h2 : r = highHalf
      · subst h2; decide
      · have : r ∉ [lowHalf, highHalf] := by simp [h1, h2]
        rw [if_neg this, List.count_eq_zero.2 this]
  · intro a ha
    simp only [List.mem_cons, List.not_mem_nil, or_false] at ha
    rcases ha with rfl | rfl <;> decide

/-- A round of a scheduler that is not the leader. -/
example (hash : Str → Nat) : ∃ ns', SchedRound ["a".toList, "b".toList] (fun _ => true) (fun _ => true)
    [.add false true 0 "a".toList lowHalf] [] false (fun _ => true) (twoFresh hash) (twoFresh hash) ns' ∧
    ∀ c ∈ [TermCall.add false true 0 "a".toList lowHalf] ++ [], TermCall.idle c :=
  ⟨_, ⟨_, _, _, ⟨⟨_, rfl, List.Perm.refl _⟩, rfl⟩, ⟨⟨_, rfl, List.Perm.refl _⟩, rfl⟩, .nil _⟩, by
    intro c hc
    simp only [List.append_nil, List.mem_singleton] at hc
    subst hc
    rfl⟩

/-- A node that does not answer the second time it is asked is in no table, although it has its
ranges, is reached right after, and has the only copy: its ids belong to nobody until the next
round, everywhere. -/
theorem C155_absent_false : ∃ (hash : Str → Nat) (ns ns1 ns' : Str → NodeSide),
    AnyState ["a".toList, "b".toList] hash ns ∧
    SchedRound ["a".toList, "b".toList] (fun _ => true) (fun w => decide (w ≠ "b".toList)) splitCalls [] true
      (fun _ => true) ns ns1 ns' ∧
    ListsRanges (ns1 "b".toList).agent [highHalf] ∧
    ∀ id, covers (hash id) highHalf = true ∧ ∀ c ∈ ["a".toList, "b".toList], (ns' c).table.lookup id = [] := by
  obtain ⟨ns', h⟩ := splitRound (fun _ => 2 ^ 63) (fun w => decide (w ≠ "b".toList)) (fun _ => true)
  refine ⟨fun _ => 2 ^ 63, _, _, ns', twoFresh_any _, h, twoSplit_b _, fun id => ⟨rfl, fun c hc => ?_⟩⟩
  obtain ⟨e1, e2, _⟩ := (C155_tables (by decide) (twoFresh_any _) h id).1 c hc rfl
  have ha := e1 0 "a".toList [lowHalf] rfl (twoSplit_a _)
  have hb := e1 1 "b".toList [highHalf] rfl (twoSplit_b _)
  rw [List.eq_nil_iff_forall_not_mem]
  intro i hi
  have hlt := e2 i hi
  have hpos := List.count_pos_iff.2 hi
  simp only [List.length_cons, List.length_nil] at hlt
  have : i = 0 ∨ i = 1 := by omega
  rcases this with rfl | rfl
  · rw [ha] at hpos; revert hpos; decide
  · rw [hb] at hpos; revert hpos; decide

/-- A node that is not reached with the new table keeps the one it had: here none, so that what is
sent to it has no owner, while the other node knows one. -/
theorem C155_unreached_false : ∃ (hash : Str → Nat) (ns ns1 ns' : Str → NodeSide),
    AnyState ["a".toList, "b".toList] hash ns ∧
    SchedRound ["a".toList, "b".toList] (fun _ => true) (fun _ => true) splitCalls [] true
      (fun w => decide (w ≠ "b".toList)) ns ns1 ns' ∧
    ∀ id, (ns' "a".toList).table.lookup id = [0] ∧ (ns' "b".toList).table.lookup id = [] := by
  obtain ⟨ns', h⟩ := splitRound (fun _ => 0) (fun _ => true) (fun w => decide (w ≠ "b".toList))
  refine ⟨fun _ => 0, _, _, ns', twoFresh_any _, h, fun id => ⟨?_, ?_⟩⟩
  · obtain ⟨e1, e2, _⟩ := (C155_tables (by decide) (twoFresh_any _) h id).1 "a".toList (by simp) (by decide)
    have ha := e1 0 "a".toList [lowHalf] rfl (twoSplit_a _)
    have hb := e1 1 "b".toList [highHalf] rfl (twoSplit_b _)
    have ha' : ((ns' "a".toList).table.lookup id).count 0 = 1 := by rw [ha]; decide
    have hb' : ((ns' "a".toList).table.lookup id).count 1 = 0 := by rw [hb]; decide
    have hall : ∀ i ∈ (ns' "a".toList).table.lookup id, i = 0 := by
      intro i hi
      have hlt := e2 i hi
      simp only [List.length_cons, List.length_nil] at hlt
      have h1 : i ≠ 1 := fun e => by
        subst e
        exact absurd (List.count_pos_iff.2 hi) (by omega)
      omega
    generalize (ns' "a".toList).table.lookup id = l at ha' hall
    match l, ha', hall with
    | [], ha', _ => simp at ha'
    | [x], _, hall => rw [hall x List.mem_cons_self]
    | x :: y :: l, ha', hall =>
      rw [hall x (by simp), hall y (by simp)] at ha'
      simp at ha'
  · rw [(C155_tables (by decide) (twoFresh_any _) h id).2 "b".toList (by decide)]
    rfl

end LogCache
