import Verif.Proof.Cluster
import Verif.Proof.Routing
import Verif.Props.Reader
/-!
# Property theorems about the proxies and the cluster (C32-C38, C82, C83)
-/
namespace LogCache
open Spec

/-! ## Ingress -/

/-- A proxied Send succeeds and hands every node exactly the envelopes whose
lookup contains it, once per occurrence, in request order, in one local-only
request per node, whatever errors the nodes return. -/
theorem C32_delivery {lookup : Str → List Nat} {n l : Nat} {ok : Nat → Bool} {batch : List Envelope}
    {res : Option SendResult}
    (h : IngressSend lookup n l ok { envelopes := some batch } res)
    (hr : ∀ e ∈ batch, ∀ i ∈ lookup e.sourceId, i < n) :
    ∃ sends, res = some ⟨sends, true⟩ ∧ (sends.map Prod.fst).Nodup ∧
      (∀ s ∈ sends, s.2.localOnly = true) ∧
      ∀ i, sentTo sends i =
        batch.flatMap (fun e => List.replicate ((lookup e.sourceId).count i) e) := by
  have hsome : ∃ r, res = some r := by
    cases h with
    | localOnly h => cases h
    | nilBatch _ hn => cases hn
    | proxied _ b hb it hit =>
      cases hb
      have : it.all (fun p => decide (p.1 < n)) = true := by
        rw [List.all_eq_true]
        intro p hp
        have hm : p.1 ∈ (groupByNode lookup batch).map Prod.fst :=
          List.mem_map.2 ⟨p, hit.mem_iff.1 hp, rfl⟩
        obtain ⟨e, he, hi⟩ := (groupByNode_spec lookup batch).2.1 p.1 |>.1 hm
        simpa using hr e he p.1 hi
      rw [if_pos this]; exact ⟨_, rfl⟩
  obtain ⟨r, rfl⟩ := hsome
  obtain ⟨h1, h2, h3, h4⟩ := ingress_proxied rfl rfl h
  refine ⟨r.sends, by rw [← h1], h2, fun s hs => (h3 s hs).1, h4⟩

/-- In particular an envelope without owner reaches no node, and a node that owns
nothing is not contacted. -/
theorem C32_no_owner {lookup : Str → List Nat} {n l : Nat} {ok : Nat → Bool} {batch : List Envelope}
    {sends : List (Nat × SendRequest)} {b : Bool}
    (h : IngressSend lookup n l ok { envelopes := some batch } (some ⟨sends, b⟩)) :
    (∀ e ∈ batch, lookup e.sourceId = [] → ∀ i, e ∉ sentTo sends i) ∧
    ∀ i, (∀ e ∈ batch, i ∉ lookup e.sourceId) → i ∉ sends.map Prod.fst := by
  obtain ⟨-, -, -, h4⟩ := ingress_proxied rfl rfl h
  constructor
  · intro e he hl i hm
    rw [h4] at hm
    obtain ⟨x, hx, hxe⟩ := List.mem_flatMap.1 hm
    obtain ⟨hc, rfl⟩ := List.mem_replicate.1 hxe
    rw [hl] at hc; simp at hc
  · intro i hi hm
    generalize hres : (some (SendResult.mk sends b)) = r at h
    cases h with
    | localOnly h => cases h
    | nilBatch => cases hres
    | proxied _ b' hb it hit =>
      cases hb
      split at hres
      · cases hres
        rw [List.map_map] at hm
        have hm2 : i ∈ it.map Prod.fst := hm
        have hm3 : i ∈ (groupByNode lookup batch).map Prod.fst := (hit.map Prod.fst).mem_iff.1 hm2
        obtain ⟨e, he, hie⟩ := (groupByNode_spec lookup batch).2.1 i |>.1 hm3
        exact hi e he hie
      · cases hres

/-- Three envelopes, two nodes, a replicated source and one without owner. -/
example :
    let lookup : Str → List Nat := fun s => if s = ['r'] then [0, 1] else if s = ['x'] then [] else [1]
    let batch : List Envelope :=
      [{ timestamp := 1, sourceId := ['r'] }, { timestamp := 2, sourceId := ['x'] },
       { timestamp := 3, sourceId := ['o'] }]
    (∀ e ∈ batch, ∀ i ∈ lookup e.sourceId, i < 2) ∧
    IngressSend lookup 2 0 (fun _ => false) { envelopes := some batch }
      (some ⟨[(1, { envelopes := some [{ timestamp := 1, sourceId := ['r'] },
                    { timestamp := 3, sourceId := ['o'] }], localOnly := true }),
              (0, { envelopes := some [{ timestamp := 1, sourceId := ['r'] }], localOnly := true })],
             true⟩) := by
  intro lookup batch
  refine ⟨by decide, ?_⟩
  exact IngressSend.proxied _ rfl batch rfl
    [(1, [{ timestamp := 1, sourceId := ['r'] }, { timestamp := 3, sourceId := ['o'] }]),
     (0, [{ timestamp := 1, sourceId := ['r'] }])] (by decide)

/-- A local-only Send goes unchanged to the local client and nowhere else, and
every request a batched client sends is local-only. -/
theorem C33_local_only {lookup : Str → List Nat} {n l : Nat} {ok : Nat → Bool} {req : SendRequest}
    {res : Option SendResult} (hl : req.localOnly = true) (hn : l < n)
    (h : IngressSend lookup n l ok req res) :
    res = some ⟨[(l, req)], ok l⟩ ∧ ∀ batch, (batchedWrite batch).localOnly = true := by
  refine ⟨?_, fun _ => rfl⟩
  cases h with
  | localOnly => rw [if_pos hn]
  | nilBatch h => rw [hl] at h; cases h
  | proxied h => rw [hl] at h; cases h

/-- In any cluster, whatever tables the nodes hold, a batch arriving from another
node is put in full into the receiving node's store and is not forwarded: no
queue grows. -/
theorem C33_forward_once {c c' : Cluster} {j i : Nat} {batch : List Envelope}
    (h : CStep c (.deliver j i batch) c') :
    (∃ rest, c.queue j i = batch ++ rest ∧
      ∀ a b, c'.queue a b = if a = j ∧ b = i then rest else c.queue a b) ∧
    PutAll (c.store i) (batch.map (fun e => (e.sourceId, e))) (c'.store i) ∧
    ∀ k, k ≠ i → c'.store k = c.store k := by
  cases h with
  | @deliver _ _ _ _ rest hi hj hij hq hh =>
    obtain ⟨res, st', e1, e2, e3, e4, e5, e6, e7, e8⟩ := handle_spec hh
    have e7 := e7 rfl
    simp only [batchedWrite, Option.getD_some] at e7
    refine ⟨⟨rest, hq, ?_⟩, ?_, ?_⟩
    · intro a b
      rw [e6]
      by_cases hab : a = i ∧ b ≠ i
      · rw [if_pos hab, e7, if_neg hab.2, List.append_nil]
      · rw [if_neg hab]
    · rw [e7 i, if_pos rfl] at e5
      rw [e3]; exact e5
    · exact e4

/-- A Send without a batch that is not local-only crashes the node. -/
theorem C82_empty_send_false (lookup : Str → List Nat) (n l : Nat) (ok : Nat → Bool) :
    IngressSend lookup n l ok { envelopes := none } none ∧
    ∀ res, IngressSend lookup n l ok { envelopes := none } res → res = none := by
  refine ⟨.nilBatch _ rfl rfl, ?_⟩
  intro res h
  cases h with
  | localOnly h => cases h
  | nilBatch => rfl
  | proxied _ _ hb => cases hb

/-- Every other Send is handled without a crash if lookups are in range. -/
theorem C82_no_crash_partial {lookup : Str → List Nat} {n l : Nat} {ok : Nat → Bool} {req : SendRequest}
    (hn : l < n) (hreq : req.localOnly = true ∨ req.envelopes ≠ none)
    (hr : ∀ s, ∀ i ∈ lookup s, i < n) {res : Option SendResult}
    (h : IngressSend lookup n l ok req res) : res.isSome := by
  cases hl : req.localOnly with
  | true => rw [(C33_local_only hl hn h).1]; rfl
  | false =>
    rcases hreq with hreq | hreq
    · rw [hl] at hreq; cases hreq
    · obtain ⟨batch, hb⟩ := Option.ne_none_iff_exists'.1 hreq
      have : req = { envelopes := some batch } := by cases req; simp_all
      subst this
      obtain ⟨sends, hs, _⟩ := C32_delivery h (fun e _ i hi => hr _ i hi)
      rw [hs]; rfl

/-! ## Client setup -/

theorem setup_spec (m : Nat) (dialOk : Nat → Bool) : ∀ (k i : Nat), (∀ j, i ≤ j → j < i + k → j ≠ m → dialOk j = true) →
    (setupClients m dialOk k i).1 = List.range' i k ∧
    (setupClients m dialOk k i).2 = if i ≤ m ∧ m < i + k then m else 0 := by
  intro k
  induction k with
  | zero =>
    intro i _
    refine ⟨rfl, ?_⟩
    rw [if_neg (by omega)]; rfl
  | succ k ih =>
    intro i hd
    obtain ⟨h1, h2⟩ := ih (i + 1) (fun j hj hlt hne => hd j (by omega) (by omega) hne)
    rw [setupClients]
    rcases hs : setupClients m dialOk k (i + 1) with ⟨cs, li⟩
    rw [hs] at h1 h2
    simp only at h1 h2 ⊢
    by_cases hi : i = m
    · subst hi
      simp only [ne_eq, not_true, if_false]
      refine ⟨by rw [h1]; rfl, ?_⟩
      rw [if_pos (by omega)]
    · rw [if_pos hi, if_pos (hd i (by omega) (by omega) hi)]
      refine ⟨by simp only [h1]; rfl, ?_⟩
      simp only [h2]
      by_cases hc : i + 1 ≤ m ∧ m < i + 1 + k
      · rw [if_pos hc, if_pos (by omega)]
      · rw [if_neg hc, if_neg (by omega)]

/-- When all dials succeed, client `i` talks to node `i` and the local index is the
node's own. -/
theorem C83_clients_partial {n nodeIndex : Nat} (h : nodeIndex < n) {dialOk : Nat → Bool}
    (hd : ∀ j, j < n → j ≠ nodeIndex → dialOk j = true) :
    setupClients nodeIndex dialOk n 0 = (List.range n, nodeIndex) := by
  obtain ⟨h1, h2⟩ := setup_spec nodeIndex dialOk n 0 (fun j _ hlt hne => hd j (by omega) hne)
  rw [if_pos (by omega)] at h2
  rw [List.range_eq_range']
  exact Prod.ext h1 h2

/-- A failed dial shifts the clients of all later nodes: here node 1 takes node 2
for itself. -/
theorem C83_clients_false :
    setupClients 1 (fun j => decide (j ≠ 0)) 3 0 = ([1, 2], 1) := by decide

example : setupClients 1 (fun _ => true) 3 0 = ([0, 1, 2], 1) := by decide

/-! ## Egress -/

/-- A Read is refused exactly when the id has no owner; otherwise it goes to an
owner, and to the local node if that is an owner. -/
theorem C34_read_owner (lookup : Str → List Nat) (l : Nat) (id : Str) {rnd : Nat}
    (hrnd : lookup id = [] ∨ rnd < (lookup id).length) :
    (egressRoute lookup l id rnd = none ↔ lookup id = []) ∧
    (∀ i, egressRoute lookup l id rnd = some i → i ∈ lookup id) ∧
    (l ∈ lookup id → egressRoute lookup l id rnd = some l) := by
  unfold egressRoute
  cases hl : lookup id with
  | nil => simp
  | cons x xs =>
    rw [hl] at hrnd
    simp only [List.isEmpty_cons, Bool.false_eq_true, if_false]
    have hrnd : rnd < (x :: xs).length := by simpa using hrnd
    by_cases hm : l ∈ x :: xs
    · simp only [hm, if_true]
      refine ⟨by simp, ?_, by simp⟩
      intro i hi; cases hi; exact hm
    · simp only [hm, if_false]
      refine ⟨?_, ?_, fun h => absurd h (by simp)⟩
      · rw [List.getElem?_eq_getElem hrnd]; simp
      · intro i hi; exact List.mem_of_getElem? hi

/-- Every remote owner is used for some random choice. -/
theorem C34_read_any_owner (lookup : Str → List Nat) (l : Nat) (id : Str) (hl : l ∉ lookup id) :
    ∀ i ∈ lookup id, ∃ rnd, rnd < (lookup id).length ∧ egressRoute lookup l id rnd = some i := by
  intro i hi
  obtain ⟨k, hk⟩ := List.getElem?_of_mem hi
  have hlt : k < (lookup id).length := by
    rcases Nat.lt_or_ge k (lookup id).length with h | h
    · exact h
    · rw [List.getElem?_eq_none h] at hk; cases hk
  refine ⟨k, hlt, ?_⟩
  unfold egressRoute
  have : (lookup id).isEmpty = false := by
    cases hx : lookup id with
    | nil => rw [hx] at hi; cases hi
    | cons => rfl
  simp [this, hl, hk]

theorem readAt_agree {L : Str → List Nat} {id : Str} {j hops : Nat} {r : Option Nat}
    (h : ReadAt (fun _ => L) id j hops r) :
    (L id = [] ∧ r = none ∧ hops = 0) ∨ (∃ i, i ∈ L id ∧ r = some i ∧ hops ≤ 1 ∧ (j ∈ L id → i = j ∧ hops = 0)) := by
  have hown : ∀ {j hops r}, ReadAt (fun _ => L) id j hops r → j ∈ L id → r = some j ∧ hops = 0 := by
    intro j hops r h hj
    cases h with
    | refused he hr =>
      rw [(C34_read_owner L j id hr).2.2 hj] at he; cases he
    | here => exact ⟨rfl, rfl⟩
    | forward he hne hr =>
      rw [(C34_read_owner L j id hr).2.2 hj] at he
      cases he; exact absurd rfl hne
  cases h with
  | refused he hr => exact Or.inl ⟨((C34_read_owner L j id hr).1).1 he, rfl, rfl⟩
  | here he hr => exact Or.inr ⟨j, (C34_read_owner L j id hr).2.1 j he, rfl, by omega, fun _ => ⟨rfl, rfl⟩⟩
  | @forward _ i rnd hops _ he hne hr hrest =>
    have hi := (C34_read_owner L j id hr).2.1 i he
    obtain ⟨rfl, rfl⟩ := hown hrest hi
    refine Or.inr ⟨i, hi, rfl, by omega, ?_⟩
    intro hj
    rw [(C34_read_owner L j id hr).2.2 hj] at he
    cases he; exact absurd rfl hne

theorem readAt_total (L : Str → List Nat) (id : Str) (j : Nat) :
    ∃ hops r, ReadAt (fun _ => L) id j hops r := by
  cases hl : L id with
  | nil => exact ⟨0, none, .refused (rnd := 0) (by simp [egressRoute, hl]) (Or.inl hl)⟩
  | cons x xs =>
    have hlen : 0 < (L id).length := by rw [hl]; simp
    by_cases hj : j ∈ L id
    · exact ⟨0, some j, .here ((C34_read_owner L j id (Or.inr hlen)).2.2 hj) (Or.inr hlen)⟩
    · refine ⟨1, some x, .forward (i := x) (rnd := 0) ?_ ?_ (Or.inr hlen) (.here (rnd := 0) ?_ (Or.inr hlen))⟩
      · have := hj; rw [hl] at this
        unfold egressRoute
        simp only [hl, List.isEmpty_cons, Bool.false_eq_true, if_false, this]
        rfl
      · rintro rfl; rw [hl] at hj; simp at hj
      · exact (C34_read_owner L x id (Or.inr hlen)).2.2 (by rw [hl]; simp)

/-- If all nodes hold the same table, a Read is forwarded at most once and is
answered by an owner, or refused if there is none. -/
theorem C36_terminates_partial (L : Str → List Nat) (id : Str) (j : Nat) :
    (∃ hops r, ReadAt (fun _ => L) id j hops r) ∧
    ∀ hops r, ReadAt (fun _ => L) id j hops r →
      hops ≤ 1 ∧ ((r = none ∧ L id = []) ∨ ∃ i ∈ L id, r = some i) := by
  refine ⟨readAt_total L id j, ?_⟩
  intro hops r h
  rcases readAt_agree h with ⟨h1, h2, h3⟩ | ⟨i, h1, h2, h3, _⟩
  · exact ⟨by omega, Or.inl ⟨h2, h1⟩⟩
  · exact ⟨h3, Or.inr ⟨i, h1, h2⟩⟩

/-- Two nodes whose tables name each other pass a Read back and forth for ever. -/
theorem C36_terminates_false :
    ∃ (hash : Str → Nat) (t0 t1 : RTable) (req0 req1 : List (Str × List HRange)),
      TableRun (newRTable ["a".toList, "b".toList] hash) ([] ++ [req0]) t0 ∧
      TableRun (newRTable ["a".toList, "b".toList] hash) ([] ++ [req1]) t1 ∧
      ∀ hops r, ¬ ReadAt (fun j => if j = 0 then t0.lookup else t1.lookup) "id".toList 0 hops r := by
  refine ⟨fun _ => 7,
    { newRTable ["a".toList, "b".toList] (fun _ => 7) with table := [(⟨0, maxHash⟩, 1)] },
    { newRTable ["a".toList, "b".toList] (fun _ => 7) with table := [(⟨0, maxHash⟩, 0)] },
    [("b".toList, [⟨0, maxHash⟩])], [("a".toList, [⟨0, maxHash⟩])], ?_, ?_, ?_⟩
  · exact TableRun.snoc (reqs := []) (TableRun.nil _)
      ⟨rfl, rfl, ⟨_, List.Perm.refl _, List.Perm.refl _⟩, List.pairwise_singleton _ _⟩
  · exact TableRun.snoc (reqs := []) (TableRun.nil _)
      ⟨rfl, rfl, ⟨_, List.Perm.refl _, List.Perm.refl _⟩, List.pairwise_singleton _ _⟩
  · generalize hlk : (fun j : Nat => if j = 0 then _ else _) = lk
    have h0 : lk 0 "id".toList = [1] := by subst hlk; decide
    have h1 : lk 1 "id".toList = [0] := by subst hlk; decide
    suffices h : ∀ hops r, ¬ ReadAt lk "id".toList 0 hops r ∧ ¬ ReadAt lk "id".toList 1 hops r from
      fun hops r => (h hops r).1
    intro hops
    induction hops with
    | zero =>
      intro r
      constructor
      · intro h
        cases h with
        | refused he hr => rw [((C34_read_owner _ _ _ hr).1).1 he] at h0; cases h0
        | here he hr => have := (C34_read_owner _ _ _ hr).2.1 _ he; rw [h0] at this; simp at this
      · intro h
        cases h with
        | refused he hr => rw [((C34_read_owner _ _ _ hr).1).1 he] at h1; cases h1
        | here he hr => have := (C34_read_owner _ _ _ hr).2.1 _ he; rw [h1] at this; simp at this
    | succ hops ih =>
      intro r
      constructor
      · intro h
        cases h with
        | forward he hne hr hrest =>
          have := (C34_read_owner _ _ _ hr).2.1 _ he
          rw [h0] at this
          have : _ = 1 := List.mem_singleton.1 this
          subst this
          exact (ih r).2 hrest
      · intro h
        cases h with
        | forward he hne hr hrest =>
          have := (C34_read_owner _ _ _ hr).2.1 _ he
          rw [h1] at this
          have : _ = 0 := List.mem_singleton.1 this
          subst this
          exact (ih r).1 hrest

/-! ## Read your writes -/

theorem insertByTs_sorted {e : Envelope} {l : List Envelope}
    (h : l.Pairwise (fun x y => x.timestamp ≤ y.timestamp)) :
    (insertByTs e l).Pairwise (fun x y => x.timestamp ≤ y.timestamp) ∧
      ∀ x ∈ insertByTs e l, x = e ∨ x ∈ l := by
  induction l with
  | nil => exact ⟨List.pairwise_singleton _ _, by intro x hx; simp [insertByTs] at hx; simp [hx]⟩
  | cons y t ih =>
    obtain ⟨h1, h2⟩ := List.pairwise_cons.1 h
    obtain ⟨i1, i2⟩ := ih h2
    rw [insertByTs]
    by_cases hlt : e.timestamp < y.timestamp
    · rw [if_pos hlt]
      refine ⟨List.pairwise_cons.2 ⟨?_, h⟩, by intro x hx; simpa using hx⟩
      intro x hx
      rcases List.mem_cons.1 hx with rfl | hx
      · omega
      · have := h1 x hx; omega
    · rw [if_neg hlt]
      refine ⟨List.pairwise_cons.2 ⟨?_, i1⟩, ?_⟩
      · intro x hx
        rcases i2 x hx with rfl | hx
        · omega
        · exact h1 x hx
      · intro x hx
        rcases List.mem_cons.1 hx with rfl | hx
        · simp
        · rcases i2 x hx with rfl | hx <;> simp [*]

theorem logRun_sorted {cfg : Config} {ops : List Op} {A : Str → List Envelope} (h : LogRun cfg ops A)
    (src : Str) : (A src).Pairwise (fun x y => x.timestamp ≤ y.timestamp) := by
  induction h generalizing src with
  | nil => exact List.Pairwise.nil
  | snoc _ hs ih =>
    cases hs with
    | put now s e =>
      simp only
      by_cases he : src = s
      · rw [if_pos he]
        unfold remember
        split
        · exact (insertByTs_sorted (List.Pairwise.sublist (List.tail_sublist _) (ih src))).1
        · exact (insertByTs_sorted (ih src)).1
      · rw [if_neg he]; exact ih src
    | get => exact ih src
    | prune A' R now mc order sources _ _ hsplit =>
      have := ih src
      rw [hsplit] at this
      exact (List.pairwise_append.1 this).2.1

theorem filter_replicate (src : Str) (k : Str → Nat) (batch : List Envelope) :
    (batch.flatMap (fun e => List.replicate (k e.sourceId) e)).filter (fun e => e.sourceId = src) =
      (batch.filter (fun e => e.sourceId = src)).flatMap (fun e => List.replicate (k src) e) := by
  induction batch with
  | nil => rfl
  | cons e t ih =>
    rw [List.flatMap_cons, List.filter_append, ih]
    by_cases he : e.sourceId = src
    · subst he
      rw [List.filter_cons_of_pos (by simp), List.flatMap_cons, List.filter_eq_self.2]
      intro x hx
      rw [(List.mem_replicate.1 hx).2]; simp
    · rw [List.filter_cons_of_neg (by simpa using he)]
      have : (List.replicate (k e.sourceId) e).filter (fun e => e.sourceId = src) = [] := by
        rw [List.filter_eq_nil_iff]
        intro x hx
        rw [(List.mem_replicate.1 hx).2]; simpa using he
      rw [this]; rfl

theorem destined_src (L : Str → List Nat) (i : Nat) (evs : List CEvent)
    (hg : ∀ j req, CEvent.client j req ∈ evs → req.localOnly = false) (src : Str) :
    (evs.flatMap (destined (fun _ => L) i)).filter (fun e => e.sourceId = src) =
      (clientSent evs src).flatMap (fun e => List.replicate ((L src).count i) e) := by
  induction evs with
  | nil => rfl
  | cons ev t ih =>
    have ih := ih (fun j req h => hg j req (List.mem_cons_of_mem _ h))
    unfold clientSent at *
    rw [List.flatMap_cons, List.flatMap_cons, List.filter_append, List.flatMap_append, ih]
    congr 1
    cases ev with
    | client j req =>
      have hl := hg j req (List.mem_cons_self ..)
      simp only [destined, hl, Bool.false_eq_true, if_false]
      exact filter_replicate src (fun s => (L s).count i) _
    | deliver => rfl
    | lose => rfl
    | retable => rfl

theorem flatMap_replicate_one (l : List Envelope) :
    l.flatMap (fun e => List.replicate 1 e) = l := by
  induction l with
  | nil => rfl
  | cons x t ih => rw [List.flatMap_cons, ih]; rfl

theorem flatMap_replicate_zero (l : List Envelope) :
    l.flatMap (fun e => List.replicate 0 e) = [] := by
  induction l with
  | nil => rfl
  | cons x t ih => rw [List.flatMap_cons, ih]; rfl

/-- Read your writes.  All nodes hold the table `L`, clients used plain Sends to
any nodes, nothing was lost and nothing is in flight.  Then a Read of a source,
entering at any node, is answered after at most one hop, and the answer is the
requested part of *all* envelopes clients ever sent for that source, in timestamp
order. -/
theorem C35_read_your_writes {cfg : Config} (hc : 1 ≤ cfg.maxPerSource) {n : Nat}
    {L : Str → List Nat} {evs : List CEvent} {c : Cluster}
    (h : CRun (newCluster cfg n (fun _ => L)) evs c) (hr : Reliable evs)
    (hg : ∀ j req, CEvent.client j req ∈ evs → req.localOnly = false)
    (hq : ∀ j i, c.queue j i = []) (hLn : ∀ s, (L s).Nodup)
    (hd : ∀ s, ((clientSent evs s).map Envelope.timestamp).Nodup)
    {src : Str} (hL : L src ≠ []) (hcap : ((clientSent evs src).length : Int) ≤ cfg.maxPerSource)
    (j : Nat) :
    (∃ hops r, ReadAt c.lk src j hops r) ∧
    ∀ hops r, ReadAt c.lk src j hops r → hops ≤ 1 ∧ ∃ i, r = some i ∧ i ∈ L src ∧
      ∃ log : List Envelope, log.Perm (clientSent evs src) ∧
        log.Pairwise (fun x y => x.timestamp ≤ y.timestamp) ∧
        ∀ compile now (req : ReadRequest), req.sourceId = src → (∀ k, EType.other k ∉ req.types) →
          (∃ err, localRead compile now (c.store i) req = some (.error err)) ∨
          localRead compile now (c.store i) req = some (.ok
            ((((((if req.descending then log.reverse else log).filter
                (inWindow req.start (if req.stop = 0 then now else req.stop))).filterMap
                (project (if req.nameFilter = [] then none else compile req.nameFilter))).filter
                (fun e => decide (∀ t ∈ req.types, t = .any) ||
                  decide (∃ t ∈ req.types, kind e = some t)))).take
              (if req.limit = 0 then 100 else req.limit).toNat)) := by
  obtain ⟨hn, hlk⟩ := crun_fixed h hr
  rw [hlk]
  refine ⟨readAt_total L src j, ?_⟩
  intro hops r hread
  rcases readAt_agree hread with ⟨h1, _, _⟩ | ⟨i, hi, rfl, hh, _⟩
  · exact absurd h1 hL
  refine ⟨hh, i, rfl, hi, ?_⟩
  obtain ⟨ops, hrun, hnp, hputs⟩ := crun_store h hr i
  have hpend : pending c i = [] := by
    unfold pending
    simp [hq]
  have hcons := crun_conserve h hr i
  rw [hpend, List.append_nil] at hcons
  have hp : ∀ s, (putsOf ops s).Perm ((clientSent evs s).flatMap (fun e => List.replicate ((L s).count i) e)) := by
    intro s
    rw [hputs, ← destined_src L i evs hg s]
    exact hcons.filter _
  have hdist : DistinctTs ops := by
    intro s
    have := ((hp s).map Envelope.timestamp)
    rw [this.nodup_iff]
    have hcnt := List.nodup_iff_count.1 (hLn s) i
    rcases Nat.eq_zero_or_pos ((L s).count i) with h0 | h0
    · rw [h0, flatMap_replicate_zero]; exact List.nodup_nil
    · rw [show (L s).count i = 1 by omega, flatMap_replicate_one]; exact hd s
  have hone : (L src).count i = 1 := by
    have := List.nodup_iff_count.1 (hLn src) i
    have := List.count_pos_iff.2 hi
    omega
  have hpsrc := hp src
  rw [hone, flatMap_replicate_one] at hpsrc
  obtain ⟨A, hA, hans⟩ := C26_read_api hc hrun hdist
  refine ⟨A src, ?_, logRun_sorted hA src, ?_⟩
  · exact (logRun_keeps hA hnp src (by rw [hpsrc.length_eq]; exact hcap)).trans hpsrc
  · intro compile now req hsrc hk
    subst hsrc
    exact hans compile now req hk

/-- A run meeting the hypotheses: node 0 receives an envelope owned by node 1 and
forwards it. -/
example : ∃ (c : Cluster) (evs : List CEvent),
    CRun (newCluster { maxPerSource := 5 } 2 (fun _ _ => [1])) evs c ∧ Reliable evs ∧
    (∀ j req, CEvent.client j req ∈ evs → req.localOnly = false) ∧
    (∀ j i, c.queue j i = []) ∧
    clientSent evs [] = [logAt 3] ∧
    localRead (fun _ => none) 9 (c.store 1) { sourceId := [] } = some (.ok [logAt 3]) := by
  refine ⟨_, [] ++ [.client 0 { envelopes := some [logAt 3] }] ++ [.deliver 0 1 [logAt 3]],
    CRun.snoc (CRun.snoc (CRun.nil _) (.client (by decide)
      ⟨fun _ => true, _, _, .proxied _ rfl [logAt 3] rfl [(1, [logAt 3])] (by decide), .nil _, rfl⟩))
      (.deliver (rest := []) (by decide) (by decide) (by decide) (by decide)
        ⟨fun _ => true, _, _, .localOnly _ rfl, .cons 0 rfl (.nil _), rfl⟩), ?_, ?_, ?_, ?_, ?_⟩
  · intro ev hev
    simp at hev
    rcases hev with rfl | rfl <;> trivial
  · intro j req hev
    simp at hev
    rw [hev.2]
  · intro j i
    simp only [newCluster]
    by_cases h1 : j = 0 <;> by_cases h2 : i = 1 <;> by_cases h3 : j = 1 <;> by_cases h4 : i = 0 <;>
      simp_all [sentTo]
    all_goals (intro h; exact absurd h.symm h2)
  · decide
  · rfl

/-! ## Meta -/

theorem mapSetAll_lookup {μ : Type} (m : List (Str × μ)) : ∀ (r : List (Str × μ)) (s : Str),
    (m.map Prod.fst).Nodup →
    (m.foldl (fun r p => mapSet r p.1 p.2) r).lookup s = (m.lookup s).or (r.lookup s) := by
  have mapSet_lookup : ∀ (m : List (Str × μ)) (k : Str) (v : μ) (a : Str),
      (mapSet m k v).lookup a = if a = k then some v else m.lookup a := by
    intro m k v a
    induction m with
    | nil =>
      by_cases h : a = k
      · subst h; simp [mapSet]
      · have : (a == k) = false := by simpa using h
        simp [mapSet, List.lookup, h, this]
    | cons p rest ih =>
      obtain ⟨k', v'⟩ := p
      rw [mapSet]
      by_cases hk : k' = k
      · subst hk
        rw [if_pos rfl]
        by_cases h : a = k'
        · subst h; simp
        · have : (a == k') = false := by simpa using h
          simp [List.lookup, h, this]
      · rw [if_neg hk]
        by_cases h : a = k'
        · subst h
          rw [if_neg hk]; simp
        · have : (a == k') = false := by simpa using h
          simp only [List.lookup, this]
          exact ih
  induction m with
  | nil => intro r s _; simp
  | cons p rest ih =>
    intro r s hn
    rw [List.map_cons, List.nodup_cons] at hn
    rw [List.foldl_cons, ih _ _ hn.2, mapSet_lookup]
    obtain ⟨k, v⟩ := p
    by_cases h : s = k
    · subst h
      have : rest.lookup s = none := by
        rw [List.lookup_eq_none_iff]
        intro q hq
        have : s ≠ q.1 := fun he => hn.1 (he ▸ List.mem_map.2 ⟨q, hq, rfl⟩)
        simpa using this
      rw [this]
      simp
    · have hb : (s == k) = false := by simpa using h
      simp [List.lookup, h, hb]

/-- The accumulator of `mergeMeta`. -/
def mergeAcc {μ : Type} (acc : List (Str × μ) × Nat) (a : Option (List (Str × μ))) :
    List (Str × μ) × Nat :=
  match a with
  | none => (acc.1, acc.2 + 1)
  | some m => (m.foldl (fun r p => mapSet r p.1 p.2) acc.1, acc.2)

theorem mergeAcc_spec {μ : Type} (l : List (Option (List (Str × μ)))) :
    (∀ m, some m ∈ l → (m.map Prod.fst).Nodup) →
    (l.reverse.foldl mergeAcc ([], 0)).2 = l.countP (fun a => a.isNone) ∧
    ∀ s, (l.reverse.foldl mergeAcc ([], 0)).1.lookup s =
      (l.filterMap (fun a => a.bind (fun m => m.lookup s))).head? := by
  induction l with
  | nil => intro _; exact ⟨rfl, fun _ => rfl⟩
  | cons a t ih =>
    intro hl
    obtain ⟨h1, h2⟩ := ih (fun m hm => hl m (List.mem_cons_of_mem _ hm))
    rw [List.reverse_cons, List.foldl_append, List.foldl_cons, List.foldl_nil]
    generalize t.reverse.foldl mergeAcc ([], 0) = acc at h1 h2
    cases a with
    | none =>
      refine ⟨by simp [mergeAcc, h1], ?_⟩
      intro s
      rw [List.filterMap_cons]
      exact h2 s
    | some m =>
      refine ⟨by simp [mergeAcc, h1], ?_⟩
      intro s
      rw [mergeAcc, mapSetAll_lookup m _ s (hl m (List.mem_cons_self ..)), h2]
      rw [List.filterMap_cons]
      simp only [Option.bind_some]
      cases m.lookup s <;> rfl

/-- A cluster Meta fails exactly when no node answers; otherwise each source
carries the entry of the last node that lists it, and sources no node lists are
absent. -/
theorem C37_meta_merge {μ : Type} (answers : List (Option (List (Str × μ))))
    (hn : ∀ m, some m ∈ answers → (m.map Prod.fst).Nodup) :
    (mergeMeta answers = none ↔ ∀ a ∈ answers, a = none) ∧
    ∀ m, mergeMeta answers = some m → ∀ s,
      m.lookup s = (answers.reverse.filterMap (fun a => a.bind (fun m => m.lookup s))).head? := by
  have hk := mergeAcc_spec answers.reverse (by simpa using hn)
  rw [List.reverse_reverse, (List.reverse_perm answers).countP_eq] at hk
  have hm : mergeMeta answers = if (answers.foldl mergeAcc ([], 0)).2 = answers.length then none
      else some (answers.foldl mergeAcc ([], 0)).1 := by
    unfold mergeMeta mergeAcc
    rfl
  rw [hm, hk.1]
  constructor
  · rw [← show (∀ a ∈ answers, a.isNone = true) ↔ ∀ a ∈ answers, a = none by simp,
      ← List.countP_eq_length]
    constructor
    · intro h
      split at h
      · assumption
      · cases h
    · intro h; rw [if_pos h]
  · intro m hm s
    split at hm
    · cases hm
    · cases hm; exact hk.2 s

/-- Two nodes answer, one fails; source `b` is taken from the later node. -/
example : mergeMeta [some [(['a'], 1), (['b'], 2)], none, some [(['b'], 3)]] =
    some [(['a'], 1), (['b'], 3)] := by decide

/-! ## The Meta cache

The events and their interleavings are in `Verif/Spec/Cluster.lean`. -/

theorem metaRun_inv {ρ : Type} {dur : Int} {evs : List (MetaEvent ρ)} {s : MetaState ρ}
    (h : MetaRun dur evs s) (l : Bool) (c : MetaCache ρ)
    (hc : (if l then s.localCache else s.remoteCache) = some c) :
    c.duration = dur ∧ ∃ a b, evs = a ++ .fetched l c.timestamp (some c.resp) :: b ∧
      ∀ e ∈ b, ∀ t r, e ≠ .fetched l t (some r) := by
  induction h with
  | nil => cases l <;> cases hc
  | hit _ _ _ ih =>
    obtain ⟨h1, a, b, rfl, h2⟩ := ih hc
    refine ⟨h1, a, b ++ [_], by simp; rfl, ?_⟩
    intro e he t r
    rcases List.mem_append.1 he with he | he
    · exact h2 e he t r
    · rw [List.mem_singleton.1 he]; intro hx; cases hx
  | @fetched evs s l' now o _ _ ih =>
    cases o with
    | none =>
      obtain ⟨h1, a, b, rfl, h2⟩ := ih hc
      refine ⟨h1, a, b ++ [_], by simp; rfl, ?_⟩
      intro e he t r
      rcases List.mem_append.1 he with he | he
      · exact h2 e he t r
      · rw [List.mem_singleton.1 he]; intro hx; cases hx
    | some v =>
      by_cases hl : l' = l
      · subst hl
        have : c = { duration := dur, timestamp := now, resp := v } := by
          cases l' <;> simpa [metaFinish, eq_comm] using hc
        subst this
        exact ⟨rfl, evs, [], rfl, by intro e he; cases he⟩
      · have : (if l then s.localCache else s.remoteCache) = some c := by
          cases l <;> cases l' <;> simp_all [metaFinish]
        obtain ⟨h1, a, b, rfl, h2⟩ := ih this
        refine ⟨h1, a, b ++ [_], by simp; rfl, ?_⟩
        intro e he t r
        rcases List.mem_append.1 he with he | he
        · exact h2 e he t r
        · rw [List.mem_singleton.1 he]; intro hx; cases hx; exact hl rfl

/-- Every cached Meta answer is the outcome of the latest successful fetch of the
same kind (local or cluster-wide), and that fetch ended at most the cache duration
before. -/
theorem C38_cached_fresh {ρ : Type} {dur : Int} {evs : List (MetaEvent ρ)} {s : MetaState ρ}
    (h : MetaRun dur evs s) {pre post : List (MetaEvent ρ)} {l : Bool} {now : Int} {r : ρ}
    (he : evs = pre ++ .hit l now r :: post) :
    ∃ t a b, pre = a ++ .fetched l t (some r) :: b ∧ now ≤ t + dur ∧ t ≤ now ∧
      ∀ e ∈ b, ∀ t' r', e ≠ .fetched l t' (some r') := by
  induction h generalizing post with
  | nil => simp at he
  | @hit evs s l' now' r' hrun htime hload ih =>
    rcases List.eq_nil_or_concat post with rfl | ⟨post', x, rfl⟩
    · have := List.append_inj' he (by simp)
      obtain ⟨rfl, h2⟩ := this
      cases h2
      unfold metaLoad at hload
      simp only at hload
      rcases hc : (if l then s.localCache else s.remoteCache) with _ | c
      · rw [hc] at hload; cases hload
      · rw [hc] at hload
        obtain ⟨h1, a, b, hab, h2⟩ := metaRun_inv hrun l c hc
        by_cases hexp : metaExpired (some c) now = true
        · rw [if_pos hexp] at hload; cases hload
        · rw [if_neg hexp] at hload
          simp only [Option.map_some, Option.some.injEq] at hload
          subst hload
          simp only [metaExpired, decide_eq_true_eq] at hexp
          refine ⟨c.timestamp, a, b, hab, by omega, ?_, h2⟩
          exact htime (.fetched l c.timestamp (some c.resp)) (by rw [hab]; simp)
    · rw [List.concat_eq_append, ← List.cons_append, ← List.append_assoc] at he
      exact ih (List.append_inj' he (by simp)).1
  | fetched hrun htime ih =>
    rcases List.eq_nil_or_concat post with rfl | ⟨post', x, rfl⟩
    · have := (List.append_inj' he (by simp)).2
      cases this
    · rw [List.concat_eq_append, ← List.cons_append, ← List.append_assoc] at he
      exact ih (List.append_inj' he (by simp)).1

/-- A failed fetch is reported to its caller and leaves both caches as they were. -/
theorem C38_failure_not_cached {ρ : Type} (dur : Int) (s : MetaState ρ) (l : Bool) (now : Int) :
    metaFinish dur s l now none = (s, none) := rfl

/-- A fetch followed by a call within the duration, and a local call that does not
see the cluster-wide cache. -/
example : MetaRun 10 ([] ++ [.fetched false 5 (some 'x')] ++ [.hit false 15 'x'])
      (metaFinish 10 ({} : MetaState Char) false 5 (some 'x')).1 ∧
    metaLoad (metaFinish 10 ({} : MetaState Char) false 5 (some 'x')).1 true 6 = none ∧
    metaLoad (metaFinish 10 ({} : MetaState Char) false 5 (some 'x')).1 false 16 = none := by
  refine ⟨.hit (.fetched .nil (by intro e he; cases he)) ?_ (by decide), by decide, by decide⟩
  intro e he
  simp at he
  subst he; decide

end LogCache
