import Verif.Props.Crash
import Verif.Props.Scheduler
import Verif.Spec.Heal
/-!
# Property theorems about clusters that recover (C156)
-/
namespace LogCache
open Spec

theorem xrun_last {cfg : Config} {c0 c : Cluster} {evs : List XEvent} {ev : XEvent}
    (h : XRun cfg c0 (evs ++ [ev]) c) : ∃ c1, XRun cfg c0 evs c1 ∧ XStep cfg c1 ev c := by
  generalize hx : evs ++ [ev] = l at h
  cases h with
  | nil => simp at hx
  | snoc h1 h2 =>
    obtain ⟨rfl, h3⟩ := List.append_inj' hx rfl
    simp only [List.cons.injEq, and_true] at h3
    subst h3
    exact ⟨_, h1, h2⟩

theorem xrun_first {cfg : Config} {c0 c : Cluster} {pre post : List XEvent}
    (h : XRun cfg c0 (pre ++ post) c) : ∃ c1, XRun cfg c0 pre c1 := by
  induction hn : post.length generalizing post c with
  | zero =>
    rw [List.length_eq_zero_iff] at hn
    subst hn
    rw [List.append_nil] at h
    exact ⟨c, h⟩
  | succ m ih =>
    have hne : post ≠ [] := by intro h0; rw [h0] at hn; simp at hn
    rw [← List.dropLast_append_getLast hne, ← List.append_assoc] at h
    obtain ⟨c1, h1, -⟩ := xrun_last h
    exact ih h1 (by rw [List.length_dropLast]; omega)

theorem xrun_n {cfg : Config} {c0 c : Cluster} {evs : List XEvent} (h : XRun cfg c0 evs c) : c.n = c0.n := by
  induction h with
  | nil => rfl
  | snoc _ hs ih =>
    rw [← ih]
    cases hs with
    | client h => exact (step_client h 0).1
    | deliver h => exact (step_deliver h 0).1
    | drop => rfl
    | retable h => cases h; rfl
    | crash => rfl

theorem tablesAfter_snoc (L : Str → List Nat) (evs : List XEvent) (ev : XEvent) (j : Nat) :
    tablesAfter L (evs ++ [ev]) j = match ev with
      | .retable i l => if j = i then l else tablesAfter L evs j
      | .crash i _ => if j = i then (fun _ => []) else tablesAfter L evs j
      | _ => tablesAfter L evs j := by
  unfold tablesAfter
  rw [List.foldl_append]
  cases ev <;> rfl

/-- From a time on at which the nodes agree about a source, the tables of the nodes and the books
of each of its owners. -/
theorem calm_books {cfg : Config} {n : Nat} {L : Str → List Nat} {pre post : List XEvent} {c : Cluster}
    (h : XRun cfg (newCluster cfg n (fun _ => L)) (pre ++ post) c) {src : Str} {owners : List Nat}
    (hL : ∀ j, j < n → tablesAfter L pre j src = owners) (hcalm : Calm owners src post) :
    (∀ j, j < n → tablesAfter L (pre ++ post) j src = owners) ∧
    ∀ k, owners.count k = 1 →
      (booksOf L k (pre ++ post)).due.filter (fun e => e.sourceId = src) =
        (booksOf L k pre).due.filter (fun e => e.sourceId = src) ++ sentBy post src ∧
      (booksOf L k (pre ++ post)).gone.filter (fun e => e.sourceId = src) =
        (booksOf L k pre).gone.filter (fun e => e.sourceId = src) := by
  induction hn : post.length generalizing post c with
  | zero =>
    rw [List.length_eq_zero_iff] at hn
    subst hn
    rw [List.append_nil]
    exact ⟨hL, fun k _ => ⟨by simp [sentBy], rfl⟩⟩
  | succ m ih =>
    have hne : post ≠ [] := by intro h0; rw [h0] at hn; simp at hn
    obtain ⟨init, ev, rfl⟩ : ∃ init ev, post = init ++ [ev] := ⟨_, _, (List.dropLast_append_getLast hne).symm⟩
    rw [← List.append_assoc] at h ⊢
    obtain ⟨c1, h1, hs⟩ := xrun_last h
    obtain ⟨i1, i2⟩ := ih h1 (fun e he => hcalm e (List.mem_append_left _ he)) (by simpa using hn)
    have hev := hcalm ev (List.mem_append_right _ List.mem_cons_self)
    have hsb : sentBy (init ++ [ev]) src = sentBy init src ++ sentBy [ev] src := by simp [sentBy]
    refine ⟨?_, ?_⟩
    · intro j hj
      rw [tablesAfter_snoc]
      cases ev with
      | client => exact i1 j hj
      | deliver => exact i1 j hj
      | drop => exact i1 j hj
      | retable i l =>
        show (if j = i then l else tablesAfter L (pre ++ init) j) src = owners
        split
        · exact hev
        · exact i1 j hj
      | crash => exact hev.elim
    · intro k hk
      obtain ⟨d1, d2⟩ := i2 k hk
      rw [booksOf_snoc, hsb, ← List.append_assoc, ← d1, ← d2]
      cases ev with
      | client j req =>
        refine ⟨?_, rfl⟩
        have hj : j < n := by
          cases hs with
          | client h2 =>
            cases h2 with
            | client h3 _ => rw [xrun_n h1] at h3; exact h3
        simp only [Books.note, List.filter_append]
        congr 1
        rw [books_tables]
        unfold sharesOf
        rw [if_neg (by rw [show req.localOnly = false from hev]; simp)]
        simp only [sentBy, List.flatMap_cons, List.flatMap_nil, List.append_nil]
        rw [filter_replicate src (fun s => (tablesAfter L (pre ++ init) j s).count k) _, i1 j hj, hk,
          flatMap_replicate_one]
      | deliver j i batch => simp only [Books.note]; split <;> simp [sentBy]
      | drop j i lost =>
        have hnone : lost.filter (fun e => e.sourceId = src) = [] := by
          rw [List.filter_eq_nil_iff]
          intro e he
          simpa using hev e he
        simp only [Books.note]
        split <;> simp [sentBy, hnone]
      | retable i l => simp [Books.note, sentBy]
      | crash => exact hev.elim

theorem someOf_append {a b x y : List Envelope} (h1 : SomeOf a x) (h2 : SomeOf b y) : SomeOf (a ++ b) (x ++ y) := by
  obtain ⟨r, hr⟩ := h1
  obtain ⟨s, hs⟩ := h2
  refine ⟨r ++ s, ?_⟩
  have : (a ++ b ++ (r ++ s)).Perm (a ++ r ++ (b ++ s)) := by
    simp only [List.append_assoc]
    refine List.Perm.append_left _ ?_
    rw [← List.append_assoc, ← List.append_assoc]
    exact List.perm_append_comm.append_right _
  exact this.trans (hr.append hs)

theorem someOf_sublist {a x : List Envelope} (h : a.Sublist x) : SomeOf a x := by
  induction h with
  | slnil => exact ⟨[], List.Perm.refl _⟩
  | @cons l1 l2 e _ ih =>
    obtain ⟨r, hr⟩ := ih
    exact ⟨e :: r, List.perm_middle.trans (hr.cons e)⟩
  | @cons_cons l1 l2 e _ ih =>
    obtain ⟨r, hr⟩ := ih
    exact ⟨r, hr.cons e⟩

theorem sharesOf_some {lk : Nat → Str → List Nat} {k j : Nat} {req : SendRequest} (src : Str)
    (hn : ∀ id, (lk j id).Nodup) :
    ((sharesOf lk k j req).filter (fun e => e.sourceId = src)).Sublist
      ((req.envelopes.getD []).filter (fun e => e.sourceId = src)) := by
  refine List.Sublist.filter _ ?_
  unfold sharesOf
  split
  · split
    · exact List.Sublist.refl _
    · exact List.nil_sublist _
  · generalize req.envelopes.getD [] = l
    induction l with
    | nil => exact List.Sublist.refl _
    | cons e t ih =>
      rw [List.flatMap_cons]
      have h1 := List.nodup_iff_count.1 (hn e.sourceId) k
      have : (lk j e.sourceId).count k = 0 ∨ (lk j e.sourceId).count k = 1 := by omega
      rcases this with h2 | h2 <;> rw [h2]
      · exact ih.cons _
      · exact ih.cons₂ _

theorem fairTables_nodup {L : Str → List Nat} {evs : List XEvent} (h : FairTables L evs) (j : Nat) (id : Str) :
    (tablesAfter L evs j id).Nodup := by
  induction hn : evs.length generalizing evs with
  | zero =>
    rw [List.length_eq_zero_iff] at hn
    subst hn
    exact h.1 id
  | succ m ih =>
    have hne : evs ≠ [] := by intro h0; rw [h0] at hn; simp at hn
    obtain ⟨init, ev, rfl⟩ : ∃ init ev, evs = init ++ [ev] := ⟨_, _, (List.dropLast_append_getLast hne).symm⟩
    have hi := ih (evs := init) ⟨h.1, fun i l hm => h.2 i l (List.mem_append_left _ hm)⟩ (by simpa using hn)
    rw [tablesAfter_snoc]
    cases ev with
    | client => exact hi
    | deliver => exact hi
    | drop => exact hi
    | retable i l =>
      show ((if j = i then l else tablesAfter L init j) id).Nodup
      split
      · exact h.2 i l (List.mem_append_right _ List.mem_cons_self) id
      · exact hi
    | crash i lost =>
      show ((if j = i then (fun _ => []) else tablesAfter L init j) id).Nodup
      split
      · exact List.nodup_nil
      · exact hi

/-- What Sends had for a node is some of what was sent. -/
theorem due_some {L : Str → List Nat} {evs : List XEvent} (h : FairTables L evs) (k : Nat) (src : Str) :
    SomeOf ((booksOf L k evs).due.filter (fun e => e.sourceId = src)) (sentBy evs src) := by
  induction hn : evs.length generalizing evs with
  | zero =>
    rw [List.length_eq_zero_iff] at hn
    subst hn
    exact ⟨[], List.Perm.refl _⟩
  | succ m ih =>
    have hne : evs ≠ [] := by intro h0; rw [h0] at hn; simp at hn
    obtain ⟨init, ev, rfl⟩ : ∃ init ev, evs = init ++ [ev] := ⟨_, _, (List.dropLast_append_getLast hne).symm⟩
    have hf : FairTables L init := ⟨h.1, fun i l hm => h.2 i l (List.mem_append_left _ hm)⟩
    have hi := ih hf (by simpa using hn)
    have hsb : sentBy (init ++ [ev]) src = sentBy init src ++ sentBy [ev] src := by simp [sentBy]
    rw [booksOf_snoc, hsb]
    cases ev with
    | client j req =>
      simp only [Books.note, List.filter_append]
      refine someOf_append hi (someOf_sublist ?_)
      rw [books_tables]
      simpa [sentBy] using sharesOf_some src (fun id => fairTables_nodup hf j id)
    | deliver j i batch => simp only [Books.note]; split <;> simpa [sentBy] using hi
    | drop j i lost => simp only [Books.note]; split <;> simpa [sentBy] using hi
    | retable i l => simpa [sentBy, Books.note] using hi
    | crash i lost => simp only [Books.note]; split <;> simpa [sentBy] using hi

theorem howMany_some {l all : List Envelope} (h : SomeOf l all) (ts : Int) : howMany l ts ≤ howMany all ts := by
  obtain ⟨r, hr⟩ := h
  rw [← howMany_perm hr, howMany_append]
  omega

theorem spread_some {l all : List Envelope} (h : SomeOf l all) (hs : Spread all) : Spread l := by
  obtain ⟨r, hr⟩ := h
  exact spread_prefix (spread_perm hr.symm hs)

/-- What an owner was given after calm: what was sent since, and what was on its way. -/
theorem calm_new {cfg : Config} {n : Nat} {L : Str → List Nat} {pre post : List XEvent} {c : Cluster}
    (h : XRun cfg (newCluster cfg n (fun _ => L)) (pre ++ post) c) (hf : FairTables L pre) {src : Str}
    {owners : List Nat} (hL : ∀ j, j < n → tablesAfter L pre j src = owners) (hcalm : Calm owners src post)
    {k : Nat} (hk : owners.count k = 1) (hq : ∀ i, ∀ e ∈ c.queue i k, e.sourceId ≠ src) :
    ∃ way, SomeOf ((booksOf L k pre).kept.filter (fun e => e.sourceId = src) ++ way) (sentBy pre src) ∧
      ((booksOf L k (pre ++ post)).kept.filter (fun e => e.sourceId = src)).Perm
        ((booksOf L k pre).kept.filter (fun e => e.sourceId = src) ++ way ++ sentBy post src) := by
  obtain ⟨c1, h1⟩ := xrun_first h
  obtain ⟨-, -, b1, -⟩ := books_right h1 k
  obtain ⟨-, -, b2, -⟩ := books_right h k
  obtain ⟨d1, d2⟩ := (calm_books h hL hcalm).2 k hk
  have b1 := b1.filter (fun e => e.sourceId = src)
  have b2 := b2.filter (fun e => e.sourceId = src)
  have hpend : (pending c k).filter (fun e => e.sourceId = src) = [] := by
    rw [List.filter_eq_nil_iff]
    intro e he
    unfold pending at he
    obtain ⟨j, -, hj⟩ := List.mem_flatMap.1 he
    split at hj
    · cases hj
    · simpa using hq j e hj
  rw [List.filter_append, List.filter_append, hpend, List.append_nil, d1, d2] at b2
  rw [List.filter_append] at b1
  refine ⟨(pending c1 k).filter (fun e => e.sourceId = src), ?_, ?_⟩ <;> rw [← List.filter_append]
  · obtain ⟨r, hr⟩ := due_some hf k src
    exact ⟨(booksOf L k pre).gone.filter (fun e => e.sourceId = src) ++ r, by
      rw [← List.append_assoc]
      exact (b1.append_right r).trans hr⟩
  · have b3 := b2.trans (b1.symm.append_right _)
    have b4 : ((booksOf L k pre).gone.filter (fun e => e.sourceId = src) ++
        (booksOf L k (pre ++ post)).kept.filter (fun e => e.sourceId = src)).Perm
        ((booksOf L k pre).gone.filter (fun e => e.sourceId = src) ++
          (((booksOf L k pre).kept ++ pending c1 k).filter (fun e => e.sourceId = src) ++ sentBy post src)) := by
      refine List.perm_append_comm.trans (b3.trans ?_)
      rw [← List.append_assoc]
      exact List.perm_append_comm.append_right _
    exact (List.perm_append_left_iff _).1 b4

/-- What an owner holds after calm: all that was sent since, and some of what was sent before. -/
theorem calm_kept {cfg : Config} {n : Nat} {L : Str → List Nat} {pre post : List XEvent} {c : Cluster}
    (h : XRun cfg (newCluster cfg n (fun _ => L)) (pre ++ post) c) (hf : FairTables L pre) {src : Str}
    {owners : List Nat} (hL : ∀ j, j < n → tablesAfter L pre j src = owners) (hcalm : Calm owners src post)
    {k : Nat} (hk : owners.count k = 1) (hq : ∀ i, ∀ e ∈ c.queue i k, e.sourceId ≠ src) :
    ∃ old, SomeOf old (sentBy pre src) ∧
      ((booksOf L k (pre ++ post)).kept.filter (fun e => e.sourceId = src)).Perm (old ++ sentBy post src) := by
  obtain ⟨way, h1, h2⟩ := calm_new h hf hL hcalm hk hq
  exact ⟨_, h1, h2⟩

/-- Reads where the nodes agree about a source. -/
theorem readAt_owners {lk : Nat → Str → List Nat} {n : Nat} {src : Str} {owners : List Nat}
    (hlk : ∀ j, j < n → lk j src = owners) (hlt : ∀ k ∈ owners, k < n) (hne : owners ≠ []) {j : Nat} (hj : j < n) :
    (∃ hops r, ReadAt lk src j hops r) ∧
    ∀ hops r, ReadAt lk src j hops r → hops ≤ 1 ∧ ∃ k ∈ owners, r = some k := by
  have hown : ∀ {j hops r}, j < n → ReadAt lk src j hops r → j ∈ owners → r = some j ∧ hops = 0 := by
    intro j hops r hj h hm
    rw [← hlk j hj] at hm
    cases h with
    | refused he hr => rw [(C34_read_owner (lk j) j src hr).2.2 hm] at he; cases he
    | here => exact ⟨rfl, rfl⟩
    | forward he hne hr =>
      rw [(C34_read_owner (lk j) j src hr).2.2 hm] at he
      cases he; exact absurd rfl hne
  have hpos : ∀ j, j < n → 0 < (lk j src).length := by
    intro j hj
    rw [hlk j hj]
    exact List.length_pos_of_ne_nil hne
  refine ⟨?_, ?_⟩
  · cases he : egressRoute (lk j) j src 0 with
    | none =>
      have := ((C34_read_owner (lk j) j src (Or.inr (hpos j hj))).1).1 he
      rw [hlk j hj] at this
      exact absurd this hne
    | some k =>
      have hk := (C34_read_owner (lk j) j src (Or.inr (hpos j hj))).2.1 k he
      rw [hlk j hj] at hk
      by_cases hkj : k = j
      · subst hkj
        exact ⟨0, some k, .here he (Or.inr (hpos k hj))⟩
      · have hkn := hlt k hk
        refine ⟨1, some k, .forward he hkj (Or.inr (hpos j hj)) (.here (rnd := 0) ?_ (Or.inr (hpos k hkn)))⟩
        exact (C34_read_owner (lk k) k src (Or.inr (hpos k hkn))).2.2 (by rw [hlk k hkn]; exact hk)
  · intro hops r h
    cases h with
    | refused he hr =>
      have := ((C34_read_owner (lk j) j src hr).1).1 he
      rw [hlk j hj] at this
      exact absurd this hne
    | here he hr =>
      have := (C34_read_owner (lk j) j src hr).2.1 j he
      rw [hlk j hj] at this
      exact ⟨by omega, j, this, rfl⟩
    | @forward _ i rnd hops _ he hne hr hrest =>
      have hi := (C34_read_owner (lk j) j src hr).2.1 i he
      rw [hlk j hj] at hi
      obtain ⟨rfl, rfl⟩ := hown (hlt i hi) hrest hi
      exact ⟨by omega, i, hi, rfl⟩

/-- **A cluster recovers.** Whatever happened before — crashes, losses, nodes without a table or
with different ones, Sends for one node only —, from a time on at which all nodes look up a source
at the same nodes, everything that is sent for it to any node is returned by every Read of it that
enters at any node, in the requested order and within its limit, together with nothing but some of
what had been sent for it before. Missing: sources with more envelopes of one time than fit before
the next time, of which the store may lose some (C07). -/
theorem C156_recovers_partial {cfg : Config} (hc : 1 ≤ cfg.maxPerSource) {n : Nat} {L : Str → List Nat}
    {pre post : List XEvent} {c : Cluster}
    (h : XRun cfg (newCluster cfg n (fun _ => L)) (pre ++ post) c) (hf : FairTables L pre) {src : Str}
    {owners : List Nat} (hL : ∀ j, j < n → tablesAfter L pre j src = owners) (hne : owners ≠ [])
    (hlt : ∀ k ∈ owners, k < n) (hcalm : Calm owners src post)
    (hq : ∀ i k, ∀ e ∈ c.queue i k, e.sourceId ≠ src)
    (hs : Spread (sentBy (pre ++ post) src)) (hfew : ∀ ts, howMany (sentBy (pre ++ post) src) ts ≤ cfg.maxFudge)
    (hcap : ((sentBy (pre ++ post) src).length : Int) ≤ cfg.maxPerSource) {j : Nat} (hj : j < n) :
    (∃ hops r, ReadAt c.lk src j hops r) ∧
    ∀ hops r, ReadAt c.lk src j hops r → hops ≤ 1 ∧ ∃ k ∈ owners, r = some k ∧
      ∃ old, SomeOf old (sentBy pre src) ∧ ReturnsAll (c.store k) src (old ++ sentBy post src) := by
  have hlk := (C154_accounts h 0).1
  have htab := (calm_books h hL hcalm).1
  rw [← hlk] at htab
  obtain ⟨r1, r2⟩ := readAt_owners htab hlt hne hj
  refine ⟨r1, fun hops r hr => ?_⟩
  obtain ⟨e1, k, hk, e2⟩ := r2 hops r hr
  refine ⟨e1, k, hk, e2, ?_⟩
  have hnd : owners.Nodup := by
    rw [← hL j hj]; exact fairTables_nodup hf j src
  have hone : owners.count k = 1 := by
    have := List.nodup_iff_count.1 hnd k
    have := List.count_pos_iff.2 hk
    omega
  obtain ⟨old, ho, hp⟩ := calm_kept h hf hL hcalm hone (fun i => hq i k)
  obtain ⟨-, -, -, ops, o1, o2, o3⟩ := books_right h k
  have hall : SomeOf (old ++ sentBy post src) (sentBy (pre ++ post) src) := by
    have : sentBy (pre ++ post) src = sentBy pre src ++ sentBy post src := by simp [sentBy]
    rw [this]
    exact someOf_append ho ⟨[], by rw [List.append_nil]⟩
  refine ⟨old, ho, returnsAll_of hc o1 o2 (by rw [o3 src]; exact hp) (spread_some hall hs)
    (fun ts => Nat.le_trans (howMany_some hall ts) (hfew ts)) ?_⟩
  obtain ⟨r, hr⟩ := hall
  have := hr.length_eq
  rw [List.length_append] at this
  omega

/-- **One round of the scheduler is enough for that**, whatever state the nodes are in: if the
orchestrator places the ranges and all requests of the round get through, then there are as many
different nodes as the replication factor says such that everything that is sent for a source from
then on is returned by every Read of it. -/
theorem C156_round_partial {cfg : Config} (hc : 1 ≤ cfg.maxPerSource)
    {nodes : List Str} (hn : nodes.Nodup) {hash : Str → Nat}
    {calls1 calls2 : List TermCall} {ns ns1 ns' : Str → NodeSide} (h0 : AnyState nodes hash ns)
    (h : SchedRound nodes (fun _ => true) (fun _ => true) calls1 calls2 true (fun _ => true) ns ns1 ns')
    {count : Int} (h1 : 1 ≤ count) (h2 : count ≤ 2 ^ 32) {rs : List HRange} (hrs : schedRanges count = some rs)
    {repl : Nat} (hrepl : 1 ≤ repl)
    {lists : Str → List HRange} (hl : ∀ a ∈ nodes, ListsRanges (ns a).agent (lists a))
    (hw : ∀ c ∈ calls1, TermCall.works c) (hplaced : Placed rs repl nodes (afterCalls lists calls1))
    {L : Str → List Nat} {pre : List XEvent} (hf : FairTables L pre)
    (htab : ∀ i a, nodes[i]? = some a → tablesAfter L pre i = (ns' a).table.lookup)
    (src : Str) (hid : hash src ≤ maxHash) :
    ∃ owners : List Nat, owners.length = repl ∧ owners.Nodup ∧
      ∀ {post : List XEvent} {c : Cluster},
        XRun cfg (newCluster cfg nodes.length (fun _ => L)) (pre ++ post) c → Calm owners src post →
        (∀ i k, ∀ e ∈ c.queue i k, e.sourceId ≠ src) → Spread (sentBy (pre ++ post) src) →
        (∀ ts, howMany (sentBy (pre ++ post) src) ts ≤ cfg.maxFudge) →
        ((sentBy (pre ++ post) src).length : Int) ≤ cfg.maxPerSource → ∀ {j : Nat}, j < nodes.length →
        (∃ hops r, ReadAt c.lk src j hops r) ∧
        ∀ hops r, ReadAt c.lk src j hops r → hops ≤ 1 ∧ ∃ k ∈ owners, r = some k ∧
          ∃ old, SomeOf old (sentBy pre src) ∧ ReturnsAll (c.store k) src (old ++ sentBy post src) := by
  obtain ⟨owners, o1, o2, o3, o4⟩ := C155_owners_partial hn h0 h h1 h2 hrs hl hw hplaced src hid
  refine ⟨owners, o1, o2, ?_⟩
  intro post c hrun hcalm hq hs hfew hcap j hj
  have hL : ∀ i, i < nodes.length → tablesAfter L pre i src = owners := by
    intro i hi
    rw [htab i nodes[i] (List.getElem?_eq_getElem hi)]
    exact o4 _ (List.getElem_mem hi)
  have hlt : ∀ k ∈ owners, k < nodes.length := by
    intro k hk
    have ha : nodes[j] ∈ nodes := List.getElem_mem hj
    rw [← o4 _ ha] at hk
    exact ((C155_tables hn h0 h src).1 _ ha rfl).2.1 k hk
  exact C156_recovers_partial hc hrun hf hL (by intro e; rw [e] at o1; simp at o1; omega) hlt hcalm hq hs hfew hcap hj

/-- What is sent after the crash of `crashEarly`, and passed on. -/
def afterEarly : List XEvent :=
  [] ++ [.client 0 { envelopes := some [logAt 5] }] ++ [.deliver 0 1 [logAt 5]]

theorem afterEarly_runs : ∃ c : Cluster,
    XRun { maxPerSource := 5 } (newCluster { maxPerSource := 5 } 2 (fun _ _ => [1])) (crashEarly ++ afterEarly) c ∧
    (∀ j i, c.queue j i = []) ∧
    localRead (fun _ => none) 9 (c.store 1) { sourceId := [] } = some (.ok [logAt 5]) := by
  have he : crashEarly ++ afterEarly = [] ++ [.client 0 { envelopes := some [logAt 3] }] ++
    [.crash 0 (fun b => if b = 1 then [logAt 3] else [])] ++ [.retable 0 (fun _ => [1])] ++
    [.client 0 { envelopes := some [logAt 5] }] ++ [.deliver 0 1 [logAt 5]] := rfl
  rw [he]
  refine ⟨_, XRun.snoc (XRun.snoc (XRun.snoc (XRun.snoc (XRun.snoc (XRun.nil _) (.client (.client (by decide)
      ⟨fun _ => true, _, _, .proxied _ rfl [logAt 3] rfl [(1, [logAt 3])] (by decide), .nil _, rfl⟩)))
      (xcrash (by decide) ?_)) (.retable .retable))
      (.client (.client (by decide)
        ⟨fun _ => true, _, _, .proxied _ rfl [logAt 5] rfl [(1, [logAt 5])] (by decide), .nil _, rfl⟩)))
      (.deliver (.deliver (rest := []) (by decide) (by decide) (by decide) (by rfl)
        ⟨fun _ => true, _, _, .localOnly _ rfl, .cons 0 rfl (.nil _), rfl⟩)), ?_, by rfl⟩
  · intro b
    simp only [newCluster]
    by_cases h2 : b = 1
    · simp [h2, sentTo]
    · have : ¬ 1 = b := fun h => h2 h.symm
      simp_all [sentTo]
  · intro j i
    simp only [newCluster]
    by_cases h1 : j = 0 <;> by_cases h3 : j = 1 <;> by_cases h4 : i = 1 <;> simp_all [sentTo] <;>
      first | exact fun h => absurd h.symm h4 | exact fun _ h => absurd h.symm h4

/-- A case of `C156_recovers_partial`: an envelope was lost with the node that had taken it, the
node has its ranges again, and takes another one. -/
example : ∃ c : Cluster,
    XRun { maxPerSource := 5 } (newCluster { maxPerSource := 5 } 2 (fun _ _ => [1])) (crashEarly ++ afterEarly) c ∧
    FairTables (fun _ => [1]) crashEarly ∧ (∀ j, j < 2 → tablesAfter (fun _ => [1]) crashEarly j [] = [1]) ∧
    (∀ k ∈ [1], k < 2) ∧ Calm [1] [] afterEarly ∧ (∀ i k, ∀ e ∈ c.queue i k, e.sourceId ≠ []) ∧
    Spread (sentBy (crashEarly ++ afterEarly) []) ∧
    (∀ ts, howMany (sentBy (crashEarly ++ afterEarly) []) ts ≤ ({ maxPerSource := 5 } : Config).maxFudge) ∧
    ((sentBy (crashEarly ++ afterEarly) []).length : Int) ≤ 5 ∧
    sentBy crashEarly [] = [logAt 3] ∧ sentBy afterEarly [] = [logAt 5] ∧
    localRead (fun _ => none) 9 (c.store 1) { sourceId := [] } = some (.ok [logAt 5]) := by
  obtain ⟨c, h1, h2, h3⟩ := afterEarly_runs
  refine ⟨c, h1, ?_, ?_, by decide, ?_, ?_, ?_, ?_, by decide, by decide, by decide, h3⟩
  · refine ⟨fun _ => by simp, fun i l hm id => ?_⟩
    simp [crashEarly] at hm
    rw [hm.2]; simp
  · intro j hj
    have : j = 0 ∨ j = 1 := by omega
    rcases this with rfl | rfl <;> rfl
  · intro ev hev
    simp [afterEarly] at hev
    rcases hev with rfl | rfl
    · rfl
    · trivial
  · intro i k e he
    rw [h2] at he
    cases he
  · have : sentBy (crashEarly ++ afterEarly) [] = [logAt 3, logAt 5] := by decide
    rw [this]
    intro x hx y hy
    simp only [List.mem_cons, List.not_mem_nil, or_false] at hx hy
    rcases hx with rfl | rfl <;> rcases hy with rfl | rfl <;> decide
  · intro ts
    have : howMany (sentBy (crashEarly ++ afterEarly) []) ts ≤ (sentBy (crashEarly ++ afterEarly) []).length :=
      List.length_filter_le ..
    have h5 : (sentBy (crashEarly ++ afterEarly) []).length = 2 := by decide
    have h6 : 2 ≤ ({ maxPerSource := 5 } : Config).maxFudge := by decide
    omega

/-- A case of `C156_round_partial`: two nodes that start without tables are given those of the
round. -/
example (hash : Str → Nat) : ∃ ns' : Str → NodeSide,
    SchedRound ["a".toList, "b".toList] (fun _ => true) (fun _ => true) splitCalls [] true (fun _ => true)
      (twoFresh hash) (twoSplit hash) ns' ∧
    FairTables (fun _ => []) [.retable 0 (ns' "a".toList).table.lookup, .retable 1 (ns' "b".toList).table.lookup] ∧
    ∀ i a, ["a".toList, "b".toList][i]? = some a →
      tablesAfter (fun _ => []) [.retable 0 (ns' "a".toList).table.lookup, .retable 1 (ns' "b".toList).table.lookup] i =
        (ns' a).table.lookup := by
  obtain ⟨ns', h⟩ := splitRound hash (fun _ => true) (fun _ => true)
  have hnd : ∀ c ∈ ["a".toList, "b".toList], ∀ id, ((ns' c).table.lookup id).Nodup := by
    intro c hc id
    obtain ⟨e1, e2, _⟩ := (C155_tables (by decide) (twoFresh_any _) h id).1 c hc rfl
    rw [List.nodup_iff_count]
    intro i
    by_cases hi : i ∈ (ns' c).table.lookup id
    · have hlt := e2 i hi
      simp only [List.length_cons, List.length_nil] at hlt
      have : i = 0 ∨ i = 1 := by omega
      rcases this with rfl | rfl
      · rw [e1 0 "a".toList [lowHalf] rfl (twoSplit_a _)]
        exact List.length_filter_le _ [lowHalf]
      · rw [e1 1 "b".toList [highHalf] rfl (twoSplit_b _)]
        exact List.length_filter_le _ [highHalf]
    · rw [List.count_eq_zero.2 hi]; omega
  refine ⟨ns', h, ⟨fun _ => List.nodup_nil, ?_⟩, ?_⟩
  · intro i l hm id
    simp only [List.mem_cons, XEvent.retable.injEq, List.not_mem_nil, or_false] at hm
    rcases hm with ⟨-, rfl⟩ | ⟨-, rfl⟩
    · exact hnd _ (by simp) id
    · exact hnd _ (by simp) id
  · intro i a ha
    match i, ha with
    | 0, ha => cases ha; rfl
    | 1, ha => cases ha; rfl
    | i + 2, ha => simp at ha

end LogCache
