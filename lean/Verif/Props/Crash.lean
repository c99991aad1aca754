import Verif.Proof.Crash
import Verif.Props.SpreadCluster
/-!
# Property theorems about crashes of nodes (C154)
-/
namespace LogCache
open Spec

theorem booksOf_snoc (L : Str → List Nat) (k : Nat) (evs : List XEvent) (ev : XEvent) :
    booksOf L k (evs ++ [ev]) = (booksOf L k evs).note k ev := by
  unfold booksOf; rw [List.foldl_append]; rfl

theorem books_tables (L : Str → List Nat) (k : Nat) (evs : List XEvent) :
    (booksOf L k evs).lk = tablesAfter L evs := by
  unfold booksOf tablesAfter
  generalize hb : ({ lk := fun _ => L } : Books) = b
  have hl : b.lk = fun _ => L := by rw [← hb]
  rw [← hl]
  clear hb hl
  induction evs generalizing b with
  | nil => rfl
  | cons ev t ih =>
    rw [List.foldl_cons, List.foldl_cons, ih]
    congr 1
    cases ev <;> simp only [Books.note] <;> (try split) <;> rfl

/-- **The books.** After any history of Sends, deliveries, losses, new tables and crashes, at any
moment: every node has the table that it was given last since it started; what clients' Sends
had for a node is, copy by copy, in its store's history since it started last, on its way, or
gone for a recorded reason; and the store is what the Puts since the last start make it. -/
theorem C154_accounts {cfg : Config} {n : Nat} {L : Str → List Nat} {evs : List XEvent} {c : Cluster}
    (h : XRun cfg (newCluster cfg n (fun _ => L)) evs c) (k : Nat) :
    c.lk = tablesAfter L evs ∧
    ((booksOf L k evs).kept ++
      (List.range n).flatMap (fun j => if j = k then [] else c.queue j k) ++
      (booksOf L k evs).gone).Perm (booksOf L k evs).due ∧
    ∃ ops, Run (newStore cfg) ops (c.store k) ∧ NoPrune ops ∧
      ∀ src, putsOf ops src = (booksOf L k evs).kept.filter (fun e => e.sourceId = src) := by
  obtain ⟨h1, h2, h3, h4⟩ := books_right h k
  refine ⟨h2.trans (books_tables L k evs), ?_, h4⟩
  unfold pending at h3
  rw [h1] at h3
  exact h3

/-- What Sends to ready nodes had for a node, of one source. -/
theorem due_src {L : Str → List Nat} (k : Nat) (src : Str) (pre post : List XEvent)
    (hr : ToReadyNodes L (pre ++ post)) :
    (booksOf L k (pre ++ post)).due.filter (fun e => e.sourceId = src) =
      (booksOf L k pre).due.filter (fun e => e.sourceId = src) ++
        (sentBy post src).flatMap (fun e => List.replicate ((L src).count k) e) := by
  induction post generalizing pre with
  | nil => simp [sentBy]
  | cons ev t ih =>
    have heq : pre ++ ev :: t = (pre ++ [ev]) ++ t := by simp
    rw [heq] at hr ⊢
    rw [ih (pre ++ [ev]) hr, booksOf_snoc]
    have hsb : sentBy (ev :: t) src = sentBy [ev] src ++ sentBy t src := by
      simp [sentBy]
    rw [hsb, List.flatMap_append, ← List.append_assoc]
    congr 1
    cases ev with
    | client j req =>
      obtain ⟨hl, ht⟩ := hr pre t j req heq.symm
      simp only [Books.note, List.filter_append]
      congr 1
      rw [books_tables]
      unfold sharesOf
      rw [hl, ht, if_neg (by simp)]
      simp only [sentBy, List.flatMap_cons, List.flatMap_nil, List.append_nil]
      exact filter_replicate src (fun s => (L s).count k) _
    | deliver j i batch => simp only [Books.note]; split <;> simp [sentBy]
    | drop j i lost => simp only [Books.note]; split <;> simp [sentBy]
    | retable i l => simp [Books.note, sentBy]
    | crash i lost => simp only [Books.note]; split <;> simp [sentBy]

/-- Without losses and crashes nothing of the source is gone. -/
theorem gone_src {L : Str → List Nat} (k : Nat) (src : Str) (pre post : List XEvent)
    (hup : StaysUp k post) (hn : NoneLost src k post) :
    (booksOf L k (pre ++ post)).gone.filter (fun e => e.sourceId = src) =
      (booksOf L k pre).gone.filter (fun e => e.sourceId = src) := by
  induction post generalizing pre with
  | nil => simp
  | cons ev t ih =>
    have heq : pre ++ ev :: t = (pre ++ [ev]) ++ t := by simp
    rw [heq, ih (pre ++ [ev]) (fun l hm => hup l (List.mem_cons_of_mem _ hm))
      (fun ev hm => hn ev (List.mem_cons_of_mem _ hm)), booksOf_snoc]
    have h1 := hn ev (List.mem_cons_self ..)
    have none_of : ∀ l : List Envelope, (∀ e ∈ l, e.sourceId ≠ src) → l.filter (fun e => e.sourceId = src) = [] := by
      intro l hl
      rw [List.filter_eq_nil_iff]
      intro e he
      simpa using hl e he
    cases ev with
    | client j req => rfl
    | deliver j i batch => simp only [Books.note]; split <;> rfl
    | drop j i lost =>
      simp only [Books.note]
      by_cases hik : i = k
      · rw [if_pos hik, List.filter_append, none_of lost (h1 hik), List.append_nil]
      · rw [if_neg hik]
    | retable i l => rfl
    | crash i lost =>
      simp only [Books.note]
      by_cases hik : i = k
      · exact absurd (List.mem_cons_self ..) (hik ▸ hup lost)
      · rw [if_neg hik, List.filter_append, none_of _ (h1 hik), List.append_nil]

/-- A store whose equal times are spread out returns all it holds. -/
theorem returnsAll_holds {cfg : Config} (hc : 1 ≤ cfg.maxPerSource) {ops : List Op} {st : Store}
    (h : Run (newStore cfg) ops st) {src : Str} {sent : List Envelope} (hs : Spread (putsOf ops src))
    (hperm : (st.envelopes src).Perm sent) : ReturnsAll st src sent := by
  obtain ⟨h1, -, h3⟩ := C26_spread hc h hs
  refine ⟨st.envelopes src, hperm, h1, ?_⟩
  intro compile now req hsrc hk
  rcases h3 compile now req hsrc hk with he | ⟨res, g1, all, g2, g3, g4⟩
  · exact Or.inl he
  · refine Or.inr ⟨res, g1, all, g2, g3, ?_, g4⟩
    intro hroom
    rcases g4 with g4 | g4
    · exact g4
    · exfalso
      have hlen : all.length ≤ sent.length := by
        rw [g2, ← hperm.length_eq]
        refine Nat.le_trans (List.length_filter_le ..) (Nat.le_trans (List.length_filterMap_le ..)
          (Nat.le_trans (List.length_filter_le ..) ?_))
        split <;> simp
      have := g3.length_le
      omega

/-- What a store returns that has seen just these Puts of a source. -/
theorem returnsAll_of {cfg : Config} (hc : 1 ≤ cfg.maxPerSource) {ops : List Op} {st : Store}
    (h : Run (newStore cfg) ops st) (hnp : NoPrune ops) {src : Str} {sent : List Envelope}
    (hp : (putsOf ops src).Perm sent) (hs : Spread sent) (hfew : ∀ ts, howMany sent ts ≤ cfg.maxFudge)
    (hcap : (sent.length : Int) ≤ cfg.maxPerSource) : ReturnsAll st src sent := by
  have hs := spread_perm hp.symm hs
  exact returnsAll_holds hc h hs (((C26_spread hc h hs).2.1 hnp
    (fun ts => by rw [howMany_perm hp]; exact hfew ts) (by rw [hp.length_eq]; exact hcap)).trans hp)

theorem kept_since {cfg : Config} {n : Nat} {L : Str → List Nat} {pre post : List XEvent} {c : Cluster}
    (h : XRun cfg (newCluster cfg n (fun _ => L)) (pre ++ post) c) {k : Nat} {src : Str}
    (hr : ToReadyNodes L (pre ++ post)) (hL : (L src).count k = 1)
    (hup : StaysUp k post) (hn : NoneLost src k post) (hq : ∀ j, ∀ e ∈ c.queue j k, e.sourceId ≠ src)
    (h0 : ((booksOf L k pre).gone.filter (fun e => e.sourceId = src)).Perm
      ((booksOf L k pre).due.filter (fun e => e.sourceId = src))) :
    ((booksOf L k (pre ++ post)).kept.filter (fun e => e.sourceId = src)).Perm (sentBy post src) := by
  obtain ⟨-, -, h3, -⟩ := books_right h k
  have h4 := h3.filter (fun e => e.sourceId = src)
  have hpend : (pending c k).filter (fun e => e.sourceId = src) = [] := by
    rw [List.filter_eq_nil_iff]
    intro e he
    unfold pending at he
    obtain ⟨j, -, hj⟩ := List.mem_flatMap.1 he
    split at hj
    · cases hj
    · simpa using hq j e hj
  rw [List.filter_append, List.filter_append, hpend, List.append_nil, due_src k src pre post hr,
    gone_src k src pre post hup hn, hL, flatMap_replicate_one] at h4
  have h5 := h4.trans (h0.symm.append_right _)
  exact (List.perm_append_left_iff _).1 (List.perm_append_comm.trans h5)

/-- **An owner that stays up loses nothing by crashes of other nodes**: if clients send to nodes
that have their ranges, and nothing of the source is lost on its way to this owner, then
whatever crashed elsewhere, and however often, the Reads that this owner answers return all
that was ever sent for the source. -/
theorem C154_survivor_partial {cfg : Config} (hc : 1 ≤ cfg.maxPerSource) {n : Nat} {L : Str → List Nat}
    {evs : List XEvent} {c : Cluster} (h : XRun cfg (newCluster cfg n (fun _ => L)) evs c)
    (hr : ToReadyNodes L evs) {src : Str} {k : Nat} (hLn : (L src).Nodup) (hk : k ∈ L src)
    (hup : StaysUp k evs) (hn : NoneLost src k evs) (hq : ∀ j, ∀ e ∈ c.queue j k, e.sourceId ≠ src)
    (hs : Spread (sentBy evs src)) (hfew : ∀ ts, howMany (sentBy evs src) ts ≤ cfg.maxFudge)
    (hcap : ((sentBy evs src).length : Int) ≤ cfg.maxPerSource) :
    ReturnsAll (c.store k) src (sentBy evs src) := by
  have hone : (L src).count k = 1 := by
    have := List.nodup_iff_count.1 hLn k
    have := List.count_pos_iff.2 hk
    omega
  obtain ⟨-, -, -, ops, h1, h2, h3⟩ := books_right h k
  refine returnsAll_of hc h1 h2 ?_ hs hfew hcap
  rw [h3]
  exact kept_since (pre := []) h hr hone hup hn hq (by simp [booksOf])

/-- **An owner that crashed holds just what was sent since**: if nothing of the source was on its
way to it at the crash, and nothing is lost on its way afterwards, the Reads that it answers
return all that was sent since the crash and nothing from before, whatever other owners hold. -/
theorem C154_restarted_partial {cfg : Config} (hc : 1 ≤ cfg.maxPerSource) {n : Nat} {L : Str → List Nat}
    {pre post : List XEvent} {lost : Nat → List Envelope} {c1 c : Cluster}
    (h1 : XRun cfg (newCluster cfg n (fun _ => L)) pre c1) {src : Str} {k : Nat}
    (hq1 : ∀ j, ∀ e ∈ c1.queue j k, e.sourceId ≠ src)
    (h : XRun cfg (newCluster cfg n (fun _ => L)) (pre ++ XEvent.crash k lost :: post) c)
    (hr : ToReadyNodes L (pre ++ XEvent.crash k lost :: post)) (hLn : (L src).Nodup) (hk : k ∈ L src)
    (hup : StaysUp k post) (hn : NoneLost src k post) (hq : ∀ j, ∀ e ∈ c.queue j k, e.sourceId ≠ src)
    (hs : Spread (sentBy post src)) (hfew : ∀ ts, howMany (sentBy post src) ts ≤ cfg.maxFudge)
    (hcap : ((sentBy post src).length : Int) ≤ cfg.maxPerSource) :
    ReturnsAll (c.store k) src (sentBy post src) := by
  have hone : (L src).count k = 1 := by
    have := List.nodup_iff_count.1 hLn k
    have := List.count_pos_iff.2 hk
    omega
  obtain ⟨-, -, -, ops, g1, g2, g3⟩ := books_right h k
  refine returnsAll_of hc g1 g2 ?_ hs hfew hcap
  rw [g3]
  have heq : pre ++ XEvent.crash k lost :: post = (pre ++ [XEvent.crash k lost]) ++ post := by simp
  rw [heq] at h hr ⊢
  refine kept_since h hr hone hup hn hq ?_
  rw [booksOf_snoc]
  simp only [Books.note, if_true]
  obtain ⟨-, -, e3, -⟩ := books_right h1 k
  have e4 := e3.filter (fun e => e.sourceId = src)
  have hpend : (pending c1 k).filter (fun e => e.sourceId = src) = [] := by
    rw [List.filter_eq_nil_iff]
    intro e he
    unfold pending at he
    obtain ⟨j, -, hj⟩ := List.mem_flatMap.1 he
    split at hj
    · cases hj
    · simpa using hq1 j e hj
  rw [List.filter_append, List.filter_append, hpend, List.append_nil] at e4
  rw [List.filter_append]
  exact List.perm_append_comm.trans e4

/-- Who answers: a Read that enters at a node with the source in its own ranges is answered by
that node, whether or not it has crashed; at a node without ranges, as one is that has just
started again, it is refused; and a node always turns to an owner by its own table. -/
theorem C154_who_answers {cfg : Config} {n : Nat} {L : Str → List Nat} {evs : List XEvent} {c : Cluster}
    (h : XRun cfg (newCluster cfg n (fun _ => L)) evs c) {src : Str} {k hops : Nat} {r : Option Nat}
    (hread : ReadAt c.lk src k hops r) :
    (k ∈ tablesAfter L evs k src → r = some k ∧ hops = 0) ∧
    (tablesAfter L evs k src = [] → r = none ∧ hops = 0) ∧
    (∀ lost, evs.getLast? = some (XEvent.crash k lost) → r = none ∧ hops = 0) := by
  have hlk := (C154_accounts h k).1
  have hown : k ∈ tablesAfter L evs k src → r = some k ∧ hops = 0 := by
    intro hk
    rw [← hlk] at hk
    cases hread with
    | refused he hr => rw [(C34_read_owner (c.lk k) k src hr).2.2 hk] at he; cases he
    | here => exact ⟨rfl, rfl⟩
    | forward he hne hr =>
      rw [(C34_read_owner (c.lk k) k src hr).2.2 hk] at he
      cases he; exact absurd rfl hne
  have hnone : tablesAfter L evs k src = [] → r = none ∧ hops = 0 := by
    intro hk
    rw [← hlk] at hk
    cases hread with
    | refused he hr => exact ⟨rfl, rfl⟩
    | here he hr => rw [(C34_read_owner (c.lk k) k src hr).1.2 hk] at he; cases he
    | forward he hne hr => rw [(C34_read_owner (c.lk k) k src hr).1.2 hk] at he; cases he
  refine ⟨hown, hnone, ?_⟩
  intro lost hl
  apply hnone
  obtain ⟨t, rfl⟩ := List.getLast?_eq_some_iff.1 hl
  unfold tablesAfter
  rw [List.foldl_append]
  simp

/-- Two nodes that both own everything; node 0 takes an envelope and passes it on, crashes, and
gets its ranges again. -/
def crashRun : List XEvent :=
  [] ++ [.client 0 { envelopes := some [logAt 3] }] ++ [.deliver 0 1 [logAt 3]] ++
    [.crash 0 (fun _ => [])] ++ [.retable 0 (fun _ => [0, 1])]

/-- One node owns everything and another takes an envelope for it and crashes. -/
def crashEarly : List XEvent :=
  [] ++ [.client 0 { envelopes := some [logAt 3] }] ++
    [.crash 0 (fun b => if b = 1 then [logAt 3] else [])] ++ [.retable 0 (fun _ => [1])]

theorem xcrash {cfg : Config} {c : Cluster} {i : Nat} (hi : i < c.n) {lost : Nat → List Envelope}
    (hl : ∀ b, c.queue i b = lost b) :
    XStep cfg c (.crash i lost)
        { c with
          lk := fun k => if k = i then (fun _ => []) else c.lk k
          store := fun k => if k = i then newStore cfg else c.store k
          queue := fun a b => if a = i then [] else c.queue a b } := by
  have : lost = c.queue i := funext fun b => (hl b).symm
  rw [this]
  exact .crash hi

theorem crashRun_runs : ∃ c : Cluster,
    XRun { maxPerSource := 5 } (newCluster { maxPerSource := 5 } 2 (fun _ _ => [0, 1])) crashRun c ∧
    (∀ j i, c.queue j i = []) ∧ c.lk = (fun _ _ => [0, 1]) ∧
    localRead (fun _ => none) 9 (c.store 0) { sourceId := [] } = some (.ok []) ∧
    localRead (fun _ => none) 9 (c.store 1) { sourceId := [] } = some (.ok [logAt 3]) := by
  refine ⟨_, XRun.snoc (XRun.snoc (XRun.snoc (XRun.snoc (XRun.nil _) (.client (.client (by decide)
      ⟨fun _ => true, _, _, .proxied _ rfl [logAt 3] rfl [(0, [logAt 3]), (1, [logAt 3])] (by decide),
        .cons 0 rfl (.nil _), rfl⟩)))
      (.deliver (.deliver (rest := []) (by decide) (by decide) (by decide) (by decide)
        ⟨fun _ => true, _, _, .localOnly _ rfl, .cons 0 rfl (.nil _), rfl⟩)))
      (xcrash (by decide) ?_)) (.retable .retable), ?_, ?_, by rfl, by rfl⟩
  · intro b
    simp only [newCluster]
    by_cases h2 : b = 1
    · simp [h2]
    · by_cases h4 : b = 0
      · simp [h4]
      · have : ¬ 0 = b := fun h => h4 h.symm
        have : ¬ 1 = b := fun h => h2 h.symm
        simp_all [sentTo]
  · intro j i
    simp only [newCluster]
    by_cases h1 : j = 0 <;> by_cases h3 : j = 1 <;> by_cases h4 : i = 1 <;> simp_all [sentTo]
    exact fun h => absurd h.symm h4
  · funext k
    simp only [newCluster]
    by_cases h1 : k = 0 <;> simp [h1]

theorem crashEarly_runs : ∃ c : Cluster,
    XRun { maxPerSource := 5 } (newCluster { maxPerSource := 5 } 2 (fun _ _ => [1])) crashEarly c ∧
    (∀ j i, c.queue j i = []) ∧ c.lk = (fun _ _ => [1]) ∧
    localRead (fun _ => none) 9 (c.store 1) { sourceId := [] } = some (.ok []) := by
  refine ⟨_, XRun.snoc (XRun.snoc (XRun.snoc (XRun.nil _) (.client (.client (by decide)
      ⟨fun _ => true, _, _, .proxied _ rfl [logAt 3] rfl [(1, [logAt 3])] (by decide), .nil _, rfl⟩)))
      (xcrash (by decide) ?_)) (.retable .retable), ?_, ?_, by rfl⟩
  · intro b
    simp only [newCluster]
    by_cases h2 : b = 1
    · simp [h2, sentTo]
    · have : ¬ 1 = b := fun h => h2 h.symm
      simp_all [sentTo]
  · intro j i
    simp only [newCluster]
    by_cases h1 : j = 0 <;> simp_all
  · funext k
    simp only [newCluster]
    by_cases h1 : k = 0 <;> simp [h1]

theorem crashRun_ready : ToReadyNodes (fun _ => [0, 1]) crashRun := by
  intro pre post i req h
  match pre, h with
  | [], h => simp [crashRun] at h; obtain ⟨⟨rfl, rfl⟩, -⟩ := h; exact ⟨rfl, rfl⟩
  | [_], h => simp [crashRun] at h
  | [_, _], h => simp [crashRun] at h
  | [_, _, _], h => simp [crashRun] at h
  | _ :: _ :: _ :: _ :: r, h => simp [crashRun] at h

theorem crashEarly_ready : ToReadyNodes (fun _ => [1]) crashEarly := by
  intro pre post i req h
  match pre, h with
  | [], h => simp [crashEarly] at h; obtain ⟨⟨rfl, rfl⟩, -⟩ := h; exact ⟨rfl, rfl⟩
  | [_], h => simp [crashEarly] at h
  | [_, _], h => simp [crashEarly] at h
  | _ :: _ :: _ :: r, h => simp [crashEarly] at h

/-- A crash can hide what another owner holds, for good: both nodes own the source and hold its
envelope; node 0 crashes with nothing on its way and has its ranges again; a Read that enters
there is answered by node 0 itself, with nothing, while node 1 still has the envelope. -/
theorem C154_hidden_false : ∃ (c : Cluster) (evs : List XEvent),
    XRun { maxPerSource := 5 } (newCluster { maxPerSource := 5 } 2 (fun _ _ => [0, 1])) evs c ∧
    ToReadyNodes (fun _ => [0, 1]) evs ∧ (∀ k, NoneLost [] k evs) ∧ (∀ j i, c.queue j i = []) ∧
    c.lk = (fun _ _ => [0, 1]) ∧ sentBy evs [] = [logAt 3] ∧
    (∀ hops r, ReadAt c.lk [] 0 hops r → r = some 0) ∧
    localRead (fun _ => none) 9 (c.store 0) { sourceId := [] } = some (.ok []) ∧
    localRead (fun _ => none) 9 (c.store 1) { sourceId := [] } = some (.ok [logAt 3]) := by
  obtain ⟨c, h1, h2, h3, h4, h5⟩ := crashRun_runs
  refine ⟨c, crashRun, h1, crashRun_ready, ?_, h2, h3, by decide, ?_, h4, h5⟩
  · intro k ev hev
    simp [crashRun] at hev
    rcases hev with rfl | rfl | rfl | rfl
    · trivial
    · trivial
    · intro _ e he; cases he
    · trivial
  · intro hops r hr
    rw [h3] at hr
    rcases readAt_agree hr with ⟨h, _⟩ | ⟨i, hi, rfl, _, hj⟩
    · cases h
    · rw [(hj (by decide)).1]

/-- A Send that was answered with success is not safe from a crash of the node that took it: the
owner never crashed, and no request was lost, but the envelope was still in the buffer of the
node that crashed, and no Read returns it any more. -/
theorem C154_acknowledged_false : ∃ (c : Cluster) (evs : List XEvent),
    XRun { maxPerSource := 5 } (newCluster { maxPerSource := 5 } 2 (fun _ _ => [1])) evs c ∧
    ToReadyNodes (fun _ => [1]) evs ∧ StaysUp 1 evs ∧ (∀ j i lost, XEvent.drop j i lost ∉ evs) ∧
    (∀ j i, c.queue j i = []) ∧ c.lk = (fun _ _ => [1]) ∧ sentBy evs [] = [logAt 3] ∧
    (∀ j hops r, ReadAt c.lk [] j hops r → r = some 1) ∧
    localRead (fun _ => none) 9 (c.store 1) { sourceId := [] } = some (.ok []) := by
  obtain ⟨c, h1, h2, h3, h4⟩ := crashEarly_runs
  refine ⟨c, crashEarly, h1, crashEarly_ready, ?_, ?_, h2, h3, by decide, ?_, h4⟩
  · intro lost h
    simp [crashEarly] at h
  · intro j i lost h
    simp [crashEarly] at h
  · intro j hops r hr
    rw [h3] at hr
    rcases readAt_agree hr with ⟨h, _⟩ | ⟨i, hi, rfl, _, _⟩
    · cases h
    · simp at hi; rw [hi]

/-- The hypotheses of `C154_survivor_partial` hold of node 1 in `crashRun`, which has a crash of
the other owner: it returns what was sent before it. -/
example : ∃ c : Cluster,
    XRun { maxPerSource := 5 } (newCluster { maxPerSource := 5 } 2 (fun _ _ => [0, 1])) crashRun c ∧
    sentBy crashRun [] = [logAt 3] ∧ ReturnsAll (c.store 1) [] (sentBy crashRun []) := by
  obtain ⟨c, h1, h2, -⟩ := crashRun_runs
  refine ⟨c, h1, by decide, C154_survivor_partial (by decide) h1 crashRun_ready (by decide) (by decide) ?_ ?_ ?_ ?_ ?_ ?_⟩
  · intro lost h
    simp [crashRun] at h
  · intro ev hev
    simp [crashRun] at hev
    rcases hev with rfl | rfl | rfl | rfl
    · trivial
    · trivial
    · intro _ e he; cases he
    · trivial
  · intro j e he
    rw [h2] at he; cases he
  · have : sentBy crashRun [] = [logAt 3] := by decide
    rw [this]; unfold Spread; decide
  · intro ts
    have : sentBy crashRun [] = [logAt 3] := by decide
    rw [this]
    exact Nat.le_trans (List.length_filter_le ..) (by decide)
  · decide

/-- The hypotheses of `C154_restarted_partial` hold of node 0 in `crashRun` when node 1 then takes
another envelope and passes it on: node 0 returns that one only. -/
example : ∃ (pre post : List XEvent) (lost : Nat → List Envelope) (c1 c : Cluster),
    XRun { maxPerSource := 5 } (newCluster { maxPerSource := 5 } 2 (fun _ _ => [0, 1])) pre c1 ∧
    XRun { maxPerSource := 5 } (newCluster { maxPerSource := 5 } 2 (fun _ _ => [0, 1]))
      (pre ++ XEvent.crash 0 lost :: post) c ∧
    ToReadyNodes (fun _ => [0, 1]) (pre ++ XEvent.crash 0 lost :: post) ∧
    (∀ j, c1.queue j 0 = []) ∧ (∀ j, c.queue j 0 = []) ∧ StaysUp 0 post ∧ NoneLost [] 0 post ∧
    sentBy pre [] = [logAt 3] ∧ sentBy post [] = [logAt 5] ∧
    localRead (fun _ => none) 9 (c.store 0) { sourceId := [] } = some (.ok [logAt 5]) := by
  refine ⟨[] ++ [.client 0 { envelopes := some [logAt 3] }] ++ [.deliver 0 1 [logAt 3]],
    [.retable 0 (fun _ => [0, 1]), .client 1 { envelopes := some [logAt 5] }, .deliver 1 0 [logAt 5]],
    fun _ => [], _, _, XRun.snoc (XRun.snoc (XRun.nil _) (.client (.client (by decide)
      ⟨fun _ => true, _, _, .proxied _ rfl [logAt 3] rfl [(0, [logAt 3]), (1, [logAt 3])] (by decide),
        .cons 0 rfl (.nil _), rfl⟩)))
      (.deliver (.deliver (rest := []) (by decide) (by decide) (by decide) (by decide)
        ⟨fun _ => true, _, _, .localOnly _ rfl, .cons 0 rfl (.nil _), rfl⟩)),
    XRun.snoc (evs := [] ++ [.client 0 { envelopes := some [logAt 3] }] ++ [.deliver 0 1 [logAt 3]] ++
        [.crash 0 (fun _ => [])] ++ [.retable 0 (fun _ => [0, 1])] ++
        [.client 1 { envelopes := some [logAt 5] }])
     (XRun.snoc (XRun.snoc (XRun.snoc (XRun.snoc (XRun.snoc (XRun.nil _) (.client (.client (by decide)
      ⟨fun _ => true, _, _, .proxied _ rfl [logAt 3] rfl [(0, [logAt 3]), (1, [logAt 3])] (by decide),
        .cons 0 rfl (.nil _), rfl⟩)))
      (.deliver (.deliver (rest := []) (by decide) (by decide) (by decide) (by decide)
        ⟨fun _ => true, _, _, .localOnly _ rfl, .cons 0 rfl (.nil _), rfl⟩)))
      (xcrash (by decide) ?_)) (.retable .retable))
      (.client (.client (by decide)
      ⟨fun _ => true, _, _, .proxied _ rfl [logAt 5] rfl [(0, [logAt 5]), (1, [logAt 5])] (by decide),
        .cons 0 rfl (.nil _), rfl⟩)))
      (.deliver (.deliver (rest := []) (by decide) (by decide) (by decide) (by decide)
        ⟨fun _ => true, _, _, .localOnly _ rfl, .cons 0 rfl (.nil _), rfl⟩)),
    ?_, ?_, ?_, ?_, ?_, by decide, by decide, by rfl⟩
  · intro b
    simp only [newCluster]
    by_cases h2 : b = 1
    · simp [h2]
    · by_cases h4 : b = 0
      · simp [h4]
      · have : ¬ 0 = b := fun h => h4 h.symm
        have : ¬ 1 = b := fun h => h2 h.symm
        simp_all [sentTo]
  · intro pre post i req h
    match pre, h with
    | [], h => simp at h; obtain ⟨⟨rfl, rfl⟩, -⟩ := h; exact ⟨rfl, rfl⟩
    | [_], h => simp at h
    | [_, _], h => simp at h
    | [_, _, _], h => simp at h
    | [a, b, d, e], h =>
      simp at h
      obtain ⟨rfl, rfl, rfl, rfl, ⟨rfl, rfl⟩, -⟩ := h
      refine ⟨rfl, ?_⟩
      simp [tablesAfter]
    | [_, _, _, _, _], h => simp at h
    | _ :: _ :: _ :: _ :: _ :: _ :: r, h => simp at h
  · intro j
    simp only [newCluster]
    by_cases h1 : j = 0 <;> simp_all [sentTo, batchedWrite]
  · intro j
    simp only [newCluster]
    by_cases h1 : j = 0 <;> by_cases h3 : j = 1 <;> simp_all [sentTo]
  · intro lost h
    simp at h
  · intro ev hev
    simp at hev
    rcases hev with rfl | rfl | rfl <;> trivial

end LogCache
