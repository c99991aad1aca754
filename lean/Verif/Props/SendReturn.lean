import Verif.Proof.Cluster
import Verif.Proof.FreeKey
import Verif.Props.Cluster
import Verif.Props.Store
/-!
# What is stored when a Send returns (C140)
-/
namespace LogCache
open Spec

/-- The store of every node has a history of puts, whatever happened in the cluster. -/
theorem crun_puts {cfg : Config} {n : Nat} {lk : Nat → Str → List Nat} {evs : List CEvent}
    {c : Cluster} (h : CRun (newCluster cfg n lk) evs c) (i : Nat) :
    ∃ ops, Run (newStore cfg) ops (c.store i) ∧ NoPrune ops := by
  generalize hc0 : newCluster cfg n lk = c0 at h
  induction h with
  | nil =>
    subst hc0
    exact ⟨[], .nil _, by intro _ h; cases h⟩
  | @snoc c1 c2 evs ev hrun hs ih =>
    obtain ⟨ops, hr, hn⟩ := ih
    have key : ∀ {d : Cluster} {k : Nat} {req : SendRequest}, Handle d k req c2 → (∀ x, d.store x = c1.store x) →
        ∃ ops, Run (newStore cfg) ops (c2.store i) ∧ NoPrune ops := by
      intro d k req hh hd
      obtain ⟨res, st', -, -, e3, e4, e5, -⟩ := handle_spec hh
      by_cases hk : i = k
      · subst hk
        rw [hd] at e5
        obtain ⟨ops', h1, -, h3⟩ := putAll_run hr e5
        refine ⟨ops ++ ops', e3 ▸ h1, ?_⟩
        intro op hop
        rcases List.mem_append.1 hop with h | h
        · exact hn op h
        · exact h3 op h
      · rw [e4 i hk, hd]; exact ⟨ops, hr, hn⟩
    cases hs with
    | client _ hh => exact key hh (fun _ => rfl)
    | deliver _ _ _ _ hh => exact key hh (fun _ => rfl)
    | lose _ => exact ⟨ops, hr, hn⟩
    | retable => exact ⟨ops, hr, hn⟩

/-- A row of puts below capacity and below the number of keys of one timestamp adds
every envelope. -/
theorem putAll_adds {cfg : Config} (hc : 1 ≤ cfg.maxPerSource) {src : Str} {st st' : Store}
    {l : List (Str × Envelope)} (hp : PutAll st l st') :
    ∀ {ops : List Op}, Run (newStore cfg) ops st →
    (((st.envelopes src).length + (l.filter (fun p => p.1 = src)).length : Nat) : Int) ≤ cfg.maxPerSource →
    (st.envelopes src).length + (l.filter (fun p => p.1 = src)).length ≤ cfg.maxFudge + 1 →
    (st'.envelopes src).Perm (st.envelopes src ++ (l.filter (fun p => p.1 = src)).map Prod.snd) := by
  induction hp with
  | nil st => intro ops _ _ _; simp
  | @cons st st1 st2 p rest now hput _ ih =>
    intro ops hr hcap hkeys
    have hr1 := hr.snoc (op := .put now p.1 p.2) trivial hput
    by_cases hs : p.1 = src
    · rw [List.filter_cons_of_pos (by simpa using hs)] at hcap hkeys ⊢
      simp only [List.length_cons] at hcap hkeys
      have hlen : (st.envelopes src).length = (st.entries src).length := by simp [Store.envelopes]
      rw [hs] at hput
      obtain ⟨key, -, -, hperm⟩ := C07_put_keeps_all_partial hc hr (by omega)
        (free_key cfg.maxFudge (st.entries src) (by omega) p.2.timestamp) hput
      have hp1 : (st1.envelopes src).Perm (p.2 :: st.envelopes src) := by
        have := hperm.map Prod.snd
        simpa [Store.envelopes] using this
      have hl1 := hp1.length_eq
      simp only [List.length_cons] at hl1
      refine (ih hr1 (by omega) (by omega)).trans ?_
      rw [List.map_cons]
      refine (hp1.append_right _).trans ?_
      rw [List.cons_append]
      exact List.perm_middle.symm
    · rw [List.filter_cons_of_neg (by simpa using hs)] at hcap hkeys ⊢
      obtain ⟨hi, hcfg⟩ := run_inv hc hr
      obtain ⟨f, hf⟩ := put_spec hi.idx hput
      have he : st1.envelopes src = st.envelopes src := by
        unfold Store.envelopes
        rw [entries_other hf (fun h => hs h.symm)]
      rw [← he] at hcap hkeys ⊢
      exact ih hr1 hcap hkeys

theorem filter_map_source (l : List Envelope) (src : Str) :
    ((l.map fun e => (e.sourceId, e)).filter (fun p => p.1 = src)).map Prod.snd =
      l.filter (fun e => e.sourceId = src) := by
  rw [List.filter_map, List.map_map]
  exact List.map_id' _

theorem filter_flatMap_copies (l : List Envelope) (f : Str → Nat) (src : Str) :
    (l.flatMap fun e => List.replicate (f e.sourceId) e).filter (fun e => e.sourceId = src) =
      (l.filter (fun e => e.sourceId = src)).flatMap fun e => List.replicate (f src) e := by
  induction l with
  | nil => rfl
  | cons e t ih =>
    rw [List.flatMap_cons, List.filter_append, ih]
    by_cases he : e.sourceId = src
    · rw [List.filter_cons_of_pos (by simpa using he), List.flatMap_cons]
      congr 1
      rw [List.filter_eq_self.2]
      · rw [he]
      · intro x hx
        rw [List.eq_of_mem_replicate hx]
        simpa using he
    · rw [List.filter_cons_of_neg (by simpa using he)]
      rw [List.filter_eq_nil_iff.2]
      · rfl
      · intro x hx
        rw [List.eq_of_mem_replicate hx]
        simpa using he

/-- The envelopes of one source in a request. -/
def Spec.inRequest (req : SendRequest) (src : Str) : List Envelope :=
  (req.envelopes.getD []).filter (fun e => e.sourceId = src)

/-- A Send puts, before it returns, as many copies of an envelope into the store of the
node that serves it as that node is listed in its own table for the source; a local-only
Send puts one. -/
theorem C140_own_copies {cfg : Config} (hc : 1 ≤ cfg.maxPerSource) {n : Nat}
    {lk : Nat → Str → List Nat} {evs : List CEvent} {c c' : Cluster} {i : Nat} {req : SendRequest}
    (h : CRun (newCluster cfg n lk) evs c) (hs : CStep c (.client i req) c') (src : Str) (k : Nat)
    (hk : k = if req.localOnly then 1 else (c.lk i src).count i)
    (hcap : ((((c.store i).envelopes src).length + (inRequest req src).length * k : Nat) : Int)
      ≤ cfg.maxPerSource)
    (hkeys : ((c.store i).envelopes src).length + (inRequest req src).length * k ≤ cfg.maxFudge + 1) :
    ((c'.store i).envelopes src).Perm
      ((c.store i).envelopes src ++ (inRequest req src).flatMap (fun e => List.replicate k e)) := by
  obtain ⟨ops, hr, -⟩ := crun_puts h i
  cases hs with
  | client hi hh =>
    obtain ⟨res, st', -, -, e3, -, e5, -, e7, e8⟩ := handle_spec hh
    have hsent : (sentTo res i).filter (fun e => e.sourceId = src) =
        (inRequest req src).flatMap (fun e => List.replicate k e) := by
      cases hl : req.localOnly with
      | true =>
        rw [e7 hl i, if_pos rfl, hk, hl]
        simp only [if_true, List.replicate_one]
        rw [List.flatMap_singleton']
        rfl
      | false =>
        obtain ⟨batch, hb, hb2⟩ := e8 hl
        rw [hb2 i, filter_flatMap_copies batch (fun s => (c.lk i s).count i) src, hk, hl]
        simp [inRequest, hb]
    have hlen : (((sentTo res i).map fun e => (e.sourceId, e)).filter (fun p => p.1 = src)).length =
        (inRequest req src).length * k := by
      have := congrArg List.length (filter_map_source (sentTo res i) src)
      rw [List.length_map, hsent] at this
      rw [this]
      generalize inRequest req src = l
      clear this hsent
      induction l with
      | nil => simp
      | cons x t iht =>
        rw [List.flatMap_cons, List.length_append, iht, List.length_replicate, List.length_cons,
          Nat.succ_mul, Nat.add_comm]
    have := putAll_adds hc (src := src) e5 hr (by rw [hlen]; exact hcap) (by rw [hlen]; exact hkeys)
    rw [filter_map_source, hsent] at this
    rw [e3]; exact this

/-- Between creation and the Send: two envelopes of a source stored at the node, one of
them twice because the table lists the node twice. -/
example : ∃ c c', CRun (newCluster { maxPerSource := 10 } 1 (fun _ _ => [0, 0])) [] c ∧
    CStep c (.client 0 { envelopes := some [logAt 1 "a"], localOnly := false }) c' ∧
    (((c.store 0).envelopes []).length + 1 * 2 : Int) ≤ 10 ∧
    (c.lk 0 []).count 0 = 2 := by
  obtain ⟨st', hst⟩ := putAll_total (cfg := { maxPerSource := 10 }) (by decide) (.nil _)
    (localPuts { envelopes := some [logAt 1 "a", logAt 1 "a"], localOnly := true })
  refine ⟨_, _, .nil _, .client (by decide) ⟨fun _ => true, _, st',
    .proxied _ rfl [logAt 1 "a"] rfl [(0, [logAt 1 "a", logAt 1 "a"])] (by decide), ?_, rfl⟩, by decide, by decide⟩
  exact hst

/-- The documented promise of Send ("will not return until the data has been stored"), as
far as it holds: a node that serves a Send has stored every envelope of the request whose
source its own table gives it (once), and every envelope of a local-only request, by the
time it returns, beside everything it had.  The source stays below its capacity and below
the number of keys of one timestamp (C07, C08 say what happens above).  Missing: the
sources of other nodes, for which it is false (`C140_elsewhere_partial`, `C140_false`). -/
theorem C140_stored_partial {cfg : Config} (hc : 1 ≤ cfg.maxPerSource) {n : Nat}
    {lk : Nat → Str → List Nat} {evs : List CEvent} {c c' : Cluster} {i : Nat} {req : SendRequest}
    (h : CRun (newCluster cfg n lk) evs c) (hs : CStep c (.client i req) c') (src : Str)
    (hown : req.localOnly = true ∨ (c.lk i src).count i = 1)
    (hcap : ((((c.store i).envelopes src).length + (inRequest req src).length : Nat) : Int)
      ≤ cfg.maxPerSource)
    (hkeys : ((c.store i).envelopes src).length + (inRequest req src).length ≤ cfg.maxFudge + 1) :
    ((c'.store i).envelopes src).Perm ((c.store i).envelopes src ++ inRequest req src) := by
  have hk : 1 = if req.localOnly then 1 else (c.lk i src).count i := by
    rcases hown with h | h
    · simp [h]
    · rw [h]; simp
  have := C140_own_copies hc h hs src 1 hk (by simpa using hcap) (by simpa using hkeys)
  simpa only [List.replicate_one, List.flatMap_singleton'] using this

/-- Two nodes, the first owns the source and serves a request with two of its envelopes. -/
example : ∃ c c', CRun (newCluster { maxPerSource := 10 } 2 (fun _ _ => [0])) [] c ∧
    CStep c (.client 0 { envelopes := some [logAt 1 "a", logAt 1 "b"], localOnly := false }) c' ∧
    (c.lk 0 []).count 0 = 1 ∧
    ((((c.store 0).envelopes []).length +
      (inRequest { envelopes := some [logAt 1 "a", logAt 1 "b"], localOnly := false } []).length : Nat) : Int)
      ≤ 10 := by
  obtain ⟨st', hst⟩ := putAll_total (cfg := { maxPerSource := 10 }) (by decide) (.nil _)
    (localPuts { envelopes := some [logAt 1 "a", logAt 1 "b"], localOnly := true })
  refine ⟨_, _, .nil _, .client (by decide) ⟨fun _ => true, _, st',
    .proxied _ rfl [logAt 1 "a", logAt 1 "b"] rfl [(0, [logAt 1 "a", logAt 1 "b"])] (by decide), ?_, rfl⟩,
    by decide, by decide⟩
  exact hst

/-- For a source the serving node does not list itself for, a Send that is not local-only
returns with nothing stored on any node: the envelopes are in the buffers of the batched
clients, once per listed node. -/
theorem C140_elsewhere_partial {cfg : Config} (hc : 1 ≤ cfg.maxPerSource) {n : Nat}
    {lk : Nat → Str → List Nat} {evs : List CEvent} {c c' : Cluster} {i : Nat} {req : SendRequest}
    (h : CRun (newCluster cfg n lk) evs c) (hs : CStep c (.client i req) c') (src : Str)
    (hl : req.localOnly = false) (hown : i ∉ c.lk i src) :
    (∀ k, (c'.store k).envelopes src = (c.store k).envelopes src) ∧
    ∀ b, b ≠ i → ∃ more, c'.queue i b = c.queue i b ++ more ∧
      more.filter (fun e => e.sourceId = src) =
        (inRequest req src).flatMap (fun e => List.replicate ((c.lk i src).count b) e) := by
  obtain ⟨ops, hr, -⟩ := crun_puts h i
  cases hs with
  | client hi hh =>
    obtain ⟨res, st', -, -, e3, e4, e5, e6, -, e8⟩ := handle_spec hh
    obtain ⟨batch, hb, hb2⟩ := e8 hl
    have hsrc : ∀ b, (sentTo res b).filter (fun e => e.sourceId = src) =
        (inRequest req src).flatMap (fun e => List.replicate ((c.lk i src).count b) e) := by
      intro b
      rw [hb2 b, filter_flatMap_copies batch (fun s => (c.lk i s).count b) src]
      simp [inRequest, hb]
    refine ⟨?_, ?_⟩
    · intro k
      by_cases hk : k = i
      · subst hk
        have h0 : (sentTo res k).filter (fun e => e.sourceId = src) = [] := by
          rw [hsrc k, List.count_eq_zero.2 hown]
          simp
        rw [e3]
        have hno : ∀ p ∈ (sentTo res k).map (fun e => (e.sourceId, e)), p.1 ≠ src := by
          intro p hp hps
          obtain ⟨e, he, rfl⟩ := List.mem_map.1 hp
          have : e ∈ (sentTo res k).filter (fun e => e.sourceId = src) :=
            List.mem_filter.2 ⟨he, by simpa using hps⟩
          rw [h0] at this; cases this
        clear e3 h0 hsrc hb2 e8 hh e4 e6
        revert hno hr
        generalize (sentTo res k).map (fun e => (e.sourceId, e)) = l at e5
        generalize c.store k = st at e5
        intro hr hno
        revert ops
        induction e5 with
        | nil => intros; rfl
        | @cons st st1 st2 p rest now hput _ ih =>
          intro ops hr
          obtain ⟨hi, hcfg⟩ := run_inv hc hr
          obtain ⟨f, hf⟩ := put_spec hi.idx hput
          have he : st1.envelopes src = st.envelopes src := by
            unfold Store.envelopes
            rw [entries_other hf (fun h => hno p (by simp) h.symm)]
          rw [← he]
          exact ih (fun q hq => hno q (by simp [hq])) _ (hr.snoc (op := .put now p.1 p.2) trivial hput)
      · rw [e4 k hk]
    · intro b hb'
      exact ⟨sentTo res b, by rw [e6]; simp [hb'], hsrc b⟩

/-- Two nodes agree that a source belongs to node 1.  A Send of one of its envelopes to
node 0 returns without an error, and the envelope is on no node; then the buffer loses it,
and it never will be.  (The hypotheses of `C140_elsewhere_partial` hold of the first step.) -/
theorem C140_false : ∃ (lk : Nat → Str → List Nat) (req : SendRequest) (e : Envelope) (c c' c'' : Cluster),
    (∀ j src, lk j src = [1]) ∧ req.envelopes = some [e] ∧ req.localOnly = false ∧
    CRun (newCluster { maxPerSource := 10 } 2 lk) [] c ∧ CStep c (.client 0 req) c' ∧
    IngressSend (c.lk 0) c.n 0 (fun _ => true) req
      (some { sends := [(1, { envelopes := some [e], localOnly := true })], ok := true }) ∧
    (∀ k src, (c'.store k).envelopes src = []) ∧
    CStep c' (.lose 0 1) c'' ∧ (∀ k src, (c''.store k).envelopes src = []) ∧
    ∀ a b, c''.queue a b = [] := by
  have hsend : IngressSend (fun _ => [1]) 2 0 (fun _ => true)
      { envelopes := some [logAt 1 "a"], localOnly := false }
      (some { sends := [(1, { envelopes := some [logAt 1 "a"], localOnly := true })], ok := true }) :=
    .proxied _ rfl [logAt 1 "a"] rfl [(1, [logAt 1 "a"])] (by decide)
  have hempty : ∀ src, (newStore { maxPerSource := 10 }).envelopes src = [] := fun _ => rfl
  refine ⟨fun _ _ => [1], _, logAt 1 "a", _, _, _, fun _ _ => rfl, rfl, rfl, .nil _,
    .client (by decide) ⟨fun _ => true, _, _, hsend, .nil _, rfl⟩, hsend, ?_,
    .lose (q := []) (List.nil_sublist _), ?_, ?_⟩
  · intro k src; simp [newCluster, hempty]
  · intro k src; simp [newCluster, hempty]
  · intro a b
    by_cases h : a = 0 ∧ b = 1
    · simp [h]
    · simp only [if_neg h]
      by_cases h2 : a = 0 ∧ b ≠ 0
      · have hb : ¬ (1 = b) := fun hb => h ⟨h2.1, hb.symm⟩
        simp [h2, sentTo, newCluster, hb]
      · simp [h2, newCluster]

end LogCache
