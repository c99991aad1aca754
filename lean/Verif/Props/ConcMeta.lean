import Verif.Proof.ConcMeta
import Verif.Props.Conc
/-!
# C98, C99: Meta beside other calls

`evs = pre ++ .metaRes i r :: post`: Meta call `i` answers `r`; `pre` is what happened before.
-/
namespace LogCache
open Spec

/-! ## C98 -/

/-- Full statement: every line of the answer of Meta was true of its source at one moment
while the call ran, and the source held envelopes then.  Missing: the count may be taken
later than the rest (`C98_mixed_false`), and a source may be listed while its first Put is
on its way (`C98_empty_false`).  Proved: each source is listed once; oldest, newest and
expired were right at one moment `s1` of the call; the count was right at a later moment
`s2` of the call. -/
theorem C98_meta_partial {cfg : Config} (hc : 1 ≤ cfg.maxPerSource) {evs : List Ev} {s : Conc} (h : CRun cfg evs s)
    {pre post : List Ev} {i : Nat} {r : List (Str × MetaInfo)} (he : evs = pre ++ .metaRes i r :: post) :
    (r.map Prod.fst).Nodup ∧
    ∀ k m, (k, m) ∈ r → ∃ p q q' s1 s2 s3, pre = p ++ q ++ q' ∧ Ev.call i .metaAll ∈ p ∧
      CRun cfg p s1 ∧ CSteps s1 q s2 ∧ CSteps s2 q' s3 ∧
      Describes cfg p s1 k m ∧ m.count = (storedAt s2 k).length := by
  obtain ⟨evs0, es1, es2, s0, s', hr, hs, rfl⟩ := crun_split h he
  have key : s0.threads[i]? = some (.meta2 [] r) ∧ es1 = [] := by
    generalize hx : es1 ++ Ev.metaRes i r :: es2 = x at hs
    cases hs
    case metaEnd =>
      cases es1 with
      | nil => simp at hx; obtain ⟨⟨rfl, rfl⟩, -⟩ := hx; exact ⟨by assumption, rfl⟩
      | cons y l =>
        simp at hx
        obtain ⟨-, hx⟩ := hx
        cases l <;> simp at hx
    all_goals first
      | (exfalso; have h1 := congrArg List.length hx; cases es1 <;> simp at hx h1; done)
      | (exfalso; cases es1 with
          | nil => simp at hx
          | cons y l => cases l <;> simp at hx)
  obtain ⟨ht, rfl⟩ := key
  obtain ⟨-, h2, -, h4⟩ := crun_metaOk hc hr i _ ht
  refine ⟨by simpa using h2, ?_⟩
  intro k m hm
  obtain ⟨p2, q2, s2, rfl, -, g3, g4, hcnt, p, q, s1, rfl, f2, f3, f4, f5⟩ := h4 k m hm
  exact ⟨p, q, q2, s1, s2, s0, by simp, f2, f3, f4, g4, f5, hcnt⟩

/-- Meta, beside a Put to `a` that takes effect after Meta copied the entry of `a`. -/
def mixedMoves : List Move :=
  putMoves 0 srcA 1 ++ [.call .metaAll, .go 1, .visit 1 srcA, .rangeEnd 1] ++ putMoves 2 srcA 2 ++ [.go 1, .go 1]

def mixedEvs : List Ev :=
  [.call 0 (.put srcA (logAt 1)), .commit 0 srcA (logAt 1) 10, .ret 0, .call 1 .metaAll,
    .call 2 (.put srcA (logAt 2)), .commit 2 srcA (logAt 2) 10, .ret 2,
    .metaRes 1 [(srcA, { count := 2, oldest := 1, newest := 1 })], .ret 1]

theorem mixed_run : CRun five mixedEvs (execRun five mixedMoves).2 := exec_run rfl

/-- Two envelopes, the newest of them at 1: the answer was true at no moment. -/
theorem C98_mixed_false : ∃ evs s i k m, CRun five evs s ∧ Ev.metaRes i [(k, m)] ∈ evs ∧
    ∀ p q s1, evs = p ++ q → CRun five p s1 → Describes five p s1 k m → m.count ≠ (storedAt s1 k).length := by
  refine ⟨mixedEvs, _, 1, srcA, { count := 2, oldest := 1, newest := 1 }, mixed_run, by simp [mixedEvs], ?_⟩
  intro p q s1 he hr hd hcnt
  have hi := crun_inv (by decide) hr
  have hall : committed mixedEvs srcA = [logAt 1, logAt 2] := by decide +kernel
  rw [he, committed_append] at hall
  unfold storedAt at hcnt
  cases hx : s1.index.lookup srcA with
  | none => rw [hx] at hcnt; simp at hcnt
  | some a =>
    rw [hx] at hcnt
    cases ho : s1.heap[a]? with
    | none => simp [ho] at hcnt
    | some o =>
      simp only [ho] at hcnt
      obtain ⟨rest, hp⟩ := crun_sub (by decide) hr a o ho
      have hsrc : o.storage.sourceId = srcA := points_fun ⟨_, ho, rfl⟩ (hi.addr _ (lookup_mem hx))
      rw [hsrc, ← committed_eq] at hp
      have hl := hp.length_eq
      rw [List.length_append, List.length_map] at hl
      have hl2 := congrArg List.length hall
      rw [List.length_append] at hl2
      simp only [List.length_cons, List.length_nil] at hl2
      have hrest : rest = [] := List.eq_nil_of_length_eq_zero (by omega)
      have hq : committed q srcA = [] := List.eq_nil_of_length_eq_zero (by omega)
      rw [hq, List.append_nil] at hall
      rw [hrest, List.append_nil, hall] at hp
      have hm : logAt 2 ∈ o.storage.tree.toList.map Prod.snd := hp.mem_iff.2 (by simp)
      obtain ⟨x, hx', hxe⟩ := List.mem_map.1 hm
      have := hd.newest x (by rw [storedAt_of hx ho]; exact hx')
      rw [hxe] at this
      revert this
      decide

/-- Meta lists a source to which nothing was ever put: a Put to it is on its way. -/
theorem C98_empty_false : ∃ evs s i k m, CRun five evs s ∧ Ev.metaRes i [(k, m)] ∈ evs ∧
    m.count = 0 ∧ committed evs k = [] := by
  refine ⟨[.call 0 (.put srcA (logAt 1)), .call 1 .metaAll, .metaRes 1 [(srcA, {})], .ret 1], _, 1, srcA, {},
    exec_run (ms := [.call (.put srcA (logAt 1)), .go 0, .call .metaAll, .go 1, .visit 1 srcA, .rangeEnd 1, .go 1, .go 1]) rfl,
    by simp, rfl, rfl⟩

/-- Two sources, the second put while Meta runs; both are in the answer. -/
example : ∃ evs s pre post r, CRun five evs s ∧ evs = pre ++ .metaRes 1 r :: post ∧ r.length = 2 := by
  refine ⟨_, _, [.call 0 (.put srcA (logAt 1)), .commit 0 srcA (logAt 1) 10, .ret 0, .call 1 .metaAll,
    .call 2 (.put srcB (logAt 2)), .commit 2 srcB (logAt 2) 10, .ret 2], [.ret 1],
    [(srcA, { count := 1, oldest := 1, newest := 1 }), (srcB, { count := 1, oldest := 2, newest := 2 })],
    exec_run (ms := putMoves 0 srcA 1 ++ [.call .metaAll, .go 1, .visit 1 srcA] ++ putMoves 2 srcB 2 ++
      [.visit 1 srcB, .rangeEnd 1, .go 1, .go 1, .go 1]) rfl, rfl, rfl⟩

/-! ## C99 -/

theorem threads_grow {s s' : Conc} {evs : List Ev} (h : CSteps s evs s') :
    s.threads.length ≤ s'.threads.length ∧ ∀ i c, Ev.call i c ∈ evs → s.threads.length ≤ i := by
  induction h with
  | refl => simp
  | @step s' s'' evs evs' h hs ih =>
    obtain ⟨h1, h2⟩ := ih
    have key : s'.threads.length ≤ s''.threads.length ∧ ∀ i c, Ev.call i c ∈ evs' → i = s'.threads.length := by
      cases hs <;> simp [Conc.goto, Conc.pruneEnd]
      case putLookup => unfold Conc.getOrInit; split <;> simp
    refine ⟨by omega, ?_⟩
    intro i c hm
    rcases List.mem_append.1 hm with hm | hm
    · exact h2 i c hm
    · rw [key.2 i c hm]; exact h1

/-- A source that holds envelopes when Meta is called is in its answer, unless a prune has
dropped it in the meantime. -/
theorem C99_meta_complete {cfg : Config} (hc : 1 ≤ cfg.maxPerSource) {evs : List Ev} {s0 s : Conc} (h : CRun cfg evs s0)
    {k : Str} (hk : storedAt s0 k ≠ []) {pre post : List Ev} {i : Nat} {r : List (Str × MetaInfo)}
    (hq : CSteps s0 (pre ++ .metaRes i r :: post) s) (hcall : Ev.call i .metaAll ∈ pre)
    (hd : NeverDropped pre k) : k ∈ r.map Prod.fst := by
  have hidx : ∃ a, (k, a) ∈ s0.index := by
    unfold storedAt at hk
    cases hx : s0.index.lookup k with
    | none => rw [hx] at hk; exact absurd rfl hk
    | some a => exact ⟨a, lookup_mem hx⟩
  obtain ⟨a, ha⟩ := hidx
  have hlen := (threads_grow hq).2 i _ (List.mem_append_left _ hcall)
  obtain ⟨evs0, es1, es2, s1, s2, hr, hs, rfl⟩ := csteps_split hq rfl
  have key : s1.threads[i]? = some (.meta2 [] r) := by
    generalize hx : es1 ++ Ev.metaRes i r :: es2 = x at hs
    cases hs
    case metaEnd =>
      cases es1 with
      | nil => simp at hx; obtain ⟨⟨rfl, rfl⟩, -⟩ := hx; assumption
      | cons y l =>
        simp at hx
        obtain ⟨-, hx⟩ := hx
        cases l <;> simp at hx
    all_goals first
      | (exfalso; have h1 := congrArg List.length hx; cases es1 <;> simp at hx h1; done)
      | (exfalso; cases es1 with
          | nil => simp at hx
          | cons y l => cases l <;> simp at hx)
  have := (csteps_hasSource hr ha hlen (neverDropped_left hd)).2 _ key
  simpa [HasSource] using this

theorem execFrom_steps {ms : List Move} {evs evs' : List Ev} {s0 s s' : Conc} (h : CSteps s0 evs s)
    (he : execFrom evs s ms = some (evs', s')) : CSteps s0 evs' s' := by
  induction ms generalizing evs s with
  | nil => cases he; exact h
  | cons m ms ih =>
    unfold execFrom at he
    split at he
    · cases he
    · next hx => exact ih (h.step (exec_sound hx)) he

def metaMoves : List Move := [.call .metaAll, .go 2, .visit 2 srcA, .visit 2 srcB, .rangeEnd 2, .go 2, .go 2, .go 2]

/-- `a` and `b` hold envelopes, the Meta that is called then answers both. -/
example : ∃ evs s0 s pre post r, CRun five evs s0 ∧ storedAt s0 srcA ≠ [] ∧
    CSteps s0 (pre ++ .metaRes 2 r :: post) s ∧ Ev.call 2 .metaAll ∈ pre ∧ NeverDropped pre srcA :=
  ⟨_, (execRun five twoPuts).2, (execRun five (twoPuts ++ metaMoves)).2, [.call 2 .metaAll], [.ret 2],
    [(srcA, { count := 1, oldest := 1, newest := 1 }), (srcB, { count := 1, oldest := 2, newest := 2 })],
    execRun_sound five twoPuts, by decide +kernel, execFrom_steps (ms := metaMoves) (.refl _) rfl, by simp, by intro j; simp⟩

end LogCache
