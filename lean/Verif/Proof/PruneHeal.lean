import Verif.Proof.PruneCrash
import Verif.Props.Heal
/-! # What a store that has pruned holds later -/
namespace LogCache
open Spec

theorem run_comp {st0 st1 st2 : Store} {ops1 ops2 : List Op} (h1 : Run st0 ops1 st1) (h2 : Run st1 ops2 st2) :
    Run st0 (ops1 ++ ops2) st2 := by
  induction h2 with
  | nil => rw [List.append_nil]; exact h1
  | snoc _ hv hx ih => rw [← List.append_assoc]; exact ih.snoc hv hx

/-- From a time on at which nothing is pruned, a store has all that is put, beside what it had. -/
theorem spread_after {cfg : Config} (hc : 1 ≤ cfg.maxPerSource) {ops1 ops2 : List Op} {st1 st : Store}
    (h1 : Run (newStore cfg) ops1 st1) (h2 : Run st1 ops2 st) (hn : NoPrune ops2) (src : Str)
    (hsp : Spread (putsOf (ops1 ++ ops2) src))
    (hfew : ∀ ts, howMany (putsOf (ops1 ++ ops2) src) ts ≤ cfg.maxFudge)
    (hlen : ((putsOf (ops1 ++ ops2) src).length : Int) ≤ cfg.maxPerSource) :
    (st.envelopes src).Perm (st1.envelopes src ++ putsOf ops2 src) := by
  induction h2 with
  | nil => simpa [putsOf] using List.Perm.refl _
  | @snoc st st' ops2 op hr hv hx ih =>
    have hn' : NoPrune ops2 := fun o ho => hn o (by simp [ho])
    rw [← List.append_assoc, putsOf_append] at hsp hlen hfew
    have ih := ih hn' (spread_prefix hsp) (fun ts => by have := hfew ts; rw [howMany_append] at this; omega)
      (by rw [List.length_append] at hlen; omega)
    have hrun := run_comp h1 hr
    have hi := (run_inv hc hrun).1
    rw [putsOf_append]
    cases op with
    | put now s e =>
      rw [putsOf_put] at hsp hlen hfew ⊢
      by_cases hs : s = src
      · subst hs
        rw [if_pos rfl] at hsp hlen hfew ⊢
        have hf := hfew e.timestamp
        rw [howMany_append] at hf
        have h1 : howMany [e] e.timestamp = 1 := by simp [howMany]
        have hp := C07_spread_partial hc hrun hsp (by omega) hx
        rw [List.length_append, List.length_singleton] at hlen
        have hle : (st.envelopes s).length ≤ (putsOf (ops1 ++ ops2) s).length := by
          obtain ⟨r, hr⟩ := stored_sub_put hc hrun s
          have := hr.length_eq
          rw [List.length_append] at this
          omega
        rw [if_neg (by omega)] at hp
        rw [← List.append_assoc]
        exact hp.trans ((ih.cons e).trans (List.perm_append_singleton _ _).symm)
      · rw [if_neg hs, List.append_nil]
        obtain ⟨f, hf⟩ := put_spec hi.idx hx
        unfold Store.envelopes at ih ⊢
        rw [entries_other hf (fun h => hs h.symm)]; exact ih
    | truncate now mc o =>
      have := hn _ (by simp : Op.truncate now mc o ∈ ops2 ++ [Op.truncate now mc o])
      cases this
    | get s a =>
      simp only [Op.exec, Option.some.injEq] at hx
      subst hx
      rw [putsOf_get, List.append_nil]
      unfold Store.envelopes at ih ⊢
      rw [entries_getState]; exact ih

/-- What a step puts into the store of a node that does not crash. -/
theorem xstep_puts {cfg : Config} {L : Str → List Nat} {evs : List XEvent} {ev : XEvent} {c1 c2 : Cluster} {k : Nat}
    (hs : XStep cfg c1 ev c2) (hlk : c1.lk = (booksOf L k evs).lk) (hup : ∀ lost, ev ≠ .crash k lost) :
    ∃ l, (booksOf L k (evs ++ [ev])).kept = (booksOf L k evs).kept ++ l ∧
      PutAll (c1.store k) (l.map fun e => (e.sourceId, e)) (c2.store k) := by
  rw [books_snoc]
  cases hs with
  | @client _ j req hs =>
    obtain ⟨-, -, -, e4⟩ := step_client hs k
    rw [hlk] at e4
    refine ⟨_, ?_, e4⟩
    simp only [Books.note]
    split <;> simp
  | @deliver _ j i batch hs =>
    obtain ⟨-, -, -, e4⟩ := step_deliver hs k
    refine ⟨_, ?_, e4⟩
    simp only [Books.note]
    split <;> simp
  | @drop j i lost q hj hji hpq hsub =>
    refine ⟨[], ?_, .nil _⟩
    simp only [Books.note]
    split <;> simp
  | @retable _ i l hs =>
    cases hs
    exact ⟨[], by simp [Books.note], .nil _⟩
  | @crash i hi =>
    have hik : i ≠ k := by
      rintro rfl
      exact hup _ rfl
    refine ⟨[], by simp [Books.note, hik], ?_⟩
    have : ¬ k = i := fun h => hik h.symm
    simp only [this, if_false]
    exact .nil _

theorem prune_last {cfg : Config} {c0 c : Cluster} {evs : List PruneEvent} {ev : PruneEvent}
    (h : PruneRun cfg c0 (evs ++ [ev]) c) : ∃ c1, PruneRun cfg c0 evs c1 ∧ PruneStep cfg c1 ev c := by
  generalize he : evs ++ [ev] = l at h
  cases h with
  | nil => simp at he
  | snoc h1 hs =>
    obtain ⟨rfl, h2⟩ := List.append_inj' he rfl
    injection h2 with h2
    subst h2
    exact ⟨_, h1, hs⟩

/-- A run in which nothing is pruned is one without pruning. -/
theorem prune_only {cfg : Config} {c0 c : Cluster} {evs : List XEvent} (h : PruneRun cfg c0 (evs.map .step) c) :
    XRun cfg c0 evs c := by
  induction hn : evs.length generalizing evs c with
  | zero =>
    rw [List.length_eq_zero_iff] at hn
    subst hn
    generalize he : ([] : List XEvent).map PruneEvent.step = l at h
    cases h with
    | nil => exact .nil _
    | snoc h1 hs => simp at he
  | succ m ih =>
    have hne : evs ≠ [] := by intro h0; rw [h0] at hn; simp at hn
    obtain ⟨init, ev, rfl⟩ : ∃ init ev, evs = init ++ [ev] := ⟨_, _, (List.dropLast_append_getLast hne).symm⟩
    rw [List.map_append] at h
    obtain ⟨c1, h1, hs⟩ := prune_last h
    cases hs with
    | step hs => exact (ih h1 (by simpa using hn)).snoc hs

/-- The history of the store of a node that has not crashed since nothing is pruned. -/
theorem prune_tail {cfg : Config} (hc : 1 ≤ cfg.maxPerSource) {n : Nat} {L : Str → List Nat}
    {pre : List PruneEvent} {post : List XEvent} {c : Cluster}
    (h : PruneRun cfg (newCluster cfg n (fun _ => L)) (pre ++ post.map .step) c) (k : Nat)
    (hup : ∀ lost, XEvent.crash k lost ∉ post) :
    ∃ ops1 ops2 st1 l, Run (newStore cfg) ops1 st1 ∧ Run st1 ops2 (c.store k) ∧ NoPrune ops2 ∧
      (booksOf L k (stepsOf pre ++ post)).kept = (booksOf L k (stepsOf pre)).kept ++ l ∧
      (∀ src, putsOf ops1 src = (booksOf L k (stepsOf pre)).kept.filter (fun e => e.sourceId = src)) ∧
      ∀ src, putsOf ops2 src = l.filter (fun e => e.sourceId = src) := by
  induction hn : post.length generalizing post c with
  | zero =>
    rw [List.length_eq_zero_iff] at hn
    subst hn
    simp only [List.map_nil, List.append_nil] at h ⊢
    obtain ⟨-, hb⟩ := prune_books hc h
    obtain ⟨ops, h1, h2⟩ := hb k
    exact ⟨ops, [], _, [], h1, .nil _, (fun _ h => by cases h), by simp, h2, fun _ => rfl⟩
  | succ m ih =>
    have hne : post ≠ [] := by intro h0; rw [h0] at hn; simp at hn
    obtain ⟨init, ev, rfl⟩ : ∃ init ev, post = init ++ [ev] := ⟨_, _, (List.dropLast_append_getLast hne).symm⟩
    rw [List.map_append, ← List.append_assoc] at h
    obtain ⟨c1, h1, hs⟩ := prune_last h
    obtain ⟨ops1, ops2, st1, l, g1, g2, g3, g4, g5, g6⟩ := ih h1 (fun lost hm => hup lost (List.mem_append_left _ hm))
      (by simpa using hn)
    obtain ⟨⟨s0, hx⟩, -⟩ := prune_books hc h1
    have hst : stepsOf (pre ++ init.map .step) = stepsOf pre ++ init := by
      have := stepsOf_step init
      unfold stepsOf at this ⊢
      rw [List.filterMap_append, this]
    rw [hst] at hx
    cases hs with
    | step hs =>
      obtain ⟨l', k1, k2⟩ := xstep_puts hs (books_right hx k).2.1
        (fun lost he => hup lost (by rw [← he]; simp))
      obtain ⟨ops', p1, p2, p3⟩ := putAll_run g2 k2
      refine ⟨ops1, ops2 ++ ops', st1, l ++ l', g1, p1, ?_, ?_, g5, fun src => ?_⟩
      · intro op ho
        rcases List.mem_append.1 ho with ho | ho
        · exact g3 op ho
        · exact p3 op ho
      · rw [← List.append_assoc, k1, g4, List.append_assoc]
      · rw [putsOf_append, g6, p2, List.filter_append]
        congr 1
        rw [List.filter_map, List.map_map]
        have : (Prod.snd ∘ fun e : Envelope => (e.sourceId, e)) = id := rfl
        rw [this, List.map_id]; rfl

end LogCache
