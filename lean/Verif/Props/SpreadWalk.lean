import Verif.Props.Walk
import Verif.Props.Spread
/-!
# Walks over envelopes some of which have the same time (C45)
-/
namespace LogCache
open Spec

/-- As `C45_store_partial`, for envelopes that may have the same time, as long as those times are
spread out and one read has room for everything stored for the source. -/
theorem C45_spread_partial {cfg : Config} (hc : 1 ≤ cfg.maxPerSource) {ops : List Op} {st : Store}
    (hrun : Run (newStore cfg) ops st) {src : Str} (hs : Spread (putsOf ops src))
    {β : Type} {bo : Backoff β} {c : WalkCfg} {b : β} {stop : Int}
    (hstop : c.stop = some stop) (h0 : stop ≠ 0)
    (hroom : ((st.envelopes src).length : Int) < (if c.limit.getD 0 = 0 then 100 else c.limit.getD 0))
    (compile : Str → Option (Str → Bool))
    {tr : List (WalkIn × Option (List Envelope))} {r : Option (WalkState β)}
    (h : WalkRun bo c src (StoreReader compile st c.delay) (walkInit c b) tr r) :
    ∃ whole, whole = answer c.start stop (requestedTypes (c.types.getD []))
        (if c.nameFilter = [] then none else compile c.nameFilter) (st.envelopes src) ∧
    (delivered tr).flatten <+: whole ∧
    (r = none → (∃ es now more v, tr.getLast? = some (.got es now more, v)) →
      (delivered tr).flatten = whole) ∧
    ((∀ x ∈ tr, ∃ es now more, x.1 = .got es now more) → (∀ b, (bo.onEmpty b).2 = false) →
      tr.length ≤ whole.length + 1) := by
  have hsort : (st.envelopes src).Pairwise (fun x y => x.timestamp ≤ y.timestamp) :=
    near_ordered (spread_near hc hrun src hs) hs (idxEntries_sorted (run_inv hc hrun).1.idx src)
  refine ⟨_, rfl, ?_⟩
  obtain ⟨h1, h2, h3⟩ := walk_complete
    (pages_answer hsort stop (requestedTypes (c.types.getD []))
      (if c.nameFilter = [] then none else compile c.nameFilter)) hstop (by
    intro s es now more he
    obtain ⟨⟨t, hread⟩, hm, hold⟩ := he
    obtain ⟨a, hg, a1, a2, a3, a4, a5, a6, a7⟩ := localRead_ok hread
    simp only [walkRequest, hstop, Option.getD_some, if_neg h0] at a1 a2 a3 a4 a7
    have hres := (C03_spread_all_partial hc hrun hs (a6.trans rfl) (by rw [a4]; exact hroom) hg).1
    rw [a1, a2, a3, a7] at hres
    refine ⟨⟨[], by rw [← hres, List.append_nil], fun _ => rfl, by simp⟩, hm, ?_⟩
    intro e he
    unfold answer at he
    obtain ⟨he, -⟩ := List.mem_filter.1 he
    obtain ⟨o, ho, hp⟩ := List.mem_filterMap.1 he
    rw [project_ts hp]
    exact hold o (List.mem_filter.1 ho).1) h
  exact ⟨h1, h2, fun a b => (h3 a b).1⟩

/-- Three envelopes, two of which have the same time. -/
example : ∃ tr, Run (newStore { maxPerSource := 10 }) (puts [("a", logAt 1 "p"), ("a", logAt 1 "q"), ("a", logAt 5)])
      (after { maxPerSource := 10 } [("a", logAt 1 "p"), ("a", logAt 1 "q"), ("a", logAt 5)]) ∧
    Spread (putsOf (puts [("a", logAt 1 "p"), ("a", logAt 1 "q"), ("a", logAt 5)]) "a".toList) ∧
    WalkRun alwaysDone { stop := some 20, limit := some 4 } "a".toList
      (StoreReader (fun _ => none)
        (after { maxPerSource := 10 } [("a", logAt 1 "p"), ("a", logAt 1 "q"), ("a", logAt 5)]) 1000000000)
      (walkInit { stop := some 20, limit := some 4 } ()) tr none ∧
    delivered tr = [[logAt 1 "p", logAt 1 "q", logAt 5]] ∧ tr.length = 2 :=
  ⟨[(.got [logAt 1 "p", logAt 1 "q", logAt 5] 2000000000 true, some [logAt 1 "p", logAt 1 "q", logAt 5]),
      (.got [] 2000000000 true, none)],
    run_after (by decide), by unfold Spread; decide,
    .step ⟨⟨0, rfl⟩, rfl, by decide⟩ rfl (.done ⟨⟨0, rfl⟩, rfl, by decide⟩ rfl), rfl, rfl⟩

end LogCache
