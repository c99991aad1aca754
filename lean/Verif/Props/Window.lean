import Verif.Spec.Window
import Verif.Props.Walk

/-!
# Windows over a growing log, and contexts that end (C144, C145)
-/

namespace LogCache
open Spec

theorem windowStep_some {c : WindowCfg} {s s' : Int} {more : Bool} (h : windowStep c s more = some s') :
    more = true ∧ s' = s + c.interval := by
  unfold windowStep at h
  split at h
  · rename_i hm; cases h; exact ⟨hm, rfl⟩
  · cases h

/-- The `k`-th walk of a run of `Window` is over the `k`-th window. -/
theorem window_calls {c : WindowCfg} {src : Str} {env : Int → ReadRequest → WalkIn → Prop} {b : Int} {vs : List Visit}
    {r : Option Int} (h : WindowRun c src env b vs r) : ∀ k v, vs[k]? = some v →
      WalkRun alwaysDone (windowWalk (windowCall b c.width c.interval k).1 (windowCall b c.width c.interval k).2) src
        (env v.began) (walkInit (windowWalk (windowCall b c.width c.interval k).1 (windowCall b c.width c.interval k).2) ())
        v.tr none := by
  induction h with
  | nil => simp
  | done h1 h2 =>
    intro k v hv
    cases k with
    | zero => cases hv; exact h1
    | succ k => simp at hv
  | step h1 h2 _ ih =>
    intro k v hv
    cases k with
    | zero => cases hv; exact h1
    | succ k =>
      obtain ⟨-, rfl⟩ := windowStep_some h2
      exact ih k v hv

/-- The `k`-th walk is over the `k`-th window, and when it begins that window has been over for at
least an interval. -/
theorem C144_over {c : WindowCfg} (hi : 0 ≤ c.interval) {src : Str} {env : Int → ReadRequest → WalkIn → Prop} {t0 : Int}
    (hs : ∀ s, c.start = some s → s ≤ t0 - c.width) {vs : List Visit} {r : Option Int}
    (h : WindowRun c src env (windowBegin c t0) vs r) (ht : OnTicks t0 c.interval vs) :
    ∀ (k : Nat) v, vs[k]? = some v → ∃ start stop, start = windowBegin c t0 + k * c.interval ∧ stop = start + c.width ∧
      WalkRun alwaysDone (windowWalk start stop) src (env v.began) (walkInit (windowWalk start stop) ()) v.tr none ∧
      stop + c.interval ≤ v.began := by
  intro k v hv
  have hcall := window_calls h k v hv
  rw [windowCall_eq] at hcall
  refine ⟨_, _, rfl, rfl, hcall, ?_⟩
  obtain ⟨m, m0, hm, hb⟩ := ht
  have hk : ∀ k, k + 1 ≤ m k := by
    intro k
    induction k with
    | zero => exact m0
    | succ k ih => have := hm k (k + 1) (by omega); omega
  have h1 := hb k v hv
  have h2 : ((k : Int) + 1) * c.interval ≤ m k * c.interval :=
    Int.mul_le_mul_of_nonneg_right (by have := hk k; omega) hi
  have h3 : windowBegin c t0 ≤ t0 - c.width := by
    unfold windowBegin
    cases h : c.start with
    | none => simp
    | some s => exact hs s h
  rw [Int.add_mul] at h2
  omega

/-- One window of a growing log whose envelopes are all there by then. -/
theorem window_walk {all : List Envelope} (hall : all.Pairwise (fun x y => x.timestamp ≤ y.timestamp))
    {seen : Int → Envelope → Bool} {s stop began : Int} {src : Str}
    (hfit : all.Pairwise (fun x y => x.timestamp < y.timestamp) ∨ (between s stop all).length ≤ 100)
    {tr : List (WalkIn × Option (List Envelope))}
    (hseen : ∀ e ∈ all, e.timestamp < stop → ∀ t, began ≤ t → seen t e = true) (hd : stop + 1000000000 ≤ began)
    (h : WalkRun alwaysDone (windowWalk s stop) src (GrowingReader all seen began) (walkInit (windowWalk s stop) ()) tr none)
    (hok : ∃ es now more d, tr.getLast? = some (.got es now more, d)) :
    (delivered tr).flatten = between s stop all := by
  have hr : WalkRun alwaysDone (windowWalk s stop) src (GroupReader (between s stop all) 1000000000)
      (walkInit (windowWalk s stop) ()) tr none := by
    have key : ∀ s', s ≤ s' → ∀ i, GrowingReader all seen began (walkRequest (windowWalk s stop) src s') i →
        GroupReader (between s stop all) 1000000000 (walkRequest (windowWalk s stop) src s') i := by
      intro s' hss i hi
      cases i with
      | failed => trivial
      | got es now more =>
        obtain ⟨hm, t, h1, h2, h3⟩ := hi
        refine ⟨?_, hm, ?_⟩
        · have hsame : between s' stop (all.filter (seen t)) = between s' stop (between s stop all) := by
            unfold between
            rw  [List.filter_filter, List.filter_filter]
            apply List.filter_congr
            intro e he
            by_cases hw : e.timestamp < stop
            · rw [hseen e he hw t h1]
              by_cases h5 : s' ≤ e.timestamp
              · have : s ≤ e.timestamp := by omega
                simp [hw, h5, this]
              · simp [h5]
            · simp [hw]
          simp only [walkRequest, windowWalk, Option.getD_some] at h3 ⊢
          rw [hsame] at h3
          show WholeGroups es (between s' stop (between s stop all))
          rcases hfit with hd | hl
          · rw [h3]
            exact wholeGroups_take ((hd.sublist List.filter_sublist).sublist List.filter_sublist) (by omega)
          · have hl' : (between s' stop (between s stop all)).length ≤ 100 :=
              Nat.le_trans (List.length_filter_le _ _) hl
            rw [List.take_of_length_le hl'] at h3
            exact ⟨[], by rw [h3, List.append_nil], fun _ => rfl, by simp⟩
        · intro e he
          have := (List.mem_filter.1 he).2
          simp only [Bool.and_eq_true, decide_eq_true_eq] at this
          omega
    suffices hg : ∀ (st : WalkState Unit) r, s ≤ st.start →
        WalkRun alwaysDone (windowWalk s stop) src (GrowingReader all seen began) st tr r →
        WalkRun alwaysDone (windowWalk s stop) src (GroupReader (between s stop all) 1000000000) st tr r from
      hg _ _ (Int.le_refl _) h
    clear h hok
    intro st r hst h
    induction h with
    | nil s => exact .nil s
    | done h1 h2 => exact .done (key _ hst _ h1) h2
    | @step st st' i v tr r h1 h2 h3 ih =>
      have h1' := key _ hst _ h1
      refine .step h1' h2 (ih ?_)
      cases v with
      | none => rw [(walkStep_idle h2).1]; exact hst
      | some d =>
        obtain ⟨es, now, more, last, rfl, rfl, hl, hn⟩ := walkStep_visit h2
        have hm : last ∈ es := (walkTrim_prefix _ _ _ _).subset (List.mem_of_getLast? hl)
        obtain ⟨⟨rest, hrest, -, -⟩, -, -⟩ := h1'
        have hm := List.mem_append_left rest hm
        rw [← hrest] at hm
        have hm := (Bool.and_eq_true_iff.1 (List.mem_filter.1 hm).2).1
        have hm : st.start ≤ last.timestamp := of_decide_eq_true hm
        split at hn
        · cases hn
        · cases hn
          show s ≤ last.timestamp + 1
          omega
  have hp : (between s stop all).Pairwise (fun x y => x.timestamp ≤ y.timestamp) := hall.sublist List.filter_sublist
  have := (C45_groups (c := windowWalk s stop) rfl hp hr).2.1 rfl hok
  rw [this]
  show between s stop (between s stop all) = _
  unfold between
  rw [List.filter_filter]
  apply List.filter_congr
  intro e _
  simp

theorem windows_growing {c : WindowCfg} (hw : c.width = c.interval) (hi : 1000000000 ≤ c.interval) {src : Str} {t0 : Int}
    (hs : ∀ s, c.start = some s → s ≤ t0 - c.width) {all : List Envelope} {seen : Int → Envelope → Bool}
    (hall : all.Pairwise (fun x y => x.timestamp ≤ y.timestamp))
    (hfit : all.Pairwise (fun x y => x.timestamp < y.timestamp) ∨
      ∀ k : Nat, (between (windowBegin c t0 + k * c.interval) (windowBegin c t0 + k * c.interval + c.interval) all).length ≤ 100)
    (hlate : ∀ e ∈ all, ∀ t, e.timestamp + c.interval ≤ t → seen t e = true)
    {vs : List Visit} {r : Option Int}
    (h : WindowRun c src (GrowingReader all seen) (windowBegin c t0) vs r) (ht : OnTicks t0 c.interval vs)
    (hok : WalksSucceed vs) :
    vs.flatMap Visit.batch = between (windowBegin c t0) (windowBegin c t0 + vs.length * c.interval) all := by
  have hover := C144_over (by omega) hs h ht
  suffices hg : ∀ b, WindowRun c src (GrowingReader all seen) b vs r →
      (all.Pairwise (fun x y => x.timestamp < y.timestamp) ∨
        ∀ k : Nat, (between (b + k * c.interval) (b + k * c.interval + c.interval) all).length ≤ 100) →
      (∀ (k : Nat) v, vs[k]? = some v → b + k * c.interval + c.width + c.interval ≤ v.began) →
      vs.flatMap Visit.batch = between b (b + vs.length * c.interval) all from hg _ h hfit fun k v hv => by
    obtain ⟨_, _, rfl, rfl, -, ho⟩ := hover k v hv
    exact ho
  clear h ht hover hfit
  intro b h
  have one : ∀ {b : Int} {v : Visit}, (all.Pairwise (fun x y => x.timestamp < y.timestamp) ∨
      ∀ k : Nat, (between (b + k * c.interval) (b + k * c.interval + c.interval) all).length ≤ 100) → b + c.width + c.interval ≤ v.began → (∃ es now more d, v.tr.getLast? = some (.got es now more, d)) →
      WalkRun alwaysDone (windowWalk b (b + c.width)) src (GrowingReader all seen v.began)
        (walkInit (windowWalk b (b + c.width)) ()) v.tr none → v.batch = between b (b + c.interval) all := by
    intro b v hf hb hv hr
    rw [← hw]
    exact window_walk hall (hf.imp id fun hf => by
      have := hf 0
      simp only [Int.natCast_zero, Int.zero_mul, Int.add_zero] at this
      rw [hw]; exact this) (fun e he hlt t ht => hlate e he t (by omega)) (by omega) hr hv
  induction h with
  | nil s =>
    intro _ _
    symm
    unfold between
    show List.filter _ _ = []
    rw [List.filter_eq_nil_iff]
    intro e _
    simp
  | @done s v h1 h2 =>
    intro hf hb
    have := hb 0 v rfl
    simp only [Int.natCast_zero, Int.zero_mul, Int.add_zero] at this
    rw [List.flatMap_cons, List.flatMap_nil, List.append_nil, one hf this (hok v List.mem_cons_self) h1]
    simp
  | @step s s' v vs r h1 h2 h3 ih =>
    intro hf hb
    have h0 := hb 0 v rfl
    simp only [Int.natCast_zero, Int.zero_mul, Int.add_zero] at h0
    obtain ⟨-, rfl⟩ := windowStep_some h2
    rw [List.flatMap_cons, one hf h0 (hok v List.mem_cons_self) h1,
      ih (fun v hv => hok v (List.mem_cons_of_mem _ hv)) (hf.imp id fun hf k => by
        have := hf (k + 1)
        rw [Int.natCast_succ, Int.add_mul, Int.one_mul, Int.add_comm (k * c.interval), ← Int.add_assoc] at this
        exact this) (by
        intro k v hv
        have := hb (k + 1) v (by rw [List.getElem?_cons_succ]; exact hv)
        simp only [Int.natCast_succ, Int.add_mul, Int.one_mul] at this ⊢
        omega)]
    have hn : (0 : Int) ≤ vs.length * c.interval := Int.mul_nonneg (by omega) (by omega)
    rw [List.length_cons, Int.natCast_succ, Int.add_mul, Int.one_mul, between_append hall (by omega) (by omega)]
    congr 1
    omega

/-- Windows as wide as their distance, of at least a second, over a growing log in which every
envelope can be read at the latest an interval after its timestamp and no window has more
envelopes than the server returns in one read, so that envelopes may have the same time:
together they deliver every envelope from the first start on exactly once, in order. -/
theorem C144_shared_partial {c : WindowCfg} (hw : c.width = c.interval) (hi : 1000000000 ≤ c.interval) {src : Str} {t0 : Int}
    (hs : ∀ s, c.start = some s → s ≤ t0 - c.width) {all : List Envelope} {seen : Int → Envelope → Bool}
    (hall : all.Pairwise (fun x y => x.timestamp ≤ y.timestamp))
    (hfew : ∀ k : Nat, (between (windowBegin c t0 + k * c.interval) (windowBegin c t0 + (k + 1) * c.interval) all).length ≤ 100)
    (hlate : ∀ e ∈ all, ∀ t, e.timestamp + c.interval ≤ t → seen t e = true)
    {vs : List Visit} {r : Option Int}
    (h : WindowRun c src (GrowingReader all seen) (windowBegin c t0) vs r) (ht : OnTicks t0 c.interval vs)
    (hok : WalksSucceed vs) :
    vs.flatMap Visit.batch = between (windowBegin c t0) (windowBegin c t0 + vs.length * c.interval) all :=
  windows_growing hw hi hs hall (.inr fun k => by
    have := hfew k
    rw [Int.add_mul, Int.one_mul, ← Int.add_assoc] at this
    exact this) hlate h ht hok

/-- Two envelopes of one time in one window. -/
example : ∃ vs, WindowRun { width := 60000000000 } [] (GrowingReader [logAt 40000000000 "p", logAt 40000000000 "q"] fun t e => decide (e.timestamp ≤ t))
      (windowBegin { width := 60000000000 } 90000000000) vs (some 90000000000) ∧
    OnTicks 90000000000 60000000000 vs ∧ WalksSucceed vs ∧
    vs.map Visit.batch = [[logAt 40000000000 "p", logAt 40000000000 "q"]] := by
  refine ⟨[⟨150000000000, [(.got [logAt 40000000000 "p", logAt 40000000000 "q"] 150000000000 true,
      some [logAt 40000000000 "p", logAt 40000000000 "q"]), (.got [] 150000000000 true, none)], true⟩],
    .step (.step ⟨rfl, 150000000000, by decide, by decide, by decide⟩ rfl (.done ⟨rfl, 150000000000, by decide, by decide, by decide⟩ rfl)) rfl
      (.nil _), ⟨fun k => k + 1, by decide, fun i j h => Nat.succ_lt_succ h, ?_⟩, ?_, rfl⟩
  · intro k v hv
    match k, hv with
    | 0, hv => simp at hv; subst hv; decide
  · intro v hv
    simp only [List.mem_cons, List.not_mem_nil, or_false] at hv
    subst hv
    exact ⟨_, _, _, _, rfl⟩

/-- Windows as wide as their distance, of at least a second, over a growing log with distinct
timestamps in which every envelope can be read at the latest an interval after its timestamp:
together they deliver every envelope from the first start on exactly once, in order. -/
theorem C144_growing_partial {c : WindowCfg} (hw : c.width = c.interval) (hi : 1000000000 ≤ c.interval) {src : Str} {t0 : Int}
    (hs : ∀ s, c.start = some s → s ≤ t0 - c.width) {all : List Envelope} {seen : Int → Envelope → Bool}
    (hall : all.Pairwise (fun x y => x.timestamp < y.timestamp))
    (hlate : ∀ e ∈ all, ∀ t, e.timestamp + c.interval ≤ t → seen t e = true)
    {vs : List Visit} {r : Option Int}
    (h : WindowRun c src (GrowingReader all seen) (windowBegin c t0) vs r) (ht : OnTicks t0 c.interval vs)
    (hok : WalksSucceed vs) :
    vs.flatMap Visit.batch = between (windowBegin c t0) (windowBegin c t0 + vs.length * c.interval) all :=
  windows_growing hw hi hs (hall.imp fun h => Int.le_of_lt h) (.inl hall) hlate h ht hok

/-- Two windows of a minute: an envelope of each is delivered. -/
example : ∃ vs, WindowRun { width := 60000000000 } [] (GrowingReader [logAt 40000000000, logAt 100000000000] fun t e => decide (e.timestamp ≤ t))
      (windowBegin { width := 60000000000 } 90000000000) vs (some 150000000000) ∧
    OnTicks 90000000000 60000000000 vs ∧ WalksSucceed vs ∧
    vs.map Visit.batch = [[logAt 40000000000], [logAt 100000000000]] := by
  refine ⟨[⟨150000000000, [(.got [logAt 40000000000] 150000000000 true, some [logAt 40000000000]), (.got [] 150000000000 true, none)], true⟩,
    ⟨210000000000, [(.got [logAt 100000000000] 210000000000 true, some [logAt 100000000000]), (.got [] 210000000000 true, none)], true⟩],
    .step (.step ⟨rfl, 150000000000, by decide, by decide, by decide⟩ rfl (.done ⟨rfl, 150000000000, by decide, by decide, by decide⟩ rfl)) rfl
      (.step (.step ⟨rfl, 210000000000, by decide, by decide, by decide⟩ rfl (.done ⟨rfl, 210000000000, by decide, by decide, by decide⟩ rfl)) rfl
        (.nil _)), ⟨fun k => k + 1, by decide, fun i j h => Nat.succ_lt_succ h, ?_⟩, ?_, rfl⟩
  · intro k v hv
    match k, hv with
    | 0, hv => simp at hv; subst hv; decide
    | 1, hv => simp at hv; subst hv; decide
  · intro v hv
    simp only [List.mem_cons, List.not_mem_nil, or_false] at hv
    rcases hv with rfl | rfl <;> exact ⟨_, _, _, _, rfl⟩

/-- With windows of half a second an envelope that can be read from the moment of its timestamp
on is delivered by no window: it is thrown away as too new when its window is walked. -/
theorem C144_short_false : ∃ (e : Envelope) (vs : List Visit),
    WindowRun { width := 500000000, interval := 500000000 } [] (GrowingReader [e] fun t e => decide (e.timestamp ≤ t))
      (windowBegin { width := 500000000, interval := 500000000 } 2000000000) vs (some 2500000000) ∧
    OnTicks 2000000000 500000000 vs ∧ WalksSucceed vs ∧
    windowBegin { width := 500000000, interval := 500000000 } 2000000000 ≤ e.timestamp ∧ e.timestamp < 2500000000 ∧
    vs.flatMap Visit.batch = [] := by
  refine ⟨logAt 1750000000, [⟨2500000000, [(.got [logAt 1750000000] 2500000000 true, none)], true⟩,
    ⟨3000000000, [(.got [] 3000000000 true, none)], true⟩],
    .step (.done ⟨rfl, 2500000000, by decide, by decide, by decide⟩ rfl) rfl
      (.step (.done ⟨rfl, 3000000000, by decide, by decide, by decide⟩ rfl) rfl (.nil _)),
    ⟨fun k => k + 1, by decide, fun i j h => Nat.succ_lt_succ h, ?_⟩, ?_, by decide, by decide, rfl⟩
  · intro k v hv
    match k, hv with
    | 0, hv => simp at hv; subst hv; decide
    | 1, hv => simp at hv; subst hv; decide
  · intro v hv
    simp only [List.mem_cons, List.not_mem_nil, or_false] at hv
    rcases hv with rfl | rfl <;> exact ⟨_, _, _, _, rfl⟩

/-! ## C145: contexts that end -/

/-- A walk whose read fails because its context has ended returns at once. -/
theorem C145_walk {β : Type} {bo : Backoff β} {c : WalkCfg} {src : Str} {env : ReadRequest → WalkIn → Prop}
    {s : WalkState β} {tr pre post : List (WalkIn × Option (List Envelope))} {v : Option (List Envelope)}
    {r : Option (WalkState β)} (h : WalkRun bo c src env s tr r) (ht : tr = pre ++ (.failed true, v) :: post) :
    v = none ∧ post = [] ∧ r = none := by
  induction h generalizing pre with
  | nil => cases pre <;> cases ht
  | done h1 h2 =>
    cases pre with
    | nil =>
      simp only [List.nil_append, List.cons.injEq, Prod.mk.injEq] at ht
      obtain ⟨⟨rfl, rfl⟩, rfl⟩ := ht
      simp only [walkStep, if_true, Prod.mk.injEq] at h2
      exact ⟨h2.1.symm, rfl, rfl⟩
    | cons x pre =>
      simp only [List.cons_append, List.cons.injEq] at ht
      cases pre <;> simp at ht
  | step h1 h2 _ ih =>
    cases pre with
    | nil =>
      simp only [List.nil_append, List.cons.injEq, Prod.mk.injEq] at ht
      obtain ⟨⟨rfl, rfl⟩, rfl⟩ := ht
      simp [walkStep] at h2
    | cons x pre =>
      simp only [List.cons_append, List.cons.injEq] at ht
      exact ih ht.2

example : WalkRun alwaysRetry {} [] (fun _ _ => True) (walkInit {} ())
    [(.failed false, none), (.failed true, none)] none := .step trivial rfl (.done trivial rfl)

/-- `Window` returns when the visitor says so, and only then. -/
theorem C145_window_partial {c : WindowCfg} {src : Str} {env : Int → ReadRequest → WalkIn → Prop} {s : Int} {vs : List Visit}
    {r : Option Int} (h : WindowRun c src env s vs r) :
    (r = none ↔ ∃ v ∈ vs, v.more = false) ∧ ∀ v ∈ vs.dropLast, v.more = true := by
  induction h with
  | nil => simp
  | @done s v _ h2 =>
    refine ⟨⟨fun _ => ⟨v, List.mem_cons_self, ?_⟩, fun _ => rfl⟩, by simp⟩
    unfold windowStep at h2
    cases hm : v.more with
    | false => rfl
    | true => rw [hm] at h2; simp at h2
  | @step s s' v vs r _ h2 h3 ih =>
    obtain ⟨hm, -⟩ := windowStep_some h2
    refine ⟨?_, ?_⟩
    · rw [ih.1]
      constructor
      · rintro ⟨x, hx, hf⟩; exact ⟨x, List.mem_cons_of_mem _ hx, hf⟩
      · rintro ⟨x, hx, hf⟩
        rcases List.mem_cons.1 hx with rfl | hx
        · rw [hm] at hf; cases hf
        · exact ⟨x, hx, hf⟩
    · cases vs with
      | nil => simp
      | cons y vs =>
        intro x hx
        rw [List.dropLast_cons_of_ne_nil (by simp)] at hx
        rcases List.mem_cons.1 hx with rfl | hx
        · exact hm
        · exact ih.2 x hx

/-- A `Window` whose context has ended goes on for ever: it calls the visitor with nothing at
every tick. -/
theorem C145_window_false (c : WindowCfg) (src : Str) (t0 : Int) (n : Nat) :
    ∃ vs : List Visit, vs.length = n ∧
      (∀ v ∈ vs, v.tr = [(.failed true, none)] ∧ v.batch = []) ∧ OnTicks t0 c.interval vs ∧
      ∃ s, WindowRun c src (fun _ _ i => i = .failed true) (windowBegin c t0) vs (some s) := by
  refine ⟨(List.range n).map fun (k : Nat) => ⟨t0 + (k + 1 : Nat) * c.interval, [(.failed true, none)], true⟩, by simp, ?_, ?_, ?_⟩
  · intro v hv
    obtain ⟨k, _, rfl⟩ := List.mem_map.1 hv
    exact ⟨rfl, rfl⟩
  · refine ⟨fun k => k + 1, by simp, fun i j h => by simp; omega, ?_⟩
    intro k v hv
    rw [List.getElem?_map] at hv
    obtain ⟨k', hk', rfl⟩ := Option.map_eq_some_iff.1 hv
    obtain ⟨_, rfl⟩ := List.getElem?_eq_some_iff.1 hk'
    simp
  · generalize windowBegin c t0 = s
    generalize List.range n = l
    induction l generalizing s with
    | nil => exact ⟨s, .nil s⟩
    | cons k l ih =>
      obtain ⟨s', hs'⟩ := ih (s + c.interval)
      exact ⟨s', .step (.done rfl rfl) rfl hs'⟩

end LogCache
