import Verif.Proof.Walk
import Verif.Props.Reader
/-!
# Property theorems about walks (C43-C49)
-/
namespace LogCache
open Spec

/-- What the visitor gets over the whole walk is sorted, every batch is non-empty and
strictly later than the ones before, and nothing is older than the start. -/
theorem C43_order {β : Type} {bo : Backoff β} {c : WalkCfg} {src : Str} {s : WalkState β}
    {tr : List (WalkIn × Option (List Envelope))} {r : Option (WalkState β)}
    (h : WalkRun bo c src SortedReader s tr r) :
    (delivered tr).flatten.Pairwise (fun x y => x.timestamp ≤ y.timestamp) ∧
    (delivered tr).Pairwise (fun a b => ∀ x ∈ a, ∀ y ∈ b, x.timestamp < y.timestamp) ∧
    ∀ d ∈ delivered tr, d ≠ [] ∧ ∀ x ∈ d, s.start ≤ x.timestamp := by
  have visit : ∀ {s : WalkState β} {i : WalkIn} {d : List Envelope} {r : Option (WalkState β)},
      SortedReader (walkRequest c src s.start) i → walkStep bo c s i = (some d, r) →
      d ≠ [] ∧ d.Pairwise (fun x y => x.timestamp ≤ y.timestamp) ∧
      (∀ x ∈ d, s.start ≤ x.timestamp) ∧ ∀ s', r = some s' → ∀ x ∈ d, x.timestamp < s'.start := by
    intro s i d r he hs
    obtain ⟨es, now, more, last, rfl, rfl, hl, rfl⟩ := walkStep_visit hs
    have hpre := walkTrim_prefix c s.receivedEmpty now es
    have hsort := he.1.sublist hpre.sublist
    generalize walkTrim c s.receivedEmpty now es = d at *
    obtain ⟨ys, rfl⟩ := List.getLast?_eq_some_iff.1 hl
    refine ⟨by simp, hsort, fun x hx => he.2 x (hpre.subset hx), ?_⟩
    intro s' hs' x hx
    split at hs'
    · cases hs'
    · cases hs'
      rcases List.mem_append.1 hx with hx | hx
      · have := (List.pairwise_append.1 hsort).2.2 x hx last (by simp)
        simp only; omega
      · rw [List.mem_singleton.1 hx]; simp only; omega
  induction h with
  | nil => exact ⟨List.Pairwise.nil, List.Pairwise.nil, by intro d hd; cases hd⟩
  | @done s i v he hs =>
    cases v with
    | none => exact ⟨List.Pairwise.nil, List.Pairwise.nil, by intro d hd; cases hd⟩
    | some d =>
      obtain ⟨h1, h2, h3, -⟩ := visit he hs
      refine ⟨by simpa [delivered] using h2, by simp [delivered], ?_⟩
      intro d' hd'
      simp [delivered] at hd'
      subst hd'
      exact ⟨h1, h3⟩
  | @step s s' i v tr r he hs _ ih =>
    obtain ⟨i1, i2, i3⟩ := ih
    cases v with
    | none =>
      have := (walkStep_idle hs).1
      refine ⟨i1, i2, ?_⟩
      intro d hd
      rw [← this]
      exact i3 d hd
    | some d =>
      obtain ⟨h1, h2, h3, h4⟩ := visit he hs
      have h4 := h4 s' rfl
      have hd : delivered ((i, some d) :: tr) = d :: delivered tr := rfl
      rw [hd]
      obtain ⟨x0, hx0⟩ := List.exists_mem_of_ne_nil d h1
      have hlt : s.start < s'.start := by have := h3 x0 hx0; have := h4 x0 hx0; omega
      refine ⟨?_, ?_, ?_⟩
      · rw [List.flatten_cons, List.pairwise_append]
        refine ⟨h2, i1, ?_⟩
        intro x hx y hy
        obtain ⟨d', hd', hy'⟩ := List.mem_flatten.1 hy
        have := (i3 d' hd').2 y hy'
        have := h4 x hx
        omega
      · rw [List.pairwise_cons]
        refine ⟨?_, i2⟩
        intro d' hd' x hx y hy
        have := (i3 d' hd').2 y hy
        have := h4 x hx
        omega
      · intro d' hd'
        rcases List.mem_cons.1 hd' with rfl | hd'
        · exact ⟨h1, h3⟩
        · obtain ⟨a, b⟩ := i3 d' hd'
          refine ⟨a, ?_⟩
          intro x hx
          have := b x hx; omega

/-- Nothing outside the window is delivered, and nothing newer than the delay allows
unless an end time is set and the last read that delivered nothing came back empty. -/
theorem C44_window {β : Type} {bo : Backoff β} {c : WalkCfg} {src : Str} {b : β}
    {tr pre post : List (WalkIn × Option (List Envelope))} {r : Option (WalkState β)}
    (h : WalkRun bo c src SortedReader (walkInit c b) tr r) {i : WalkIn} {d : List Envelope}
    (ht : tr = pre ++ (i, some d) :: post) :
    ∃ es now more, i = .got es now more ∧ ∀ e ∈ d, e ∈ es ∧ c.start ≤ e.timestamp ∧
      (∀ stop, c.stop = some stop → e.timestamp < stop) ∧
      (e.timestamp ≤ now - c.delay ∨
        (c.stop ≠ none ∧ ∃ p q es' now' more', pre = p ++ (.got es' now' more', none) :: q ∧
          ∀ x ∈ q, x.2 = none)) := by
  have hmem : d ∈ delivered tr := by
    rw [ht]; simp [delivered]
  have hstart := (C43_order h).2.2 d hmem
  have gen : ∀ {s : WalkState β} {tr : List (WalkIn × Option (List Envelope))} {r : Option (WalkState β)},
      WalkRun bo c src SortedReader s tr r →
      ∀ {pre}, tr = pre ++ (i, some d) :: post →
      ∃ es now more, i = .got es now more ∧ ∀ e ∈ d, e ∈ es ∧
        (∀ stop, c.stop = some stop → e.timestamp < stop) ∧
        (e.timestamp ≤ now - c.delay ∨
          (c.stop ≠ none ∧ ((s.receivedEmpty = true ∧ ∀ x ∈ pre, x.2 = none) ∨
            ∃ p q es' now' more', pre = p ++ (.got es' now' more', none) :: q ∧ ∀ x ∈ q, x.2 = none))) := by
    intro s tr r h
    have here : ∀ {s : WalkState β} {i' : WalkIn} {r : Option (WalkState β)},
        SortedReader (walkRequest c src s.start) i' → walkStep bo c s i' = (some d, r) → i' = i →
        ∃ es now more, i = .got es now more ∧ ∀ e ∈ d, e ∈ es ∧
        (∀ stop, c.stop = some stop → e.timestamp < stop) ∧
        (e.timestamp ≤ now - c.delay ∨ (c.stop ≠ none ∧ s.receivedEmpty = true)) := by
      intro s i' r he hs hi
      subst hi
      obtain ⟨es, now, more, last, rfl, rfl, hl, rfl⟩ := walkStep_visit hs
      refine ⟨es, now, more, rfl, ?_⟩
      intro e hmem
      rw [walkTrim_filter c _ now he.1] at hmem
      obtain ⟨h1, h2⟩ := List.mem_filter.1 hmem
      refine ⟨h1, ?_⟩
      unfold keeps at h2
      cases hstop : c.stop with
      | none =>
        rw [hstop] at h2
        simp at h2
        exact ⟨(by intro stop h; cases h), Or.inl h2⟩
      | some stop =>
        rw [hstop] at h2
        simp at h2
        refine ⟨(by intro stop' h; cases h; exact h2.2), ?_⟩
        rcases h2.1 with h3 | h3
        · exact Or.inr ⟨by simp, h3⟩
        · exact Or.inl h3
    induction h with
    | nil => intro pre hp; simp at hp
    | @done s i' v he hs =>
      intro pre hp
      cases pre with
      | nil =>
        simp only [List.nil_append, List.cons.injEq, Prod.mk.injEq] at hp
        obtain ⟨⟨rfl, rfl⟩, -⟩ := hp
        obtain ⟨es, now, more, h1, h2⟩ := here he hs rfl
        refine ⟨es, now, more, h1, ?_⟩
        intro e hmem
        obtain ⟨a, b, h3⟩ := h2 e hmem
        refine ⟨a, b, ?_⟩
        rcases h3 with h3 | h3
        · exact Or.inl h3
        · exact Or.inr ⟨h3.1, Or.inl ⟨h3.2, by intro x hx; cases hx⟩⟩
      | cons x t => simp at hp
    | @step s s' i' v tr r he hs hrun ih =>
      intro pre hp
      cases pre with
      | nil =>
        simp only [List.nil_append, List.cons.injEq, Prod.mk.injEq] at hp
        obtain ⟨⟨rfl, rfl⟩, -⟩ := hp
        obtain ⟨es, now, more, h1, h2⟩ := here he hs rfl
        refine ⟨es, now, more, h1, ?_⟩
        intro e hmem
        obtain ⟨a, b, h3⟩ := h2 e hmem
        refine ⟨a, b, ?_⟩
        rcases h3 with h3 | h3
        · exact Or.inl h3
        · exact Or.inr ⟨h3.1, Or.inl ⟨h3.2, by intro x hx; cases hx⟩⟩
      | cons x t =>
        simp only [List.cons_append, List.cons.injEq] at hp
        obtain ⟨rfl, hp⟩ := hp
        obtain ⟨es, now, more, h1, h2⟩ := ih hp
        refine ⟨es, now, more, h1, ?_⟩
        intro e hmem
        obtain ⟨a, b, h3⟩ := h2 e hmem
        refine ⟨a, b, ?_⟩
        rcases h3 with h3 | ⟨h3, ⟨h4, h5⟩ | ⟨p, q, es', now', more', h4, h5⟩⟩
        · exact Or.inl h3
        · refine Or.inr ⟨h3, ?_⟩
          cases v with
          | some d' =>
            obtain ⟨_, _, _, last, -, -, -, hr⟩ := walkStep_visit hs
            split at hr
            · cases hr
            · cases hr; cases h4
          | none =>
            obtain ⟨-, h6⟩ := walkStep_idle hs
            rcases h6 with ⟨-, h6, -⟩ | ⟨es', now', more', rfl, -, -, -⟩
            · left
              rw [← h6]
              refine ⟨h4, ?_⟩
              intro x hx
              rcases List.mem_cons.1 hx with rfl | hx
              · rfl
              · exact h5 x hx
            · exact Or.inr ⟨[], t, es', now', more', rfl, h5⟩
        · exact Or.inr ⟨h3, Or.inr ⟨(i', v) :: p, q, es', now', more', by rw [h4]; rfl, h5⟩⟩
  obtain ⟨es, now, more, h1, h2⟩ := gen h ht
  refine ⟨es, now, more, h1, ?_⟩
  intro e he
  obtain ⟨a, b', h3⟩ := h2 e he
  refine ⟨a, hstart.2 e he, b', ?_⟩
  rcases h3 with h3 | ⟨h3, ⟨h4, -⟩ | h4⟩
  · exact Or.inl h3
  · cases h4
  · exact Or.inr ⟨h3, h4⟩

/-- A walk over two reads of a following reader; the second batch is cut at the
delay. -/
example : ∃ r, WalkRun alwaysDone {} [] SortedReader (walkInit {} ())
    [(.got [logAt 1, logAt 2] 2000000000 true, some [logAt 1, logAt 2]),
     (.got [logAt 3, logAt 1000000001] 2000000000 true, some [logAt 3])] r ∧
    r.map (fun s => s.start) = some 4 := by
  refine ⟨_, .step ?_ rfl (.step ?_ rfl (.nil _)), rfl⟩ <;>
    exact ⟨by decide, by decide⟩

/-! ## Completeness -/

/-- The shape of an answer that a walk can page through: `W s` is the whole answer
from `s` on. -/
structure Pages (W : Int → List Envelope) (stop : Int) : Prop where
  sorted : ∀ s, (W s).Pairwise (fun x y => x.timestamp ≤ y.timestamp)
  later : ∀ s s', s ≤ s' → W s' = (W s).filter (fun e => decide (s' ≤ e.timestamp))
  window : ∀ s, ∀ e ∈ W s, s ≤ e.timestamp ∧ e.timestamp < stop

/-- A page of an answer: some of it from its start on, nothing only if there is nothing,
and only whole timestamp groups. -/
def WholeGroups (es l : List Envelope) : Prop :=
  ∃ rest, l = es ++ rest ∧ (es = [] → rest = []) ∧ ∀ x ∈ es, ∀ y ∈ rest, x.timestamp ≠ y.timestamp

theorem wholeGroups_take {l : List Envelope} (h : l.Pairwise (fun x y => x.timestamp < y.timestamp))
    {n : Nat} (hn : 1 ≤ n) : WholeGroups (l.take n) l := by
  refine ⟨l.drop n, (List.take_append_drop n l).symm, ?_, ?_⟩
  · intro h0
    rcases List.take_eq_nil_iff.1 h0 with h1 | h1
    · omega
    · rw [h1, List.drop_nil]
  · intro x hx y hy
    rw [← List.take_append_drop n l] at h
    have := (List.pairwise_append.1 h).2.2 x hx y hy
    omega

theorem pages_resume {W : Int → List Envelope} {stop : Int} (hW : Pages W stop) {s : Int}
    {es : List Envelope} (hg : WholeGroups es (W s))
    {last : Envelope} (hl : es.getLast? = some last) :
    W s = es ++ W (last.timestamp + 1) := by
  obtain ⟨ys, hys⟩ := List.getLast?_eq_some_iff.1 hl
  obtain ⟨rest, hsplit, -, hne⟩ := hg
  have hin : last ∈ es := by rw [hys]; simp
  have hmem : last ∈ W s := by rw [hsplit]; exact List.mem_append_left _ hin
  have hs := (hW.window s last hmem).1
  rw [hW.later s (last.timestamp + 1) (by omega)]
  have hsort := hW.sorted s
  rw [hsplit] at hsort
  obtain ⟨h1, -, h3⟩ := List.pairwise_append.1 hsort
  rw [hsplit, List.filter_append]
  have e1 : es.filter (fun e => decide (last.timestamp + 1 ≤ e.timestamp)) = [] := by
    rw [List.filter_eq_nil_iff]
    intro x hx
    rw [hys] at hx h1
    rcases List.mem_append.1 hx with hx | hx
    · have := (List.pairwise_append.1 h1).2.2 x hx last (by simp)
      simp; omega
    · rw [List.mem_singleton.1 hx]; simp; omega
  have e2 : rest.filter (fun e => decide (last.timestamp + 1 ≤ e.timestamp)) = rest := by
    rw [List.filter_eq_self]
    intro x hx
    have := h3 last hin x hx
    have := hne last hin x hx
    simp; omega
  rw [e1, e2, List.nil_append]

theorem walk_complete {β : Type} {bo : Backoff β} {c : WalkCfg} {src : Str}
    {env : ReadRequest → WalkIn → Prop} {W : Int → List Envelope} {stop : Int}
    (hW : Pages W stop) (hstop : c.stop = some stop)
    (henv : ∀ st es now more, env (walkRequest c src st) (.got es now more) →
      WholeGroups es (W st) ∧ more = true ∧ ∀ e ∈ W st, e.timestamp ≤ now - c.delay)
    {s : WalkState β} {tr : List (WalkIn × Option (List Envelope))} {r : Option (WalkState β)}
    (h : WalkRun bo c src env s tr r) :
    (delivered tr).flatten <+: W s.start ∧
    (r = none → (∃ es now more v, tr.getLast? = some (.got es now more, v)) →
      (delivered tr).flatten = W s.start) ∧
    ((∀ x ∈ tr, ∃ es now more, x.1 = .got es now more) → (∀ b, (bo.onEmpty b).2 = false) →
      tr.length ≤ (W s.start).length + 1 ∧ (r ≠ none → tr.length ≤ (W s.start).length)) := by
  have trim : ∀ {st : Int} {re : Bool} {es : List Envelope} {now : Int} {more : Bool},
      env (walkRequest c src st) (.got es now more) →
      more = true ∧ walkTrim c re now es = es ∧ WholeGroups es (W st) := by
    intro st re es now more he
    obtain ⟨hg, hm, ho⟩ := henv st es now more he
    refine ⟨hm, ?_, hg⟩
    obtain ⟨rest, hsplit, -, -⟩ := hg
    rw [walkTrim_filter]
    · rw [List.filter_eq_self]
      intro e hmem
      have hmem : e ∈ W st := by rw [hsplit]; exact List.mem_append_left _ hmem
      have := (hW.window st e hmem).2
      have := ho e hmem
      unfold keeps
      rw [hstop]
      simp; omega
    · exact (hW.sorted st).sublist (by rw [hsplit]; exact List.sublist_append_left _ _)
  have visit : ∀ {s : WalkState β} {i : WalkIn} {d : List Envelope} {r : Option (WalkState β)},
      env (walkRequest c src s.start) i → walkStep bo c s i = (some d, r) →
      d ≠ [] ∧ ∃ last : Envelope, W s.start = d ++ W (last.timestamp + 1) ∧
        ((r = none ∧ W (last.timestamp + 1) = []) ∨ ∃ s', r = some s' ∧ s'.start = last.timestamp + 1) := by
    intro s i d r he hs
    obtain ⟨es, now, more, last, rfl, rfl, hl, rfl⟩ := walkStep_visit hs
    obtain ⟨rfl, ht, hg⟩ := trim (re := s.receivedEmpty) he
    rw [ht] at hl ⊢
    refine ⟨(by intro h0; rw [h0] at hl; cases hl), last, pages_resume hW hg hl, ?_⟩
    by_cases ho : last.timestamp + 1 ≥ stop
    · left
      refine ⟨by simp [walkOver, hstop, ho], ?_⟩
      rw [List.eq_nil_iff_forall_not_mem]
      intro e he
      have := hW.window _ e he
      omega
    · right
      refine ⟨_, by simp only [walkOver, hstop, ho]; rfl, rfl⟩
  have nothing : ∀ {s : WalkState β} {es : List Envelope} {now : Int} {more : Bool} {r : Option (WalkState β)},
      env (walkRequest c src s.start) (.got es now more) → walkStep bo c s (.got es now more) = (none, r) →
      W s.start = [] ∧ r = (if (bo.onEmpty s.b).2 then some { s with receivedEmpty := true, b := (bo.onEmpty s.b).1 } else none) := by
    intro s es now more r he hs
    obtain ⟨-, ht, rest, hsplit, hnil, -⟩ := trim (re := s.receivedEmpty) he
    unfold walkStep at hs
    simp only at hs
    cases hl : (walkTrim c s.receivedEmpty now es).getLast? with
    | some last => rw [hl] at hs; simp at hs
    | none =>
      rw [hl] at hs
      simp only [Prod.mk.injEq, true_and] at hs
      rw [ht] at hl
      refine ⟨?_, hs.symm⟩
      have h0 := List.getLast?_eq_none_iff.1 hl
      rw [hsplit, h0, hnil h0]; rfl
  induction h with
  | nil s =>
    refine ⟨List.nil_prefix, (by intro h; cases h), ?_⟩
    intro _ _
    exact ⟨by simp, by intro _; simp⟩
  | @done s i v he hs =>
    cases v with
    | none =>
      refine ⟨List.nil_prefix, ?_, ?_⟩
      · rintro - ⟨es, now, more, v, hl⟩
        simp at hl
        obtain ⟨rfl, -⟩ := hl
        exact (nothing he hs).1.symm
      · intro _ _
        exact ⟨by simp, by intro h; exact absurd rfl h⟩
    | some d =>
      obtain ⟨h1, last, h2, ⟨-, h3⟩ | ⟨_, h3, -⟩⟩ := visit he hs
      · rw [h3, List.append_nil] at h2
        refine ⟨by simp [delivered, h2], ?_, ?_⟩
        · intro _ _; simp [delivered, h2]
        · intro _ _
          refine ⟨?_, by intro h; exact absurd rfl h⟩
          simp
      · cases h3
  | @step s s' i v tr r he hs hrun ih =>
    obtain ⟨i1, i2, i3⟩ := ih
    have hlast : ∀ {x}, (r = none) → ((i, v) :: tr).getLast? = some x → tr.getLast? = some x := by
      intro x hr hx
      cases tr with
      | nil => cases hrun; cases hr
      | cons y t => simpa [List.getLast?_cons] using hx
    cases v with
    | none =>
      have hst := (walkStep_idle hs).1
      rw [hst] at i1 i2 i3
      refine ⟨i1, ?_, ?_⟩
      · rintro hr ⟨es, now, more, v, hl⟩
        exact i2 hr ⟨es, now, more, v, hlast hr hl⟩
      · intro hgot hem
        obtain ⟨es, now, more, hi⟩ := hgot _ (List.mem_cons_self ..)
        simp only at hi
        subst hi
        have := (nothing he hs).2
        rw [hem] at this
        cases this
    | some d =>
      obtain ⟨h1, last, h2, ⟨h3, -⟩ | ⟨s1, h3, h4⟩⟩ := visit he hs
      · cases h3
      · cases h3
        rw [h4] at i1 i2 i3
        have hd : delivered ((i, some d) :: tr) = d :: delivered tr := rfl
        rw [hd, List.flatten_cons, h2]
        refine ⟨List.prefix_append_right_inj d |>.2 i1, ?_, ?_⟩
        · rintro hr ⟨es, now, more, v, hl⟩
          rw [i2 hr ⟨es, now, more, v, hlast hr hl⟩]
        · intro hgot hem
          obtain ⟨j1, j2⟩ := i3 (fun x hx => hgot x (List.mem_cons_of_mem _ hx)) hem
          have : 1 ≤ d.length := by
            cases d with
            | nil => exact absurd rfl h1
            | cons => simp
          simp only [List.length_cons, List.length_append]
          exact ⟨by omega, fun h => by have := j2 h; omega⟩

theorem pages_between {log : List Envelope} (h : log.Pairwise (fun x y => x.timestamp ≤ y.timestamp))
    (stop : Int) : Pages (fun s => between s stop log) stop where
  sorted s := h.sublist List.filter_sublist
  later s s' hs := by
    unfold between
    rw [List.filter_filter]
    apply List.filter_congr
    intro e _
    by_cases h1 : s' ≤ e.timestamp
    · have : s ≤ e.timestamp := by omega
      simp [h1, this]
    · simp [h1]
  window s e he := by
    have := (List.mem_filter.1 he).2
    simpa using this

/-- Walking a fixed log with distinct timestamps, through reads that may fail in
between: the visitor gets a prefix of the window in order; all of it if the walk ends
otherwise than by a failed read; and if no read fails and empty reads end the walk,
it takes at most one read more than there are envelopes. -/
theorem C45_static_log {β : Type} {bo : Backoff β} {c : WalkCfg} {src : Str} {b : β} {stop : Int}
    (hstop : c.stop = some stop) {log : List Envelope}
    (hlog : log.Pairwise (fun x y => x.timestamp < y.timestamp)) {limit : Nat} (hlim : 1 ≤ limit)
    {tr : List (WalkIn × Option (List Envelope))} {r : Option (WalkState β)}
    (h : WalkRun bo c src (LogReader log limit c.delay) (walkInit c b) tr r) :
    (delivered tr).flatten <+: between c.start stop log ∧
    (r = none → (∃ es now more v, tr.getLast? = some (.got es now more, v)) →
      (delivered tr).flatten = between c.start stop log) ∧
    ((∀ x ∈ tr, ∃ es now more, x.1 = .got es now more) → (∀ b, (bo.onEmpty b).2 = false) →
      tr.length ≤ (between c.start stop log).length + 1) := by
  obtain ⟨h1, h2, h3⟩ := walk_complete (pages_between (hlog.imp fun h => Int.le_of_lt h) stop) hstop (by
    intro st es now more he
    simp only [LogReader, walkRequest, hstop, Option.getD_some] at he
    exact ⟨by rw [he.1]; exact wholeGroups_take (hlog.sublist List.filter_sublist) hlim, he.2.1, fun e hm => he.2.2 e (List.mem_filter.1 hm).1⟩) h
  exact ⟨h1, h2, fun a b => (h3 a b).1⟩

/-- Walking a fixed log in which envelopes may share a time, through reads that may fail
and otherwise return whole groups of one time: the same. -/
theorem C45_groups {β : Type} {bo : Backoff β} {c : WalkCfg} {src : Str} {b : β} {stop : Int}
    (hstop : c.stop = some stop) {log : List Envelope}
    (hlog : log.Pairwise (fun x y => x.timestamp ≤ y.timestamp))
    {tr : List (WalkIn × Option (List Envelope))} {r : Option (WalkState β)}
    (h : WalkRun bo c src (GroupReader log c.delay) (walkInit c b) tr r) :
    (delivered tr).flatten <+: between c.start stop log ∧
    (r = none → (∃ es now more v, tr.getLast? = some (.got es now more, v)) →
      (delivered tr).flatten = between c.start stop log) ∧
    ((∀ x ∈ tr, ∃ es now more, x.1 = .got es now more) → (∀ b, (bo.onEmpty b).2 = false) →
      tr.length ≤ (between c.start stop log).length + 1) := by
  obtain ⟨h1, h2, h3⟩ := walk_complete (pages_between hlog stop) hstop (by
    intro st es now more he
    simp only [GroupReader, walkRequest, hstop, Option.getD_some] at he
    exact ⟨he.1, he.2.1, fun e hm => he.2.2 e (List.mem_filter.1 hm).1⟩) h
  exact ⟨h1, h2, fun a b => (h3 a b).1⟩

/-- Two envelopes of one time in one read, a third envelope in another and an empty
read. -/
example : ∃ tr, WalkRun alwaysDone { stop := some 20 } "a".toList
      (GroupReader [logAt 1 "p", logAt 1 "q", logAt 2] 1000000000)
      (walkInit { stop := some 20 } ()) tr none ∧
    delivered tr = [[logAt 1 "p", logAt 1 "q"], [logAt 2]] ∧ tr.length = 3 :=
  ⟨[(.got [logAt 1 "p", logAt 1 "q"] 2000000000 true, some [logAt 1 "p", logAt 1 "q"]),
      (.got [logAt 2] 2000000000 true, some [logAt 2]), (.got [] 2000000000 true, none)],
    .step ⟨⟨[logAt 2], by decide, by decide, by decide⟩, rfl, by decide⟩ rfl
      (.step ⟨⟨[], by decide, by decide, by decide⟩, rfl, by decide⟩ rfl
        (.done ⟨⟨[], by decide, by decide, by decide⟩, rfl, by decide⟩ rfl)), rfl, rfl⟩

theorem project_ts {nf : Option (Str → Bool)} {o e : Envelope} (hp : project nf o = some e) :
    e.timestamp = o.timestamp := by
  unfold project at hp
  split at hp
  · cases hp; rfl
  · split at hp
    · cases hp
      unfold restrict
      split <;> rfl
    · cases hp

theorem pages_answer {log : List Envelope} (h : log.Pairwise (fun x y => x.timestamp ≤ y.timestamp))
    (stop : Int) (types : Option (List EType)) (nf : Option (Str → Bool)) :
    Pages (fun s => answer s stop types nf log) stop where
  sorted s := answer_sorted_le h s stop types nf
  later s s' hs := answer_later hs
  window s e he := by
    unfold answer at he
    obtain ⟨he, -⟩ := List.mem_filter.1 he
    obtain ⟨o, ho, hp⟩ := List.mem_filterMap.1 he
    have hw := (List.mem_filter.1 ho).2
    have ht := project_ts hp
    simp only [inWindow, Bool.and_eq_true, decide_eq_true_eq] at hw
    rw [ht]; exact hw

/-- Walking the real store through the Read API, with any types and name filter: the
walk delivers what one unlimited read would, if timestamps are distinct. -/
theorem C45_store_partial {cfg : Config} (hc : 1 ≤ cfg.maxPerSource) {ops : List Op} {st : Store}
    (hrun : Run (newStore cfg) ops st) (hd : DistinctTs ops)
    {β : Type} {bo : Backoff β} {c : WalkCfg} {src : Str} {b : β} {stop : Int}
    (hstop : c.stop = some stop) (h0 : stop ≠ 0) (compile : Str → Option (Str → Bool))
    {tr : List (WalkIn × Option (List Envelope))} {r : Option (WalkState β)}
    (h : WalkRun bo c src (StoreReader compile st c.delay) (walkInit c b) tr r) :
    ∃ whole, whole = answer c.start stop (requestedTypes (c.types.getD []))
        (if c.nameFilter = [] then none else compile c.nameFilter) (st.envelopes src) ∧
    (delivered tr).flatten <+: whole ∧
    (r = none → (∃ es now more v, tr.getLast? = some (.got es now more, v)) →
      (delivered tr).flatten = whole) ∧
    ((∀ x ∈ tr, ∃ es now more, x.1 = .got es now more) → (∀ b, (bo.onEmpty b).2 = false) →
      tr.length ≤ whole.length + 1) := by
  have hsort := envelopes_ordered hc hrun hd src
  refine ⟨_, rfl, ?_⟩
  have henv : ∀ s es now more, StoreReader compile st c.delay (walkRequest c src s) (.got es now more) →
      es = (answer s stop (requestedTypes (c.types.getD []))
        (if c.nameFilter = [] then none else compile c.nameFilter) (st.envelopes src)).take
          (max 1 (if c.limit.getD 0 = 0 then 100 else c.limit.getD 0).toNat) ∧ more = true ∧
      ∀ e ∈ answer s stop (requestedTypes (c.types.getD []))
        (if c.nameFilter = [] then none else compile c.nameFilter) (st.envelopes src),
        e.timestamp ≤ now - c.delay := by
    intro s es now more he
    obtain ⟨⟨t, hread⟩, hm, hold⟩ := he
    obtain ⟨a, hg, a1, a2, a3, a4, a5, a6, a7⟩ := localRead_ok hread
    have hres := (C03_ascending_complete_partial hc hrun hd (a6.trans rfl) a5 hg).2
    simp only [walkRequest, hstop, Option.getD_some, if_neg h0] at a1 a2 a3 a4 a7 hres
    rw [a1, a2, a3, a4, a7] at hres
    rw [a4] at a5
    refine ⟨?_, hm, ?_⟩
    · rw [hres]
      congr 1
      omega
    · intro e he
      unfold answer at he
      obtain ⟨he, -⟩ := List.mem_filter.1 he
      obtain ⟨o, ho, hp⟩ := List.mem_filterMap.1 he
      rw [project_ts hp]
      exact hold o (List.mem_filter.1 ho).1
  obtain ⟨h1, h2, h3⟩ := walk_complete
    (pages_answer (hsort.imp fun h => Int.le_of_lt h) stop (requestedTypes (c.types.getD []))
      (if c.nameFilter = [] then none else compile c.nameFilter)) hstop (by
        intro s es now more he
        obtain ⟨h1, h2, h3⟩ := henv s es now more he
        exact ⟨by rw [h1]; exact wholeGroups_take (answer_sorted hsort ..) (by omega), h2, h3⟩) h
  exact ⟨h1, h2, fun a b => (h3 a b).1⟩

/-- A walk over the real store that needs two pages and an empty read. -/
example : ∃ tr, Run (newStore { maxPerSource := 10 }) (puts [("a", logAt 1), ("a", logAt 2)])
      (after { maxPerSource := 10 } [("a", logAt 1), ("a", logAt 2)]) ∧
    WalkRun alwaysDone { stop := some 20, limit := some 1 } "a".toList
      (StoreReader (fun _ => none) (after { maxPerSource := 10 } [("a", logAt 1), ("a", logAt 2)]) 1000000000)
      (walkInit { stop := some 20, limit := some 1 } ()) tr none ∧
    delivered tr = [[logAt 1], [logAt 2]] ∧ tr.length = 3 :=
  ⟨[(.got [logAt 1] 2000000000 true, some [logAt 1]), (.got [logAt 2] 2000000000 true, some [logAt 2]),
      (.got [] 2000000000 true, none)],
    run_after (by decide),
    .step ⟨⟨0, rfl⟩, rfl, by decide⟩ rfl (.step ⟨⟨0, rfl⟩, rfl, by decide⟩ rfl
      (.done ⟨⟨0, rfl⟩, rfl, by decide⟩ rfl)), rfl, rfl⟩

/-- With equal timestamps a walk of the real store loses envelopes: three are stored,
one is delivered, and the walk ends as if it were complete. -/
theorem C45_store_false :
    ∃ ops st tr, Run (newStore { maxPerSource := 10 }) ops st ∧
      WalkRun alwaysDone { stop := some 20, limit := some 1 } "a".toList
        (StoreReader (fun _ => none) st 1000000000) (walkInit { stop := some 20, limit := some 1 } ()) tr none ∧
      (∃ es now more v, tr.getLast? = some (.got es now more, v)) ∧
      delivered tr = [[logAt 1 "p"]] ∧
      st.envelopes "a".toList = [logAt 1 "p", logAt 1 "q", logAt 1 "r"] :=
  ⟨_, _, [(.got [logAt 1 "p"] 2000000000 true, some [logAt 1 "p"]), (.got [] 2000000000 true, none)],
    run_after (cfg := { maxPerSource := 10 })
      (l := [("a", logAt 1 "p"), ("a", logAt 1 "q"), ("a", logAt 1 "r")]) (by decide),
    .step ⟨⟨0, rfl⟩, rfl, by decide⟩ rfl (.done ⟨⟨0, rfl⟩, rfl, by decide⟩ rfl),
    ⟨_, _, _, _, rfl⟩, rfl, by decide⟩

/-! ## Following a growing log -/

/-- If every envelope is visible at most `lateness` after its timestamp, and lateness
plus read latency stay within the walk's delay, then a walk without end time skips
nothing: everything that is ever logged between the walk's start and its present
position has been delivered, also where envelopes share a time, if reads return whole
groups of one time. -/
theorem C46_groups_partial {β : Type} {bo : Backoff β} {c : WalkCfg} {src : Str} {b : β}
    {log : Int → List Envelope} {lateness latency : Int}
    (hsort : ∀ t, (log t).Pairwise (fun x y => x.timestamp ≤ y.timestamp))
    (hlate : ∀ t t' e, e ∈ log t' → e.timestamp + lateness ≤ t → e ∈ log t)
    (hdelay : lateness + latency ≤ c.delay) (hstop : c.stop = none)
    {tr : List (WalkIn × Option (List Envelope))} {s : WalkState β}
    (h : WalkRun bo c src (LiveGroupReader log latency) (walkInit c b) tr (some s)) :
    ∀ t e, e ∈ log t → c.start ≤ e.timestamp → e.timestamp < s.start →
      e ∈ (delivered tr).flatten := by
  have gen : ∀ {s0 : WalkState β} {tr : List (WalkIn × Option (List Envelope))} {r : Option (WalkState β)},
      WalkRun bo c src (LiveGroupReader log latency) s0 tr r → ∀ s, r = some s →
      ∀ t e, e ∈ log t → s0.start ≤ e.timestamp → e.timestamp < s.start →
      e ∈ (delivered tr).flatten := by
    intro s0 tr r h
    induction h with
    | nil s0 => intro s hs t e _ h1 h2; cases hs; omega
    | done => intro s hs; cases hs
    | @step s0 s' i v tr r he hs _ ih =>
      intro s hr t e hm h1 h2
      cases v with
      | none =>
        have := (walkStep_idle hs).1
        exact ih s hr t e hm (by omega) h2
      | some d =>
        have hd : delivered ((i, some d) :: tr) = d :: delivered tr := rfl
        rw [hd, List.flatten_cons, List.mem_append]
        by_cases hge : s'.start ≤ e.timestamp
        · exact Or.inr (ih s hr t e hm hge h2)
        · left
          obtain ⟨es, now, more, last, rfl, hdt, hl, hnext⟩ := walkStep_visit hs
          obtain ⟨t0, ht0, hlat, rest, hes, hne⟩ := he
          have hall := (hsort t0).sublist (List.filter_sublist
            (p := fun e => decide ((walkRequest c src s0.start).start ≤ e.timestamp)))
          rw [hes] at hall
          obtain ⟨hss, -, hcross⟩ := List.pairwise_append.1 hall
          rw [walkTrim_filter c _ now hss] at hdt
          split at hnext
          · cases hnext
          · cases hnext
            simp only at hge
            obtain ⟨ys, hys⟩ := List.getLast?_eq_some_iff.1 hl
            have hlm : last ∈ d := by rw [hys]; simp
            rw [hdt] at hlm
            obtain ⟨hlm1, hlm2⟩ := List.mem_filter.1 hlm
            have hk : last.timestamp ≤ now - c.delay := by
              unfold keeps at hlm2
              rw [hstop] at hlm2
              simpa using hlm2
            have hvis : e ∈ log t0 := hlate t0 t e hm (by omega)
            have hfil : e ∈ (log t0).filter
                (fun e => decide ((walkRequest c src s0.start).start ≤ e.timestamp)) :=
              List.mem_filter.2 ⟨hvis, decide_eq_true h1⟩
            have hees : e ∈ es := by
              rw [hes, List.mem_append] at hfil
              rcases hfil with hfil | hfil
              · exact hfil
              · exfalso
                have := hcross last hlm1 e hfil
                have := hne last hlm1 e hfil
                omega
            rw [hdt]
            refine List.mem_filter.2 ⟨hees, ?_⟩
            unfold keeps
            rw [hstop]
            simp; omega
  exact gen h s rfl

/-- If every envelope is visible at most `lateness` after its timestamp, and lateness
plus read latency stay within the walk's delay, then a walk without end time skips
nothing: everything that is ever logged between the walk's start and its present
position has been delivered. -/
theorem C46_follow_partial {β : Type} {bo : Backoff β} {c : WalkCfg} {src : Str} {b : β}
    {log : Int → List Envelope} {limit : Nat} {lateness latency : Int}
    (hsort : ∀ t, (log t).Pairwise (fun x y => x.timestamp < y.timestamp))
    (hlate : ∀ t t' e, e ∈ log t' → e.timestamp + lateness ≤ t → e ∈ log t)
    (hdelay : lateness + latency ≤ c.delay) (hstop : c.stop = none)
    {tr : List (WalkIn × Option (List Envelope))} {s : WalkState β}
    (h : WalkRun bo c src (LiveReader log limit latency) (walkInit c b) tr (some s)) :
    ∀ t e, e ∈ log t → c.start ≤ e.timestamp → e.timestamp < s.start →
      e ∈ (delivered tr).flatten := by
  refine C46_groups_partial (bo := bo) (src := src) (b := b) (latency := latency)
    (fun t => (hsort t).imp fun h => Int.le_of_lt h) hlate hdelay hstop ?_
  generalize walkInit c b = s0 at h ⊢
  generalize some s = r at h ⊢
  have page : ∀ {st : WalkState β} {i : WalkIn}, LiveReader log limit latency (walkRequest c src st.start) i →
      LiveGroupReader log latency (walkRequest c src st.start) i := by
    intro st i hi
    cases i with
    | failed x => trivial
    | got es now more =>
      obtain ⟨t, h1, h2, rfl⟩ := hi
      refine ⟨t, h1, h2, _, (List.take_append_drop limit _).symm, ?_⟩
      intro x hx y hy
      have hp := (hsort t).sublist (List.filter_sublist
        (p := fun e => decide ((walkRequest c src st.start).start ≤ e.timestamp)))
      rw [← List.take_append_drop limit (List.filter _ (log t))] at hp
      have := (List.pairwise_append.1 hp).2.2 x hx y hy
      omega
  induction h with
  | nil s => exact .nil s
  | done he hs => exact .done (page he) hs
  | step he hs _ ih => exact .step (page he) hs ih

/-- Two envelopes of one time, the second of which can be read later than the first: a walk
reads both at once when they are old enough. -/
example : ∃ (log : Int → List Envelope) (tr : List (WalkIn × Option (List Envelope))) (s : WalkState Unit),
    (∀ t, (log t).Pairwise (fun x y => x.timestamp ≤ y.timestamp)) ∧
    (∀ t t' e, e ∈ log t' → e.timestamp + 7 ≤ t → e ∈ log t) ∧
    WalkRun alwaysDone { delay := 10 } [] (LiveGroupReader log 3) (walkInit { delay := 10 } ()) tr (some s) ∧
    delivered tr = [[logAt 5 "p", logAt 5 "q"]] ∧ s.start = 6 := by
  refine ⟨fun t => if 12 ≤ t then [logAt 5 "p", logAt 5 "q"] else if 6 ≤ t then [logAt 5 "p"] else [],
    [(.got [logAt 5 "p", logAt 5 "q"] 15 true, some [logAt 5 "p", logAt 5 "q"])],
    ⟨6, false, ()⟩, ?_, ?_, .step ⟨12, by decide, by decide, [], by decide, by decide⟩ rfl (.nil _), rfl, rfl⟩
  · intro t
    dsimp only
    split
    · decide
    · split <;> decide
  · intro t t' e he ht
    have h5 : e = logAt 5 "p" ∨ e = logAt 5 "q" := by
      dsimp only at he
      split at he
      · simpa using he
      · split at he
        · left; simpa using he
        · simp at he
    have ht : 12 ≤ t := by
      rcases h5 with rfl | rfl <;> simpa [logAt] using ht
    dsimp only
    rw [if_pos ht]
    simpa using h5

/-- The documented promise only speaks of the delay.  Here every envelope is visible
within the delay of 10, but a read takes 3: an envelope that becomes visible while
the read is under way is skipped for good. -/
theorem C46_follow_false :
    ∃ (log : Int → List Envelope) (tr : List (WalkIn × Option (List Envelope))) (s : WalkState Unit) (e : Envelope),
      (∀ t, (log t).Pairwise (fun x y => x.timestamp < y.timestamp)) ∧
      (∀ t t' e, e ∈ log t' → e.timestamp + 10 ≤ t → e ∈ log t) ∧
      WalkRun alwaysRetry { delay := 10 } [] (LiveReader log 100 3) (walkInit { delay := 10 } ()) tr (some s) ∧
      e ∈ log 110 ∧ 0 ≤ e.timestamp ∧ e.timestamp < s.start ∧ e ∉ (delivered tr).flatten := by
  refine ⟨fun t => (if 110 ≤ t then [logAt 100] else []) ++ (if 101 ≤ t then [logAt 101] else []),
    [(.got [logAt 101] 112 true, some [logAt 101])], _, logAt 100, ?_, ?_,
    .step ⟨109, by decide, by decide, by decide⟩ rfl (.nil _), by decide, by decide, by decide, by decide⟩
  · intro t
    by_cases h1 : 110 ≤ t <;> by_cases h2 : 101 ≤ t <;> simp [h1, h2, logAt]
  · intro t t' e he ht
    rcases List.mem_append.1 he with h | h
    · split at h
      · rw [List.mem_singleton.1 h] at ht ⊢
        have : 110 ≤ t := by simp only [logAt] at ht; omega
        simp [this]
      · cases h
    · split at h
      · rw [List.mem_singleton.1 h] at ht ⊢
        have : 101 ≤ t := by simp only [logAt] at ht; omega
        simp [this]
      · cases h

/-- A following walk whose reads are instantaneous. -/
example : WalkRun alwaysRetry { delay := 10 } []
    (LiveReader (fun t => if 110 ≤ t then [logAt 100, logAt 101] else []) 100 0) (walkInit { delay := 10 } ())
    [(.got [] 109 true, none), (.got [logAt 100, logAt 101] 110 true, some [logAt 100])]
    (some ⟨101, false, ()⟩) :=
  .step ⟨109, by decide, by decide, by decide⟩ rfl
    (.step ⟨110, by decide, by decide, by decide⟩ rfl (.nil _))

/-! ## Back-off -/

/-- With `RetryBackoff n` the `k`-th read in a row that delivers nothing ends the walk
iff `k ≥ n`; a delivery starts the count again.  The variant for errors only ends the
walk at the first empty read. -/
theorem C47_gives_up {n : Int} {onlyErr : Bool} {c : WalkCfg} {src : Str}
    {env : ReadRequest → WalkIn → Prop}
    {tr : List (WalkIn × Option (List Envelope))} {s : WalkState Int}
    (h : WalkRun (retryBackoff n onlyErr) c src env (walkInit c 0) tr (some s)) :
    (idle tr = 0 ∨ (idle tr : Int) < n) ∧
    ∀ i r, walkStep (retryBackoff n onlyErr) c s i = (none, r) → i ≠ .failed true →
      (r = none ↔ n ≤ idle tr + 1 ∨ (onlyErr = true ∧ i ≠ .failed false)) := by
  have gen : ∀ {s0 : WalkState Int} {tr : List (WalkIn × Option (List Envelope))} {r : Option (WalkState Int)},
      WalkRun (retryBackoff n onlyErr) c src env s0 tr r → ∀ s, r = some s → ∀ k : Nat, s0.b = k →
      (k = 0 ∨ (k : Int) < n) →
      ∃ m : Nat, m = tr.foldl (fun n x => if x.2.isNone then n + 1 else 0) k ∧ s.b = m ∧
        (m = 0 ∨ (m : Int) < n) := by
    intro s0 tr r h
    induction h with
    | nil s0 => intro s hs k hk hlt; cases hs; exact ⟨k, rfl, hk, hlt⟩
    | done => intro s hs; cases hs
    | @step s0 s' i v tr r he hs _ ih =>
      intro s hr k hk hlt
      cases v with
      | none =>
        rw [List.foldl_cons, show (if ((i, none) : WalkIn × Option (List Envelope)).2.isNone = true then k + 1 else 0) = k + 1 from rfl]
        obtain ⟨-, ho⟩ := walkStep_idle hs
        have hb : s'.b = ((k + 1 : Nat) : Int) ∧ ((k + 1 : Nat) : Int) < n := by
          rcases ho with ⟨-, -, ho⟩ | ⟨_, _, _, -, -, -, ho⟩
          · simp only [retryBackoff] at ho
            split at ho
            · simp at ho
            · simp only [Prod.mk.injEq, and_true] at ho
              omega
          · simp only [retryBackoff] at ho
            split at ho
            · simp at ho
            · split at ho
              · simp at ho
              · simp only [Prod.mk.injEq, and_true] at ho
                omega
        exact ih s hr (k + 1) hb.1 (Or.inr hb.2)
      | some d =>
        rw [List.foldl_cons]
        obtain ⟨_, _, _, last, -, -, -, hnext⟩ := walkStep_visit hs
        split at hnext
        · cases hnext
        · cases hnext
          exact ih s hr 0 rfl (Or.inl rfl)
  obtain ⟨m, hm, hb, hlt⟩ := gen h s rfl 0 rfl (Or.inl rfl)
  have hm : m = idle tr := hm
  subst hm
  refine ⟨hlt, ?_⟩
  intro i r hs hi
  cases i with
  | failed ctx =>
    cases ctx with
    | true => exact absurd rfl hi
    | false =>
      simp only [walkStep, Bool.false_eq_true, if_false, retryBackoff, Prod.mk.injEq, true_and, hb] at hs
      subst hs
      by_cases hge : (idle tr : Int) + 1 ≥ n
      · simp [hge]
      · simp [hge]
  | got es now more =>
    unfold walkStep at hs
    simp only at hs
    cases hl : (walkTrim c s.receivedEmpty now es).getLast? with
    | some last => rw [hl] at hs; simp at hs
    | none =>
      rw [hl] at hs
      simp only [retryBackoff, Prod.mk.injEq, true_and, hb] at hs
      subst hs
      cases onlyErr with
      | true => simp
      | false =>
        by_cases hge : (idle tr : Int) + 1 ≥ n
        · simp [hge]
        · simp [hge]

example : ∃ s, WalkRun (retryBackoff 3 false) {} [] (fun _ _ => True) (walkInit {} 0)
    [(.failed false, none), (.got [] 0 true, none)] (some s) ∧ s.b = 2 :=
  ⟨_, .step trivial rfl (.step trivial rfl (.nil _)), rfl⟩

/-! ## Queries reading through a walk -/

theorem walkRun_init_last {β : Type} {bo : Backoff β} {c : WalkCfg} {src : Str}
    {env : ReadRequest → WalkIn → Prop} {s : WalkState β}
    {tr : List (WalkIn × Option (List Envelope))} {r : Option (WalkState β)}
    (h : WalkRun bo c src env s tr r) (hr : r = none) :
    ∃ pre i v s', tr = pre ++ [(i, v)] ∧ WalkRun bo c src env s pre (some s') ∧
      walkStep bo c s' i = (v, none) := by
  induction h with
  | nil => cases hr
  | @done s i v he hs => exact ⟨[], i, v, s, rfl, .nil _, hs⟩
  | @step s s1 i v tr r he hs _ ih =>
    obtain ⟨pre, i', v', s', h1, h2, h3⟩ := ih hr
    exact ⟨(i, v) :: pre, i', v', s', by rw [h1]; rfl, .step he hs h2, h3⟩

/-- Every read a query's data read makes is for the same source, end time, page size
and envelope types as the data read itself, unfiltered and oldest first; it never goes
back before the start time. -/
theorem C48_requests {req : ReadRequest} {tr : List (WalkIn × Option (List Envelope))}
    {r : Option (WalkState Int)} {env : ReadRequest → WalkIn → Prop} (he : ∀ q i, env q i → SortedReader q i)
    (h : WalkRun dataReaderBackoff (dataReaderCfg req) req.sourceId env
      (walkInit (dataReaderCfg req) 0) tr r) :
    WalkRun dataReaderBackoff (dataReaderCfg req) req.sourceId
      (fun q i => env q i ∧ q.sourceId = req.sourceId ∧ req.start ≤ q.start ∧ q.stop = req.stop ∧
        q.limit = req.limit ∧ q.types = req.types ∧ q.nameFilter = [] ∧ q.descending = false)
      (walkInit (dataReaderCfg req) 0) tr r := by
  have key : ∀ s : WalkState Int, req.start ≤ s.start → ∀ i,
      env (walkRequest (dataReaderCfg req) req.sourceId s.start) i →
      (fun q i => env q i ∧ q.sourceId = req.sourceId ∧ req.start ≤ q.start ∧ q.stop = req.stop ∧
        q.limit = req.limit ∧ q.types = req.types ∧ q.nameFilter = [] ∧ q.descending = false)
        (walkRequest (dataReaderCfg req) req.sourceId s.start) i := by
    intro s hs i hi
    refine ⟨hi, rfl, hs, rfl, rfl, ?_, rfl, rfl⟩
    unfold walkRequest dataReaderCfg
    simp only
    split
    · rename_i h; rw [h]; rfl
    · rfl
  suffices hg : ∀ s, req.start ≤ s.start → WalkRun dataReaderBackoff (dataReaderCfg req) req.sourceId env s tr r →
      WalkRun dataReaderBackoff (dataReaderCfg req) req.sourceId
        (fun q i => env q i ∧ q.sourceId = req.sourceId ∧ req.start ≤ q.start ∧ q.stop = req.stop ∧
          q.limit = req.limit ∧ q.types = req.types ∧ q.nameFilter = [] ∧ q.descending = false) s tr r from
    hg _ (Int.le_refl _) h
  clear h
  intro s hs h
  induction h with
  | nil s => exact .nil s
  | done h1 h2 => exact .done (key _ hs _ h1) h2
  | @step s s' i v tr r h1 h2 h3 ih =>
    refine .step (key _ hs _ h1) h2 (ih ?_)
    have hsr := he _ _ h1
    cases i with
    | failed c =>
      cases c with
      | true => simp [walkStep] at h2
      | false =>
        simp only [walkStep, Bool.false_eq_true, if_false, Prod.mk.injEq] at h2
        have := h2.2
        split at this
        · cases this; exact hs
        · cases this
    | got es now more =>
      unfold walkStep at h2
      simp only at h2
      cases hl : (walkTrim (dataReaderCfg req) s.receivedEmpty now es).getLast? with
      | none =>
        rw [hl] at h2
        simp only [Prod.mk.injEq] at h2
        have := h2.2
        split at this
        · cases this; exact hs
        · cases this
      | some last =>
        rw [hl] at h2
        simp only [Prod.mk.injEq] at h2
        have := h2.2
        have hm : last ∈ es := (walkTrim_prefix _ _ _ _).subset (List.mem_of_getLast? hl)
        have hle := hsr.2 last hm
        simp only [walkRequest] at hle
        have hs' : s'.start = last.timestamp + 1 := by
          split at this <;> split at this
          · cases this
          · cases this; rfl
          · cases this
          · cases this; rfl
        rw [hs']
        omega

/-- A query's data read over a node's store (distinct timestamps) ends in one of three
ways: completely; with the context's error; or after five failed reads in a row. -/
theorem C48_outcomes_partial {cfg : Config} (hc : 1 ≤ cfg.maxPerSource) {ops : List Op} {st : Store}
    (hrun : Run (newStore cfg) ops st) (hd : DistinctTs ops) {req : ReadRequest}
    (h0 : req.stop ≠ 0) (compile : Str → Option (Str → Bool))
    {tr : List (WalkIn × Option (List Envelope))}
    (h : WalkRun dataReaderBackoff (dataReaderCfg req) req.sourceId
      (StoreReader compile st 1000000000) (walkInit (dataReaderCfg req) 0) tr none) :
    dataReaderResult false (delivered tr) =
      some (answer req.start req.stop (requestedTypes req.types) none (st.envelopes req.sourceId)) ∨
    ((∃ v, tr.getLast? = some (.failed true, v)) ∧ dataReaderResult true (delivered tr) = none) ∨
    5 ≤ idle tr := by
  obtain ⟨pre, i, v, s', hp, hpre, hlast⟩ := walkRun_init_last h rfl
  cases i with
  | got es now more =>
    left
    obtain ⟨whole, hw, -, h2, -⟩ := C45_store_partial hc hrun hd (c := dataReaderCfg req) rfl h0 compile h
    have h2 := h2 rfl ⟨es, now, more, v, by rw [hp]; simp⟩
    unfold dataReaderResult
    rw [if_neg (by simp), h2, hw]
    congr 2
    unfold dataReaderCfg
    simp only
    split
    · rename_i h; rw [h]; rfl
    · rfl
  | failed ctx =>
    right
    cases ctx with
    | true => exact Or.inl ⟨⟨v, by rw [hp]; simp⟩, rfl⟩
    | false =>
      right
      have hv : v = none := by
        simp only [walkStep, Bool.false_eq_true, if_false, Prod.mk.injEq] at hlast
        exact hlast.1.symm
      subst hv
      have := ((C47_gives_up hpre).2 _ _ hlast (by simp)).1 rfl
      rw [hp]
      unfold idle at *
      rw [List.foldl_append]
      simp at this ⊢
      omega

/-- After five failed reads the part read so far is returned as a success. -/
theorem C48_partial_data_false :
    ∃ (st : Store) (tr : List (WalkIn × Option (List Envelope))),
      Run (newStore { maxPerSource := 10 }) (puts [("a", logAt 1), ("a", logAt 2)]) st ∧
      WalkRun dataReaderBackoff (dataReaderCfg { sourceId := "a".toList, stop := 20, limit := 1 }) "a".toList
        (StoreReader (fun _ => none) st 1000000000)
        (walkInit (dataReaderCfg { sourceId := "a".toList, stop := 20, limit := 1 }) 0) tr none ∧
      st.envelopes "a".toList = [logAt 1, logAt 2] ∧
      dataReaderResult false (delivered tr) = some [logAt 1] :=
  ⟨_, [(.got [logAt 1] 2000000000 true, some [logAt 1]), (.failed false, none), (.failed false, none),
      (.failed false, none), (.failed false, none), (.failed false, none)],
    run_after (by decide),
    .step ⟨⟨0, rfl⟩, rfl, by decide⟩ rfl (.step trivial rfl (.step trivial rfl (.step trivial rfl
      (.step trivial rfl (.done trivial rfl))))), by decide, rfl⟩

/-- A data read without end time, which the Read API takes as "until now", delivers
nothing from after 1970. -/
theorem C85_default_end_false {req : ReadRequest} (h0 : req.stop = 0) {src : Str}
    {tr : List (WalkIn × Option (List Envelope))} {r : Option (WalkState Int)}
    (h : WalkRun dataReaderBackoff (dataReaderCfg req) src SortedReader
      (walkInit (dataReaderCfg req) 0) tr r) :
    ∀ d ∈ delivered tr, ∀ e ∈ d, e.timestamp < 0 := by
  intro d hd e he
  obtain ⟨x, hx, hx2⟩ := List.mem_filterMap.1 hd
  obtain ⟨pre, post, ht⟩ := List.append_of_mem hx
  obtain ⟨i, v⟩ := x
  simp only at hx2
  subst hx2
  obtain ⟨_, _, _, -, hw⟩ := C44_window h ht
  exact (hw e he).2.2.1 0 (by simp [dataReaderCfg, h0])

example : WalkRun dataReaderBackoff (dataReaderCfg { sourceId := [] }) [] SortedReader
    (walkInit (dataReaderCfg { sourceId := [] }) 0) [(.got [logAt 5] 2000000000 true, none)] none :=
  .done ⟨by decide, by decide⟩ rfl

/-! ## Windows -/

theorem windowCall_eq (start width interval : Int) (k : Nat) :
    windowCall start width interval k = (start + k * interval, start + k * interval + width) := by
  induction k generalizing start with
  | zero => simp [windowCall]
  | succ k ih =>
    rw [windowCall, ih]
    have : start + interval + (k : Int) * interval = start + ((k + 1 : Nat) : Int) * interval := by
      rw [Int.natCast_succ, Int.add_mul]; omega
    rw [this]

theorem between_append {log : List Envelope} (h : log.Pairwise (fun x y => x.timestamp ≤ y.timestamp))
    {a b c : Int} (hab : a ≤ b) (hbc : b ≤ c) : between a b log ++ between b c log = between a c log := by
  unfold between
  induction log with
  | nil => rfl
  | cons x t ih =>
    obtain ⟨h1, h2⟩ := List.pairwise_cons.1 h
    have ih := ih h2
    by_cases hx : x.timestamp < b
    · by_cases ha : a ≤ x.timestamp
      · rw [List.filter_cons_of_pos (by simp; omega), List.filter_cons_of_neg (by simp; omega),
          List.filter_cons_of_pos (by simp; omega), List.cons_append, ih]
      · rw [List.filter_cons_of_neg (by simp; omega), List.filter_cons_of_neg (by simp; omega),
          List.filter_cons_of_neg (by simp; omega), ih]
    · have hnil : (x :: t).filter (fun e => decide (a ≤ e.timestamp) && decide (e.timestamp < b)) = [] := by
        rw [List.filter_eq_nil_iff]
        intro y hy
        rcases List.mem_cons.1 hy with rfl | hy
        · simp; omega
        · have := h1 y hy
          simp; omega
      rw [hnil, List.nil_append]
      apply List.filter_congr
      intro y hy
      have : b ≤ y.timestamp := by
        rcases List.mem_cons.1 hy with rfl | hy
        · omega
        · have := h1 y hy; omega
      have h2 : a ≤ y.timestamp := by omega
      simp [this, h2]

theorem walkRun_imp {β : Type} {bo : Backoff β} {c : WalkCfg} {src : Str} {e1 e2 : ReadRequest → WalkIn → Prop}
    (h12 : ∀ s i, e1 (walkRequest c src s) i → e2 (walkRequest c src s) i)
    {s : WalkState β} {tr : List (WalkIn × Option (List Envelope))} {r : Option (WalkState β)}
    (h : WalkRun bo c src e1 s tr r) : WalkRun bo c src e2 s tr r := by
  induction h with
  | nil s => exact .nil s
  | done he hs => exact .done (h12 _ _ he) hs
  | step he hs _ ih => exact .step (h12 _ _ he) hs ih

/-- The `k`-th call of a window covers exactly `[start + k·interval, … + width)`, and if
width and interval are equal the calls together deliver every envelope of the fixed log
exactly once, in order (provided no walk ends with a failed read): also where envelopes
share a time, if reads return whole groups of one time. -/
theorem C49_groups {start interval : Int} (hi : 0 ≤ interval) {log : List Envelope}
    (hlog : log.Pairwise (fun x y => x.timestamp ≤ y.timestamp))
    (src : Str) (tr : Nat → List (WalkIn × Option (List Envelope)))
    (h : ∀ k, WalkRun alwaysDone
      (windowWalk (windowCall start interval interval k).1 (windowCall start interval interval k).2) src
      (GroupReader log 1000000000)
      (walkInit (windowWalk (windowCall start interval interval k).1 (windowCall start interval interval k).2) ())
      (tr k) none)
    (hok : ∀ k, ∃ es now more v, (tr k).getLast? = some (.got es now more, v)) (n : Nat) :
    (List.range n).flatMap (fun k => (delivered (tr k)).flatten) =
      between start (start + n * interval) log := by
  induction n with
  | zero =>
    simp only [List.range_zero, List.flatMap_nil]
    symm
    unfold between
    rw [List.filter_eq_nil_iff]
    intro e _
    simp
  | succ n ih =>
    have hk := (C45_groups (c := windowWalk _ _) rfl hlog (h n)).2.1 rfl (hok n)
    rw [List.range_succ, List.flatMap_append, ih, List.flatMap_cons, List.flatMap_nil, List.append_nil, hk]
    rw [windowCall_eq]
    have hm : (0 : Int) ≤ n * interval := Int.mul_nonneg (by omega) hi
    have : start + ((n + 1 : Nat) : Int) * interval = start + n * interval + interval := by
      rw [Int.natCast_succ, Int.add_mul]; omega
    rw [this]
    exact between_append hlog (by omega) (by omega)

/-- The `k`-th call of a window covers exactly `[start + k·interval, … + width)`, and if
width and interval are equal the calls together deliver every envelope of the fixed log
exactly once, in order (provided no walk ends with a failed read). -/
theorem C49_windows {start interval : Int} (hi : 0 ≤ interval) {log : List Envelope}
    (hlog : log.Pairwise (fun x y => x.timestamp < y.timestamp)) {limit : Nat} (hlim : 1 ≤ limit)
    (src : Str) (tr : Nat → List (WalkIn × Option (List Envelope)))
    (h : ∀ k, WalkRun alwaysDone
      (windowWalk (windowCall start interval interval k).1 (windowCall start interval interval k).2) src
      (LogReader log limit 1000000000)
      (walkInit (windowWalk (windowCall start interval interval k).1 (windowCall start interval interval k).2) ())
      (tr k) none)
    (hok : ∀ k, ∃ es now more v, (tr k).getLast? = some (.got es now more, v)) (n : Nat) :
    (List.range n).flatMap (fun k => (delivered (tr k)).flatten) =
      between start (start + n * interval) log := by
  refine C49_groups hi (hlog.imp fun h => Int.le_of_lt h) src tr (fun k => ?_) hok n
  refine walkRun_imp (fun s i he => ?_) (h k)
  cases i with
  | failed x => trivial
  | got es now more =>
    obtain ⟨rfl, h2, h3⟩ := he
    exact ⟨wholeGroups_take (hlog.sublist List.filter_sublist) hlim, h2, h3⟩

theorem C49_call (start width interval : Int) (k : Nat) :
    windowCall start width interval k = (start + k * interval, start + k * interval + width) :=
  windowCall_eq start width interval k

example : windowCall 100 10 3 2 = (106, 116) := by decide

/-- Windows of ten nanoseconds over two envelopes of one time: every window's walk. -/
example : ∃ tr : Nat → List (WalkIn × Option (List Envelope)),
    (∀ k, WalkRun alwaysDone (windowWalk (windowCall 0 10 10 k).1 (windowCall 0 10 10 k).2) []
      (GroupReader [logAt 1 "p", logAt 1 "q"] 1000000000)
      (walkInit (windowWalk (windowCall 0 10 10 k).1 (windowCall 0 10 10 k).2) ()) (tr k) none) ∧
    (∀ k, ∃ es now more v, (tr k).getLast? = some (.got es now more, v)) ∧
    (delivered (tr 0)).flatten = [logAt 1 "p", logAt 1 "q"] := by
  refine ⟨fun k => if k = 0 then [(.got [logAt 1 "p", logAt 1 "q"] 2000000000 true, some [logAt 1 "p", logAt 1 "q"]),
    (.got [] 2000000000 true, none)] else [(.got [] 2000000000 true, none)], ?_, ?_, rfl⟩
  · intro k
    dsimp only
    split
    · next h =>
      subst h
      exact .step ⟨⟨[], by decide, by decide, by decide⟩, rfl, by decide⟩ rfl
        (.done ⟨⟨[], by decide, by decide, by decide⟩, rfl, by decide⟩ rfl)
    · next h =>
      refine .done ⟨⟨[], ?_, fun _ => rfl, by simp⟩, rfl, by decide⟩ rfl
      rw [windowCall_eq]
      show between (0 + k * 10) _ _ = []
      unfold between
      rw [List.filter_eq_nil_iff]
      intro e he
      have : e.timestamp = 1 := by
        rcases List.mem_cons.1 he with rfl | he
        · rfl
        · rw [List.mem_singleton.1 he]; rfl
      simp
      omega
  · intro k
    dsimp only
    split <;> exact ⟨_, _, _, _, rfl⟩

end LogCache
