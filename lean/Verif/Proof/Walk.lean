import Verif.Spec.Walk
/-! # Lemmas about `Walk` -/
namespace LogCache
open Spec

theorem dropWhile_rev_prefix (p : Envelope → Bool) (l : List Envelope) : cutTail p l <+: l := by
  unfold cutTail
  have h := List.dropWhile_suffix (l := l.reverse) p
  have := List.reverse_prefix.2 h
  rwa [List.reverse_reverse] at this

theorem dropWhile_all {α : Type} (p : α → Bool) (l : List α) (h : l.Pairwise (fun x y => p y → p x)) :
    l.dropWhile p = l.filter (fun e => !p e) := by
  induction l with
  | nil => rfl
  | cons x t ih =>
    obtain ⟨h1, h2⟩ := List.pairwise_cons.1 h
    by_cases hx : p x = true
    · rw [List.dropWhile_cons_of_pos hx, List.filter_cons_of_neg (by simp [hx]), ih h2]
    · rw [List.dropWhile_cons_of_neg hx, List.filter_cons_of_pos (by simp [hx])]
      congr 1
      symm
      rw [List.filter_eq_self]
      intro y hy
      cases hp : p y with
      | false => rfl
      | true => exact absurd (h1 y hy hp) hx

theorem cutTail_filter (p : Envelope → Bool) (l : List Envelope) (h : l.Pairwise (fun x y => p x → p y)) :
    cutTail p l = l.filter (fun e => !p e) := by
  unfold cutTail
  rw [dropWhile_all, ← List.filter_reverse, List.reverse_reverse]
  exact List.pairwise_reverse.2 h

/-- Which envelopes an iteration keeps. -/
def keeps (c : WalkCfg) (re : Bool) (now : Int) (e : Envelope) : Bool :=
  ((c.stop.isSome && re) || decide (e.timestamp ≤ now - c.delay)) &&
  (match c.stop with | some stop => decide (e.timestamp < stop) | none => true)

theorem walkTrim_filter (c : WalkCfg) (re : Bool) (now : Int) {es : List Envelope}
    (h : es.Pairwise (fun x y => x.timestamp ≤ y.timestamp)) :
    walkTrim c re now es = es.filter (keeps c re now) := by
  have cut : ∀ (t : Int) (l : List Envelope), l.Pairwise (fun x y => x.timestamp ≤ y.timestamp) →
      cutTail (fun e => !decide (e.timestamp ≤ t)) l = l.filter (fun e => decide (e.timestamp ≤ t)) := by
    intro t l hl
    rw [cutTail_filter]
    · simp
    · refine hl.imp ?_
      intro x y hxy hx
      simp at hx ⊢; omega
  have cut2 : ∀ (t : Int) (l : List Envelope), l.Pairwise (fun x y => x.timestamp ≤ y.timestamp) →
      cutTail (fun e => !decide (e.timestamp < t)) l = l.filter (fun e => decide (e.timestamp < t)) := by
    intro t l hl
    rw [cutTail_filter]
    · simp
    · refine hl.imp ?_
      intro x y hxy hx
      simp at hx ⊢; omega
  unfold walkTrim keeps
  cases hstop : c.stop with
  | none => simp [cut _ _ h]
  | some stop =>
    cases re with
    | false =>
      simp only [Option.isNone_some, Bool.not_false, Bool.or_true, if_true, Option.isSome_some,
        Bool.and_false, Bool.false_or]
      rw [cut _ _ h, cut2 _ _ (h.sublist List.filter_sublist), List.filter_filter]
      congr 1
      funext e
      exact Bool.and_comm _ _
    | true =>
      simp only [Option.isNone_some, Bool.not_true, Bool.or_false, Bool.false_eq_true, if_false,
        Option.isSome_some, Bool.and_true, Bool.true_or, Bool.true_and]
      rw [cut2 _ _ h]

theorem walkTrim_prefix (c : WalkCfg) (re : Bool) (now : Int) (es : List Envelope) :
    walkTrim c re now es <+: es := by
  unfold walkTrim
  simp only
  have : ∀ b : Bool, (if b then cutTail (fun e => !decide (e.timestamp ≤ now - c.delay)) es else es) <+: es := by
    intro b
    cases b with
    | true => exact dropWhile_rev_prefix _ _
    | false => exact List.prefix_refl _
  split
  · exact (dropWhile_rev_prefix _ _).trans (this _)
  · exact this _

theorem localRead_ok {compile : Str → Option (Str → Bool)} {now : Int} {st : Store} {req : ReadRequest}
    {res : List Envelope} (h : localRead compile now st req = some (.ok res)) :
    ∃ a : GetArgs, get st req.sourceId a = some res ∧ a.types = requestedTypes req.types ∧
      a.start = req.start ∧ a.stop = (if req.stop = 0 then now else req.stop) ∧
      a.limit = (if req.limit = 0 then 100 else req.limit) ∧ 1 ≤ a.limit ∧
      a.descending = req.descending ∧
      a.nameFilter = (if req.nameFilter = [] then none else compile req.nameFilter) := by
  unfold localRead at h
  cases ha : readArgs compile now req with
  | error e => rw [ha] at h; simp at h
  | ok a =>
    rw [ha] at h
    simp only at h
    cases hg : get st req.sourceId a with
    | none => rw [hg] at h; cases h
    | some r =>
      rw [hg] at h
      cases h
      refine ⟨a, hg, ?_⟩
      unfold readArgs at ha
      split at ha
      · cases ha
      · split at ha
        · cases ha
        · split at ha
          · cases ha
          · simp only at ha
            have hl : 1 ≤ (if req.limit = 0 then 100 else req.limit) := by split <;> omega
            by_cases hn : req.nameFilter = []
            · rw [if_neg (by simp [hn])] at ha
              cases ha
              exact ⟨rfl, rfl, rfl, rfl, hl, rfl, by rw [if_pos hn]⟩
            · rw [if_pos hn] at ha
              cases hcm : compile req.nameFilter with
              | none => rw [hcm] at ha; cases ha
              | some m =>
                rw [hcm] at ha
                cases ha
                exact ⟨rfl, rfl, rfl, rfl, hl, rfl, by rw [if_neg hn]⟩

/-- Does the walk end after a delivered batch? -/
def walkOver (c : WalkCfg) (more : Bool) (last : Envelope) : Bool :=
  !more || (match c.stop with | some stop => decide (last.timestamp + 1 ≥ stop) | none => false)

/-- A step that reaches the visitor. -/
theorem walkStep_visit {β : Type} {bo : Backoff β} {c : WalkCfg} {s : WalkState β} {i : WalkIn}
    {d : List Envelope} {r : Option (WalkState β)} (h : walkStep bo c s i = (some d, r)) :
    ∃ es now more last, i = .got es now more ∧ d = walkTrim c s.receivedEmpty now es ∧
      d.getLast? = some last ∧
      r = (if walkOver c more last = true then none else some ⟨last.timestamp + 1, false, bo.reset s.b⟩) := by
  cases i with
  | failed ctx =>
    unfold walkStep at h
    cases ctx <;> simp at h
  | got es now more =>
    unfold walkStep at h
    simp only at h
    cases hl : (walkTrim c s.receivedEmpty now es).getLast? with
    | none => rw [hl] at h; simp at h
    | some last =>
      rw [hl] at h
      simp only [Prod.mk.injEq, Option.some.injEq] at h
      exact ⟨es, now, more, last, rfl, h.1.symm, by rw [← h.1]; exact hl, h.2.symm⟩

/-- A step that does not. -/
theorem walkStep_idle {β : Type} {bo : Backoff β} {c : WalkCfg} {s s' : WalkState β} {i : WalkIn}
    (h : walkStep bo c s i = (none, some s')) :
    s'.start = s.start ∧
    ((i = .failed false ∧ s'.receivedEmpty = s.receivedEmpty ∧ bo.onErr s.b = (s'.b, true)) ∨
      ∃ es now more, i = .got es now more ∧ walkTrim c s.receivedEmpty now es = [] ∧
        s'.receivedEmpty = true ∧ bo.onEmpty s.b = (s'.b, true)) := by
  obtain ⟨onErr, onEmpty, reset⟩ := bo
  cases i with
  | failed ctx =>
    unfold walkStep at h
    cases ctx with
    | true => simp at h
    | false =>
      simp only [Bool.false_eq_true, if_false, Prod.mk.injEq, true_and] at h
      rcases ho : onErr s.b with ⟨b, go⟩
      simp only [ho] at h
      cases go with
      | false => simp at h
      | true =>
        simp only [if_true, Option.some.injEq] at h
        subst h
        exact ⟨rfl, Or.inl ⟨rfl, rfl, ho⟩⟩
  | got es now more =>
    unfold walkStep at h
    simp only at h
    cases hl : (walkTrim c s.receivedEmpty now es).getLast? with
    | some last => rw [hl] at h; simp at h
    | none =>
      rw [hl] at h
      simp only [Prod.mk.injEq, true_and] at h
      rcases ho : onEmpty s.b with ⟨b, go⟩
      simp only [ho] at h
      cases go with
      | false => simp at h
      | true =>
        simp only [if_true, Option.some.injEq] at h
        subst h
        exact ⟨rfl, Or.inr ⟨es, now, more, rfl, List.getLast?_eq_none_iff.1 hl, rfl, ho⟩⟩

end LogCache
