import Verif.Spec.Query
import Verif.Spec.Float
import Verif.Proof.Promql
import Verif.Props.Promql
import Verif.Props.Float

/-! # Properties of query handlers (C97) -/

namespace LogCache
open Spec
variable {F : Type}

theorem select_iff (interval start stop : Int) (read : ReadRequest → Option (List Envelope)) (order : List Str)
    (ms : List Matcher) (ho : order.Perm (selectArgs ms).ids) (ans : Option (List SeriesData)) :
    (select interval start stop read order ms).isSome ↔ AllRead read ⟨start, stop, ms, ans⟩ := by
  constructor
  · intro h
    obtain ⟨out, h⟩ := Option.isSome_iff_exists.1 h
    have h1 := (C55_select_reads_all interval start stop read order ms out h).1
    constructor
    · by_cases h0 : (selectArgs ms).ids = []
      · unfold select at h; simp only [h0, if_true] at h; cases h
      · obtain ⟨id, hid⟩ := List.exists_mem_of_ne_nil _ h0
        exact ⟨id, (mem_selectIds ms id).1 hid⟩
    · intro id hid
      exact Option.isSome_iff_exists.1 (h1 id (ho.mem_iff.2 ((mem_selectIds ms id).2 hid)))
  · rintro ⟨⟨id, hid⟩, hall⟩
    have h0 : (selectArgs ms).ids ≠ [] := List.ne_nil_of_mem ((mem_selectIds ms id).2 hid)
    unfold select
    simp only
    rw [if_neg h0, Option.isSome_map]
    have hall' : ∀ x ∈ order, ∃ es, read (selectRequest start stop x) = some es := fun x hx =>
      hall x ((mem_selectIds ms x).1 (ho.mem_iff.1 hx))
    clear ho
    generalize ([] : List (Str × SeriesData)) = b
    induction order generalizing b with
    | nil => rfl
    | cons x xs ih =>
      obtain ⟨es, he⟩ := hall' x (List.mem_cons_self ..)
      rw [selectLoop, he]
      exact ih (fun y hy => hall' y (List.mem_cons_of_mem _ hy)) _

theorem runEngine_dialogue (read : Nat → ReadRequest → Option (List Envelope))
    (order : Nat → List Matcher → List Str) (ho : ∀ n, ValidOrder (order n)) (p : EngineRun F) :
    ∀ n, Dialogue p (runEngine read order n p).1 (runEngine read order n p).2 ∧
      ∀ i c, (runEngine read order n p).1[i]? = some c →
        (c.answer.isSome ↔ AllRead (read (n + i)) c) ∧
        c.answer = select 1000000000 c.start c.stop (read (n + i)) (order (n + i) c.ms) c.ms := by
  induction p with
  | done r => intro n; exact ⟨.done, by intro i c h; simp [runEngine] at h⟩
  | ask mint maxt ms k ih =>
    intro n
    obtain ⟨h1, h2⟩ := ih (select 1000000000 (wrap64 (mint * 1000000)) (wrap64 (maxt * 1000000)) (read n)
      (order n ms) ms) (n + 1)
    rw [runEngine]
    refine ⟨.ask (as64_wrap _) (as64_wrap _) h1, ?_⟩
    intro i c hc
    cases i with
    | zero =>
      simp only [List.getElem?_cons_zero, Option.some.injEq] at hc
      subst hc
      exact ⟨select_iff _ _ _ _ _ _ (validOrder_perm (ho n) ms) _, rfl⟩
    | succ i =>
      simp only [List.getElem?_cons_succ] at hc
      have := h2 i c hc
      have e : n + 1 + i = n + (i + 1) := by omega
      rwa [e] at this

theorem closureErr_iff (read : Nat → ReadRequest → Option (List Envelope)) (calls : List SelectCall)
    (h : ∀ i c, calls[i]? = some c → (c.answer.isSome ↔ AllRead (read i) c)) :
    closureErr calls = true ↔ ∃ i c, calls[i]? = some c ∧ ¬ AllRead (read i) c := by
  unfold closureErr
  rw [List.any_eq_true]
  constructor
  · rintro ⟨c, hc, hn⟩
    obtain ⟨i, hi⟩ := List.mem_iff_getElem?.1 hc
    refine ⟨i, c, hi, ?_⟩
    rw [← h i c hi]
    cases hca : c.answer <;> simp_all
  · rintro ⟨i, c, hi, hn⟩
    refine ⟨c, List.mem_of_getElem? hi, ?_⟩
    rw [← h i c hi] at hn
    cases hca : c.answer <;> simp_all

theorem finish_honest (read : Nat → ReadRequest → Option (List Envelope))
    (order : Nat → List Matcher → List Str) (ho : ∀ n, ValidOrder (order n)) (p : EngineRun F)
    (conv : EngineValue F → Option (PResult F)) :
    HonestQuery read (finishQuery conv (runEngine read order 0 p)) ∧
    (∀ r, (finishQuery conv (runEngine read order 0 p)).result = .answer r ↔
      ∃ v calls, Dialogue p calls (some v) ∧ (finishQuery conv (runEngine read order 0 p)).calls = calls ∧
        (∀ i c, calls[i]? = some c → AllRead (read i) c ∧
          c.answer = select 1000000000 c.start c.stop (read i) (order i c.ms) c.ms) ∧ conv v = some r) := by
  obtain ⟨hd, hc⟩ := runEngine_dialogue read order ho p 0
  have hc1 : ∀ i c, (runEngine read order 0 p).1[i]? = some c → (c.answer.isSome ↔ AllRead (read i) c) := by
    intro i c h; have := (hc i c h).1; rwa [Nat.zero_add] at this
  have hc2 : ∀ i c, (runEngine read order 0 p).1[i]? = some c →
      c.answer = select 1000000000 c.start c.stop (read i) (order i c.ms) c.ms := by
    intro i c h; have := (hc i c h).2; rwa [Nat.zero_add] at this
  have he := closureErr_iff read _ hc1
  generalize hx : runEngine read order 0 p = x at *
  obtain ⟨calls, r0⟩ := x
  simp only at hd hc1 hc2 he
  have hcalls : (finishQuery conv (calls, r0)).calls = calls := by
    unfold finishQuery
    split
    · rfl
    · split
      · rfl
      · split <;> rfl
  by_cases hce : closureErr calls = true
  · have hf : finishQuery conv (calls, r0) = ⟨calls, 1, .error⟩ := by
      unfold finishQuery; rw [if_pos hce]
    have hbad := he.1 hce
    rw [hf]
    refine ⟨⟨?_, ?_, ?_⟩, ?_⟩
    · intro r h; cases h
    · intro i c _ _; exact ⟨rfl, rfl⟩
    · intro h; obtain ⟨i, c, h1, h2⟩ := hbad; exact absurd (h i c h1) h2
    · intro r
      constructor
      · intro h; cases h
      · rintro ⟨v, calls', _, h1, h2, _⟩
        obtain ⟨i, c, h3, h4⟩ := hbad
        have h1 : calls = calls' := h1
        subst h1
        exact absurd (h2 i c h3).1 h4
  · have hgood : ∀ i c, calls[i]? = some c → AllRead (read i) c := by
      intro i c h
      by_contra hn
      exact hce (he.2 ⟨i, c, h, hn⟩)
    have hfail : (finishQuery conv (calls, r0)).failures = 0 := by
      unfold finishQuery
      rw [if_neg hce]
      split
      · rfl
      · split <;> rfl
    refine ⟨⟨?_, ?_, fun _ => hfail⟩, ?_⟩
    · intro r _ i c h; rw [hcalls] at h; exact hgood i c h
    · intro i c h hn; rw [hcalls] at h; exact absurd (hgood i c h) hn
    · intro r
      constructor
      · intro h
        unfold finishQuery at h
        rw [if_neg hce] at h
        split at h
        · cases h
        · rename_i v hv
          simp only at hv
          subst hv
          split at h
          · rename_i r' hr
            simp only [QueryEnd.answer.injEq] at h
            subst h
            exact ⟨v, calls, hd, hcalls, fun i c hi => ⟨hgood i c hi, hc2 i c hi⟩, hr⟩
          · cases h
      · rintro ⟨v, calls', hd', h1, h2, h3⟩
        rw [hcalls] at h1
        subst h1
        have hu : r0 = some v := by
          clear hcalls hfail hce he hc1 hc2 hc h2 hgood hx
          induction hd with
          | done => cases hd'; rfl
          | ask _ _ _ ih => cases hd' with | ask _ _ h => exact ih h
        subst hu
        unfold finishQuery
        rw [if_neg hce]
        simp only [h3]

/-! ## C97 -/

/-- Instant queries are answered only with complete data. -/
theorem C97_instant (fl : FloatLib F) (rfc : Str → Option Int) (engine : Str → Int → Option (EngineRun F))
    (read : Nat → ReadRequest → Option (List Envelope)) (order : Nat → List Matcher → List Str)
    (ho : ∀ n, ValidOrder (order n)) (now : Int) (query time : Str) :
    HonestQuery read (instantQuery fl rfc engine read order now query time) := by
  have triv : HonestQuery read (⟨[], 0, .error⟩ : HandledQuery F) :=
    ⟨fun _ h => (by cases h), fun _ _ h => (by simp at h), fun _ => rfl⟩
  unfold instantQuery
  cases requestTime rfc now time with
  | none => exact triv
  | some t =>
    simp only
    cases engine query t with
    | none => exact triv
    | some p => exact (finish_honest read order ho p _).1

/-- Range queries are answered only with complete data. -/
theorem C97_range (fl : FloatLib F) (rfc dur : Str → Option Int)
    (engine : Str → Int → Int → Int → Option (EngineRun F))
    (read : Nat → ReadRequest → Option (List Envelope)) (order : Nat → List Matcher → List Str)
    (ho : ∀ n, ValidOrder (order n)) (query start stop step : Str) :
    HonestQuery read (rangeQuery fl rfc dur engine read order query start stop step) := by
  have triv : HonestQuery read (⟨[], 0, .error⟩ : HandledQuery F) :=
    ⟨fun _ h => (by cases h), fun _ _ h => (by simp at h), fun _ => rfl⟩
  unfold rangeQuery
  cases parseStep dur step with
  | none => exact triv
  | some d =>
    simp only
    cases parseTime rfc start with
    | none => exact triv
    | some a =>
      simp only
      cases parseTime rfc stop with
      | none => exact triv
      | some b =>
        simp only
        cases engine query a b d with
        | none => exact triv
        | some p => exact (finish_honest read order ho p _).1

/-- The answer of an instant query is the engine's value for the query at the requested
time, computed from what its selectors were told. -/
theorem C97_instant_answer (fl : FloatLib F) (rfc : Str → Option Int) (engine : Str → Int → Option (EngineRun F))
    (read : Nat → ReadRequest → Option (List Envelope)) (order : Nat → List Matcher → List Str)
    (ho : ∀ n, ValidOrder (order n)) (now : Int) (query time : Str) (r : PResult F) :
    (instantQuery fl rfc engine read order now query time).result = .answer r ↔
    ∃ t p v calls, (if time = [] then t % 1000000000 = 0 ∧ t ≤ now ∧ now < t + 1000000000 else parseTime rfc time = some t) ∧
      engine query t = some p ∧ Dialogue p calls (some v) ∧
      (instantQuery fl rfc engine read order now query time).calls = calls ∧
      (∀ i c, calls[i]? = some c → AllRead (read i) c ∧
        c.answer = select 1000000000 c.start c.stop (read i) (order i c.ms) c.ms) ∧ toInstant fl v = some r := by
  have ht : ∀ t, requestTime rfc now time = some t ↔
      (if time = [] then t % 1000000000 = 0 ∧ t ≤ now ∧ now < t + 1000000000 else parseTime rfc time = some t) := by
    intro t
    unfold requestTime
    split
    · simp only [Option.some.injEq]; omega
    · rfl
  constructor
  · intro h
    unfold instantQuery at h
    cases h1 : requestTime rfc now time with
    | none => rw [h1] at h; cases h
    | some t =>
      rw [h1] at h
      simp only at h
      cases h2 : engine query t with
      | none => rw [h2] at h; cases h
      | some p =>
        rw [h2] at h
        simp only at h
        obtain ⟨v, calls, a, b, c, d⟩ := ((finish_honest read order ho p (toInstant fl)).2 r).1 h
        refine ⟨t, p, v, calls, (ht t).1 h1, h2, a, ?_, c, d⟩
        unfold instantQuery
        rw [h1]; simp only; rw [h2]; exact b
  · rintro ⟨t, p, v, calls, h1, h2, a, b, c, d⟩
    have h1 := (ht t).2 h1
    unfold instantQuery at b ⊢
    rw [h1] at b ⊢
    simp only at b ⊢
    rw [h2] at b ⊢
    exact ((finish_honest read order ho p (toInstant fl)).2 r).2 ⟨v, calls, a, b, c, d⟩

/-- The answer of a range query is the engine's value for the query from start to end at
the given step. -/
theorem C97_range_answer (fl : FloatLib F) (rfc dur : Str → Option Int)
    (engine : Str → Int → Int → Int → Option (EngineRun F))
    (read : Nat → ReadRequest → Option (List Envelope)) (order : Nat → List Matcher → List Str)
    (ho : ∀ n, ValidOrder (order n)) (query start stop step : Str) (r : PResult F) :
    (rangeQuery fl rfc dur engine read order query start stop step).result = .answer r ↔
    ∃ a b d p v calls, parseTime rfc start = some a ∧ parseTime rfc stop = some b ∧ parseStep dur step = some d ∧
      engine query a b d = some p ∧ Dialogue p calls (some v) ∧
      (rangeQuery fl rfc dur engine read order query start stop step).calls = calls ∧
      (∀ i c, calls[i]? = some c → AllRead (read i) c ∧
        c.answer = select 1000000000 c.start c.stop (read i) (order i c.ms) c.ms) ∧ toRange fl v = some r := by
  constructor
  · intro h
    unfold rangeQuery at h
    cases h1 : parseStep dur step with
    | none => rw [h1] at h; cases h
    | some d =>
      rw [h1] at h
      simp only at h
      cases h2 : parseTime rfc start with
      | none => rw [h2] at h; cases h
      | some a =>
        rw [h2] at h
        simp only at h
        cases h3 : parseTime rfc stop with
        | none => rw [h3] at h; cases h
        | some b =>
          rw [h3] at h
          simp only at h
          cases h4 : engine query a b d with
          | none => rw [h4] at h; cases h
          | some p =>
            rw [h4] at h
            simp only at h
            obtain ⟨v, calls, x, y, z, w⟩ := ((finish_honest read order ho p (toRange fl)).2 r).1 h
            refine ⟨a, b, d, p, v, calls, rfl, rfl, rfl, h4, x, ?_, z, w⟩
            unfold rangeQuery
            rw [h1]; simp only; rw [h2]; simp only; rw [h3]; simp only; rw [h4]; exact y
  · rintro ⟨a, b, d, p, v, calls, h2, h3, h1, h4, x, y, z, w⟩
    unfold rangeQuery at y ⊢
    rw [h1] at y ⊢
    simp only at y ⊢
    rw [h2] at y ⊢
    simp only at y ⊢
    rw [h3] at y ⊢
    simp only at y ⊢
    rw [h4] at y ⊢
    exact ((finish_honest read order ho p (toRange fl)).2 r).2 ⟨v, calls, x, y, z, w⟩

/-- Nothing is read for a query whose time cannot be read: it is an error. -/
theorem C97_bad_time (fl : FloatLib F) (rfc : Str → Option Int) (engine : Str → Int → Option (EngineRun F))
    (read : Nat → ReadRequest → Option (List Envelope)) (order : Nat → List Matcher → List Str)
    (now : Int) (query time : Str) (hne : time ≠ []) (h1 : parseFloat time = none) (h2 : rfc time = none) :
    instantQuery fl rfc engine read order now query time = ⟨[], 0, .error⟩ := by
  unfold instantQuery requestTime
  rw [if_neg hne, (C96_dates rfc rfc h1).1, h2]

/-- Nor for a range query one of whose times, or whose step, cannot be read. -/
theorem C97_bad_range (fl : FloatLib F) (rfc dur : Str → Option Int)
    (engine : Str → Int → Int → Int → Option (EngineRun F))
    (read : Nat → ReadRequest → Option (List Envelope)) (order : Nat → List Matcher → List Str)
    (query start stop step : Str)
    (h : (parseFloat start = none ∧ rfc start = none) ∨ (parseFloat stop = none ∧ rfc stop = none) ∨
      (parseFloat step = none ∧ dur step = none)) :
    rangeQuery fl rfc dur engine read order query start stop step = ⟨[], 0, .error⟩ := by
  unfold rangeQuery
  rcases h with ⟨h1, h2⟩ | ⟨h1, h2⟩ | ⟨h1, h2⟩
  · rw [(C96_dates rfc dur h1).1, h2]
    cases parseStep dur step <;> rfl
  · rw [(C96_dates rfc dur h1).1, h2]
    cases parseStep dur step
    · rfl
    · cases parseTime rfc start <;> rfl
  · rw [(C96_dates rfc dur h1).2, h2]

/-- The query `cpu{source_id="a"}` as a program that returns the first point. -/
private def exEngineRun : EngineRun Int := .ask 1000 2000 exEqual fun
  | some _ => .done (some (.scalar 2000 7))
  | none => .done (some (.scalar 2000 0))

private theorem exIdOrder : ∀ n : Nat, ValidOrder ((fun _ ms => (selectArgs ms).ids : Nat → List Matcher → List Str) n) :=
  fun _ => idsOrder_valid

/-- An engine that ignores the error of a selector does not make a query succeed. -/
example (fl : FloatLib Int) (rfc : Str → Option Int) :
    (instantQuery fl rfc (fun _ _ => some exEngineRun) (fun _ _ => none) (fun _ ms => (selectArgs ms).ids) 0 [] []).result = .error ∧
    (instantQuery fl rfc (fun _ _ => some exEngineRun) (fun _ _ => none) (fun _ ms => (selectArgs ms).ids) 0 [] []).failures = 1 := by
  have := (C97_instant fl rfc (fun _ _ => some exEngineRun) (fun _ _ => none) (fun _ ms => (selectArgs ms).ids) exIdOrder 0 [] []).failed
    0 ⟨1000000000, 2000000000, exEqual, none⟩ rfl
  apply this
  rintro ⟨⟨id, hid⟩, h⟩
  obtain ⟨es, he⟩ := h id hid
  cases he

/-- With its data it is answered. -/
example (fl : FloatLib Int) (rfc : Str → Option Int) :
    (instantQuery fl rfc (fun _ _ => some exEngineRun) (fun _ _ => some []) (fun _ ms => (selectArgs ms).ids) 0 [] []).result =
      .answer (.scalar ⟨formatTime fl 2000, 7⟩) := rfl

end LogCache
