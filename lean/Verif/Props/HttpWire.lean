import Verif.Spec.HttpWire
import Verif.Props.EnvelopeFormat
import Verif.Props.PromClient
import Verif.Props.Client
/-!
# The HTTP interface without the client library (C139)
-/
namespace LogCache
open Spec

/-! ## Parameters -/

theorem missing_lookup {q : Values} {k : String} (h : ParamMissing q k) : List.lookup k.toList q = none := by
  cases e : List.lookup k.toList q with
  | none => rfl
  | some vs =>
    exfalso
    revert e h
    induction q with
    | nil => intro _ e; cases e
    | cons a q ih =>
      intro h e
      obtain ⟨k', v'⟩ := a
      rw [List.lookup_cons] at e
      split at e
      · rename_i hk
        injection e with e
        have hk := eq_of_beq hk
        subst hk
        exact h v' (List.mem_cons_self ..)
      · exact ih (fun vs hv => h vs (List.mem_cons_of_mem _ hv)) e

theorem paramText_first {q : Values} {k : String} {v : Str} (h : ParamText q k v) : (q.first k.toList).getD [] = v := by
  unfold Values.first
  rcases h with ⟨vs, h⟩ | ⟨h, rfl⟩
  · rw [h]; rfl
  · rw [missing_lookup h]; rfl

theorem paramNumber_int {q : Values} {k : String} {n : Int} (hn : FitsInt64 n) (h : ParamNumber q k n) :
    intParam q k.toList = some n := by
  unfold intParam Values.first
  rcases h with ⟨vs, h⟩ | ⟨h, rfl⟩
  · rw [h]
    exact parseInt64_dec hn.1 hn.2
  · rw [missing_lookup h]; rfl

theorem paramTypes_list {q : Values} {k : String} {ts : List EType} (h : ParamTypes q k ts) :
    typesParam ((List.lookup k.toList q).getD []) = some ts := by
  rcases h with ⟨vs, h, hf⟩ | ⟨h, rfl⟩
  · rw [h, Option.getD_some]
    clear h
    induction hf with
    | nil => rfl
    | cons h _ ih =>
      obtain ⟨s, hs, rfl⟩ := h
      rw [typesParam, ih]
      cases hs <;> rfl
  · rw [missing_lookup h]; rfl

theorem paramFlag_first {q : Values} {k : String} {b : Bool} (h : ParamFlag q k b) :
    decide (q.first k.toList = some "true".toList) = b := by
  unfold Values.first
  rcases h with ⟨rfl, vs, h⟩ | ⟨rfl, ⟨vs, h⟩ | h⟩
  · rw [h]; rfl
  · rw [h]; rfl
  · rw [missing_lookup h]; rfl

/-- A request to read with parameters of these names asks for just what they say. -/
theorem C139_read (r : ReadRequest) (q : Values) (h : ReadParams q r) (h1 : FitsInt64 r.start) (h2 : FitsInt64 r.stop)
    (h3 : FitsInt64 r.limit) : gatewayRead r.sourceId q = some r := by
  unfold gatewayRead
  rw [paramNumber_int h1 h.start, paramNumber_int h2 h.stop, paramNumber_int h3 h.limit, paramTypes_list h.types]
  simp only
  rw [paramFlag_first h.descending, paramText_first h.name]

example : gatewayRead "s".toList [("limit".toList, ["17".toList]), ("envelope_types".toList, ["LOG".toList, "GAUGE".toList]),
      ("descending".toList, ["true".toList]), ("start_time".toList, ["-5".toList, "6".toList])] =
    some { sourceId := "s".toList, start := -5, limit := 17, types := [.log, .gauge], descending := true } := by
  have d17 : decInt 17 = "17".toList := by unfold decInt; simp [dec]; decide
  have d5 : decInt (-5) = "-5".toList := by unfold decInt; simp [dec]; decide
  refine C139_read { sourceId := "s".toList, start := -5, limit := 17, types := [.log, .gauge], descending := true } _ ⟨.inl ⟨["6".toList], ?_⟩, .inr ⟨?_, rfl⟩, .inl ⟨[], ?_⟩,
    .inl ⟨["LOG".toList, "GAUGE".toList], by decide, .cons ⟨_, .log, rfl⟩ (.cons ⟨_, .gauge, rfl⟩ .nil)⟩,
    .inl ⟨rfl, [], by decide⟩, .inr ⟨?_, rfl⟩⟩ (by unfold FitsInt64; decide) (by unfold FitsInt64; decide)
    (by unfold FitsInt64; decide)
  · rw [d5]; decide
  · intro vs hv; simp at hv
  · rw [d17]; decide
  · intro vs hv; simp at hv

/-! ## Answers -/

theorem short_text (x : F64) (h : Binary64 x) : ValueText x x.fmtShort := by
  cases x with
  | nan => rfl
  | inf neg => rfl
  | fin neg m e =>
    have hp := short_read _ h
    have hne : parseFloat (F64.fmtShort (.fin neg m e)) ≠ none := by rw [hp]; simp
    rw [Ne, C96_errors, not_and_or] at hne
    rcases hne with hw | hs
    · exfalso
      rw [not_forall] at hw
      obtain ⟨x, hx⟩ := hw
      rw [not_not] at hx
      have := C96_words hx
      rw [hp] at this
      injection this with this
      subst this
      rcases hx with ⟨_, h⟩ | ⟨_, h⟩ | ⟨_, h⟩ <;> cases h
    · simp only [not_forall, not_le] at hs
      obtain ⟨neg', q, hs, hq⟩ := hs
      obtain ⟨m', e', h1, h2⟩ := C96_numbers hs hq
      rw [hp] at h1
      injection h1 with h1
      injection h1 with a b c
      subst a; subst b; subst c
      exact ⟨q, hs, h2⟩

theorem point_shown {t : Int} {v : Go64} (ht : TimeInRange t) :
    ∃ j, assemblePoint go64 ⟨formatTime go64 t, v⟩ = some j ∧ PointShown t v.1 j := by
  have hf : formatTime go64 t = thousandthsText t := go64_time ht
  obtain ⟨t', h1, h2⟩ := C76_float64.three (go64.ofMillis t) (C76_float64.millis t)
  have hv := C76_float64.millis t
  unfold assemblePoint formatTime
  rw [h1]
  simp only
  rw [h2, if_pos ((validNumber_iff _).2 hv)]
  refine ⟨_, rfl, _, ?_, short_text v.1 v.2⟩
  show _ = Json.arr [.num (thousandthsText t), _]
  rw [← hf]
  rfl

theorem labels_shown {ls : List (Str × Str)} (h : OneValueEach ls) : LabelsShown ls (assembleMetric (labelMap ls)) := by
  rw [labelMap_nodup ls h]
  exact mapJson_shown (f := Json.str) fun _ _ => rfl

theorem traverse_shown {α β : Type} {f : α → Option Json} {g : β → α} {R : β → Json → Prop} (xs : List β)
    (h : ∀ x ∈ xs, ∃ j, f (g x) = some j ∧ R x j) :
    ∃ js, traverse f (xs.map g) = some js ∧ List.Forall₂ R xs js := by
  induction xs with
  | nil => exact ⟨[], rfl, .nil⟩
  | cons x xs ih =>
    obtain ⟨j, h1, h2⟩ := h x (List.mem_cons_self ..)
    obtain ⟨js, h3, h4⟩ := ih fun y hy => h y (List.mem_cons_of_mem _ hy)
    refine ⟨j :: js, ?_, .cons h2 h4⟩
    rw [List.map_cons, traverse, h1]
    simp only
    rw [h3]

theorem series_shown {x : EngineSeries Go64} (hl : OneValueEach x.labels) (ht : ∀ p ∈ x.points, TimeInRange p.1) :
    ∃ j, assembleSeries go64 (toSeries go64 x) = some j ∧ SeriesShown x j := by
  obtain ⟨js, h1, h2⟩ := traverse_shown (f := assemblePoint go64) (R := fun p j => PointShown p.1 p.2.1 j)
    (g := fun p : Int × Go64 => (⟨formatTime go64 p.1, p.2⟩ : PPoint Go64)) x.points fun p hp => point_shown (ht p hp)
  unfold assembleSeries toSeries
  simp only
  rw [h1]
  cases js with
  | nil =>
    have hx : x.points = [] := by cases hp : x.points with
      | nil => rfl
      | cons a b => rw [hp] at h2; cases h2
    exact ⟨_, rfl, _, _, member_obj rfl, labels_shown hl, member_obj rfl, .inl ⟨hx, rfl⟩⟩
  | cons a b =>
    have hx : x.points ≠ [] := by intro hp; rw [hp] at h2; cases h2
    exact ⟨_, rfl, _, _, member_obj rfl, labels_shown hl, member_obj rfl, .inr ⟨hx, _, rfl, h2⟩⟩

theorem result_shown (v : EngineValue Go64) (h : EngineResult v) :
    ∃ r j, toInstant go64 v = some r ∧ marshalResult go64 (some r) = some j ∧ QueryShown v j := by
  cases v with
  | scalar t v =>
    obtain ⟨j, h1, h2⟩ := point_shown (v := v) h
    refine ⟨_, .obj [("status".toList, .str "success".toList), ("data".toList,
      .obj [("resultType".toList, .str "scalar".toList), ("result".toList, j)])], rfl, ?_, ?_⟩
    · unfold marshalResult assembleData
      simp only
      rw [h1]
      rfl
    · exact ⟨member_obj rfl, _, member_obj rfl, member_obj rfl, j, member_obj rfl, h2⟩
  | vector xs =>
    obtain ⟨js, h1, h2⟩ := traverse_shown (f := assembleSample go64) (R := SampleShown)
      (g := fun s : EngineSample Go64 => (⟨labelMap s.labels, ⟨formatTime go64 s.t, s.v⟩⟩ : PSample Go64)) xs (by
        intro x hx
        obtain ⟨j, h1, h2⟩ := point_shown (v := x.v) (h x hx).2
        refine ⟨.obj [("metric".toList, assembleMetric (labelMap x.labels)), ("value".toList, j)], ?_, ?_⟩
        · unfold assembleSample
          simp only
          rw [h1]
        · exact ⟨_, j, member_obj rfl, labels_shown (h x hx).1, member_obj rfl, h2⟩)
    refine ⟨_, .obj [("status".toList, .str "success".toList), ("data".toList,
      .obj [("resultType".toList, .str "vector".toList), ("result".toList, .arr js)])], rfl, ?_, ?_⟩
    · unfold marshalResult assembleData
      simp only
      rw [h1]
      rfl
    · exact ⟨member_obj rfl, _, member_obj rfl, member_obj rfl, js, member_obj rfl, h2⟩
  | matrix xs =>
    obtain ⟨js, h1, h2⟩ := traverse_shown (f := assembleSeries go64) (R := SeriesShown) (g := toSeries go64) xs
      fun x hx => series_shown (h x hx).1 (h x hx).2
    refine ⟨_, .obj [("status".toList, .str "success".toList), ("data".toList,
      .obj [("resultType".toList, .str "matrix".toList), ("result".toList, .arr js)])], rfl, ?_, ?_⟩
    · unfold marshalResult assembleData
      simp only
      rw [h1]
      rfl
    · exact ⟨member_obj rfl, _, member_obj rfl, member_obj rfl, js, member_obj rfl, h2⟩
  | string t s => exact h.elim

theorem json_line_doc {j : Json} (h : JsonOk j) : JsonDoc j j.line := by
  rw [← C76_grammar]
  exact (C76_json h [] ['\n'] (fun _ h => nomatch h)).1 (fun c hc => .inr (.inr (.inr (by simpa using hc))))

theorem success_served (st : Nat → Nat) (why : Str) {v : EngineValue Go64} (h : EngineResult v) :
    ∃ t j, gatewayProm go64 st why (.ok (toInstant go64 v)) = (200, t) ∧ JsonDoc j t ∧ QueryShown v j := by
  obtain ⟨r, j, h1, h2, h3⟩ := result_shown v h
  refine ⟨j.line, j, ?_, json_line_doc (marshal_ok go64 _ j h2), h3⟩
  rw [h1]
  unfold gatewayProm marshalText
  simp only
  rw [h2]
  rfl

theorem failure_served (st : Nat → Nat) (why : Str) (c : Nat) (m : Str) :
    ∃ t j, gatewayProm go64 st why (.error c m) = (st c, t) ∧ JsonDoc j t ∧ FailureShown m j := by
  refine ⟨_, promErrorBody m, rfl, json_line_doc (by simp [promErrorBody, JsonOk, MembersOk]), member_obj rfl,
    member_obj rfl, member_obj rfl, noMember_obj (by simp [promErrorBody] <;> decide)⟩

/-- An instant query by HTTP: the parameters `query` and `time` are what the node is asked,
and its answer is a JSON document in the format of Prometheus, whatever was computed. -/
theorem C139_instant (st : Nat → Nat) (why : Str) (s : PromServer Go64) (r : HttpReq)
    (hp : r.path = "/api/v1/query".toList) (query time : Str) (hq : ParamText r.params "query" query)
    (ht : ParamText r.params "time" time) :
    (∀ v, s.instant ⟨query, time⟩ = .ok (toInstant go64 v) → EngineResult v →
      ∃ t j, gatewayServe go64 st why s r = .resp 200 (some t) ∧ JsonDoc j t ∧ QueryShown v j) ∧
    (∀ c m, s.instant ⟨query, time⟩ = .error c m →
      ∃ t j, gatewayServe go64 st why s r = .resp (st c) (some t) ∧ JsonDoc j t ∧ FailureShown m j) := by
  have e : gatewayServe go64 st why s r = .resp (gatewayProm go64 st why (s.instant ⟨query, time⟩)).1
      (some (gatewayProm go64 st why (s.instant ⟨query, time⟩)).2) := by
    unfold gatewayServe gatewayInstant
    rw [if_pos hp, paramText_first hq, paramText_first ht]
  rw [e]
  constructor
  · intro v hv hr
    obtain ⟨t, j, h1, h2⟩ := success_served st why hr
    rw [hv, h1]
    exact ⟨t, j, rfl, h2⟩
  · intro c m hv
    obtain ⟨t, j, h1, h2⟩ := failure_served st why c m
    rw [hv, h1]
    exact ⟨t, j, rfl, h2⟩

/-- A result with a value that is not finite and a series with two labels, and the node that
answers it to one query. -/
example : ∃ t j, gatewayServe go64 (fun _ => 500) []
    { instant := fun r => if r = ⟨"up".toList, "12".toList⟩ then
        .ok (toInstant go64 (.vector [⟨[("a".toList, "x".toList), ("b".toList, [])], 12000, ⟨.inf true, trivial⟩⟩]))
        else .error 2 [], range := fun _ => .error 2 [] }
    { path := "/api/v1/query".toList, params := [("time".toList, ["12".toList]), ("query".toList, ["up".toList])] } =
      .resp 200 (some t) ∧ JsonDoc j t ∧
    QueryShown (.vector [⟨[("a".toList, "x".toList), ("b".toList, [])], 12000, ⟨.inf true, trivial⟩⟩]) j :=
  (C139_instant _ _ _ _ rfl "up".toList "12".toList (.inl ⟨[], rfl⟩) (.inl ⟨[], rfl⟩)).1 _ (by simp only [if_true]) (by
    intro s hs
    rw [List.mem_singleton.1 hs]
    exact ⟨by unfold OneValueEach; decide, by unfold TimeInRange; decide⟩)

/-- A range query by HTTP, with the parameters `query`, `start`, `end` and `step`. -/
theorem C139_range (st : Nat → Nat) (why : Str) (s : PromServer Go64) (r : HttpReq)
    (hp : r.path = "/api/v1/query_range".toList) (query start stop step : Str) (hq : ParamText r.params "query" query)
    (h1 : ParamText r.params "start" start) (h2 : ParamText r.params "end" stop)
    (h3 : ParamText r.params "step" step) :
    (∀ xs, s.range ⟨query, start, stop, step⟩ = .ok (toRange go64 (.matrix xs)) → EngineResult (.matrix xs) →
      ∃ t j, gatewayServe go64 st why s r = .resp 200 (some t) ∧ JsonDoc j t ∧ QueryShown (.matrix xs) j) ∧
    (∀ c m, s.range ⟨query, start, stop, step⟩ = .error c m →
      ∃ t j, gatewayServe go64 st why s r = .resp (st c) (some t) ∧ JsonDoc j t ∧ FailureShown m j) := by
  have e : gatewayServe go64 st why s r = .resp (gatewayProm go64 st why (s.range ⟨query, start, stop, step⟩)).1
      (some (gatewayProm go64 st why (s.range ⟨query, start, stop, step⟩)).2) := by
    unfold gatewayServe gatewayRange
    rw [if_neg (by rw [hp]; decide), if_pos hp, paramText_first hq, paramText_first h1, paramText_first h2,
      paramText_first h3]
  rw [e]
  constructor
  · intro xs hv hr
    obtain ⟨t, j, h1, h2⟩ := success_served st why hr
    rw [hv, show toRange go64 (.matrix xs) = toInstant go64 (.matrix xs) from rfl, h1]
    exact ⟨t, j, rfl, h2⟩
  · intro c m hv
    obtain ⟨t, j, h1, h2⟩ := failure_served st why c m
    rw [hv, h1]
    exact ⟨t, j, rfl, h2⟩

end LogCache
