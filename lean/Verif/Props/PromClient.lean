import Verif.Spec.PromClient
import Verif.Props.JsonText
import Verif.Props.Float
import Verif.Props.Query
import Verif.Props.Float64
import Verif.Proof.Client

/-! # Queries through the client library (C104, C105) -/

namespace LogCache
open Spec
variable {F : Type}

/-! ## Options -/

theorem lastGiven_snoc {α β : Type} (f : α → Option β) (l : List α) (a : α) :
    lastGiven f (l ++ [a]) = (f a).or (lastGiven f l) := by
  unfold lastGiven
  rw [List.reverse_append]
  show List.findSome? f (a :: l.reverse) = _
  rw [List.findSome?_cons]
  cases f a <;> rfl

private theorem first_set (q : Values) (k v k' : Str) :
    (q.set k v).first k' = if k' = k then some v else q.first k' := by
  unfold Values.set Values.first
  rw [mapSet_lookup]
  split <;> rfl

private theorem promFold_first (f : PromOpt → Option Str) (k : Str)
    (hf : ∀ q o, (PromOpt.apply q o).first k = (f o).or (q.first k)) (opts : List PromOpt) (q : Values) :
    (opts.foldl PromOpt.apply q).first k = (lastGiven f opts).or (q.first k) := by
  induction opts generalizing q with
  | nil => rfl
  | cons o os ih =>
    rw [List.foldl_cons, ih, hf]
    have : lastGiven f (o :: os) = (lastGiven f os).or (f o) := by
      unfold lastGiven
      rw [List.reverse_cons, List.findSome?_append]
      congr 1
      rw [List.findSome?_cons]
      cases f o <;> rfl
    rw [this]
    cases lastGiven f os <;> rfl

private theorem lastGiven_map {α β γ : Type} (f : α → Option β) (g : β → γ) (l : List α) :
    lastGiven (fun a => (f a).map g) l = (lastGiven f l).map g := by
  unfold lastGiven
  induction l.reverse with
  | nil => rfl
  | cons a as ih =>
    rw [List.findSome?_cons, List.findSome?_cons]
    cases f a with
    | none => exact ih
    | some b => rfl

private theorem textOf (o : Option Int) : (o.map formatClientTime).getD [] = timeText o := by cases o <;> rfl

private theorem prom_first (opts : List PromOpt) (q : Values) :
    (opts.foldl PromOpt.apply q).first "time".toList = ((lastGiven timeOf opts).map formatClientTime).or (q.first "time".toList) ∧
    (opts.foldl PromOpt.apply q).first "start".toList = ((lastGiven startOf opts).map formatClientTime).or (q.first "start".toList) ∧
    (opts.foldl PromOpt.apply q).first "end".toList = ((lastGiven stopOf opts).map formatClientTime).or (q.first "end".toList) ∧
    (opts.foldl PromOpt.apply q).first "step".toList = (lastGiven stepOf opts).or (q.first "step".toList) ∧
    (opts.foldl PromOpt.apply q).first "query".toList = q.first "query".toList := by
  refine ⟨?_, ?_, ?_, ?_, ?_⟩
  · rw [← lastGiven_map]
    refine promFold_first _ _ (fun q o => ?_) opts q
    cases o <;> (unfold PromOpt.apply timeOf; simp only; rw [first_set]; first | (rw [if_pos rfl]; rfl) | (rw [if_neg (by decide)]; rfl))
  · rw [← lastGiven_map]
    refine promFold_first _ _ (fun q o => ?_) opts q
    cases o <;> (unfold PromOpt.apply startOf; simp only; rw [first_set]; first | (rw [if_pos rfl]; rfl) | (rw [if_neg (by decide)]; rfl))
  · rw [← lastGiven_map]
    refine promFold_first _ _ (fun q o => ?_) opts q
    cases o <;> (unfold PromOpt.apply stopOf; simp only; rw [first_set]; first | (rw [if_pos rfl]; rfl) | (rw [if_neg (by decide)]; rfl))
  · refine promFold_first _ _ (fun q o => ?_) opts q
    cases o <;> (unfold PromOpt.apply stepOf; simp only; rw [first_set]; first | (rw [if_pos rfl]; rfl) | (rw [if_neg (by decide)]; rfl))
  · refine (promFold_first (fun _ => none) _ (fun q o => ?_) opts q).trans ?_
    · cases o <;> (unfold PromOpt.apply; simp only; rw [first_set]; rw [if_neg (by decide)]; rfl)
    · have : lastGiven (fun _ : PromOpt => (none : Option Str)) opts = none := by
        unfold lastGiven
        induction opts.reverse with
        | nil => rfl
        | cons a as ih => exact ih
      rw [this]; rfl

/-! ## C104 -/

/-- Over gRPC and over HTTP the server is asked the same thing: the query as it was
given, with the last time, start, end and step of the options; options that do not
belong to the kind of query are ignored. -/
theorem C104_requests (query : Str) (opts : List PromOpt) :
    grpcPromQL query opts = askedInstant query opts ∧
    gatewayInstant (httpPromQL query opts).params = askedInstant query opts ∧
    grpcPromQLRange query opts = askedRange query opts ∧
    gatewayRange (httpPromQLRange query opts).params = askedRange query opts := by
  have h0 := prom_first opts []
  have h1 := prom_first opts (Values.set [] "query".toList query)
  have q0 : ∀ k, Values.first [] k = none := fun _ => rfl
  have e : ∀ k, k ≠ "query".toList → Values.first (Values.set [] "query".toList query) k = none := by
    intro k hk; rw [first_set, if_neg hk]; rfl
  have eq : Values.first (Values.set [] "query".toList query) "query".toList = some query := by
    rw [first_set, if_pos rfl]
  obtain ⟨a1, a2, a3, a4, -⟩ := h0
  obtain ⟨b1, b2, b3, b4, b5⟩ := h1
  rw [q0, Option.or_none] at a1 a2 a3 a4
  rw [e _ (by decide), Option.or_none] at b1 b2 b3 b4
  rw [eq] at b5
  refine ⟨?_, ?_, ?_, ?_⟩
  · unfold grpcPromQL askedInstant; simp only; rw [a1, textOf]
  · unfold gatewayInstant httpPromQL askedInstant; simp only; rw [b1, b5, textOf]; rfl
  · unfold grpcPromQLRange askedRange; simp only; rw [a2, a3, a4, textOf, textOf]
  · unfold gatewayRange httpPromQLRange askedRange; simp only; rw [b2, b3, b4, b5, textOf, textOf]; rfl

/-- Options as a user writes them. -/
example : gatewayRange (httpPromQLRange "cpu".toList
      [.start 5000000000, .step "1m".toList, .stop 9000000000, .start 7000000000, .time 3]).params =
    { query := "cpu".toList, start := "7.000".toList, stop := "9.000".toList, step := "1m".toList } := by
  rw [(C104_requests _ _).2.2.2]
  decide +kernel

private theorem serve_instant (fl : FloatLib F) (st : Nat → Nat) (why : Str) (s : PromServer F) (query : Str)
    (opts : List PromOpt) : gatewayServe fl st why s (httpPromQL query opts) =
      .resp (gatewayProm fl st why (s.instant (askedInstant query opts))).1
        (some (gatewayProm fl st why (s.instant (askedInstant query opts))).2) := by
  unfold gatewayServe
  rw [if_pos (show (httpPromQL query opts).path = "/api/v1/query".toList from rfl), (C104_requests query opts).2.1]

private theorem serve_range (fl : FloatLib F) (st : Nat → Nat) (why : Str) (s : PromServer F) (query : Str)
    (opts : List PromOpt) : gatewayServe fl st why s (httpPromQLRange query opts) =
      .resp (gatewayProm fl st why (s.range (askedRange query opts))).1
        (some (gatewayProm fl st why (s.range (askedRange query opts))).2) := by
  unfold gatewayServe
  rw [if_neg (show ¬ (httpPromQLRange query opts).path = "/api/v1/query".toList from by
        show ¬ "/api/v1/query_range".toList = "/api/v1/query".toList; decide),
    if_pos (show (httpPromQLRange query opts).path = "/api/v1/query_range".toList from rfl), (C104_requests query opts).2.2.2]

private theorem prom_ok {fl : FloatLib F} {r : Option (PResult F)} {j : Json} (h : marshalResult fl r = some j)
    {st : Nat → Nat} {why : Str} : gatewayProm fl st why (.ok r) = (200, j.line) := by
  unfold gatewayProm
  simp only
  rw [(text_read fl h (unmarshalInstant fl) []).1]

private theorem error_ok (m : Str) : unmarshalJson (promErrorBody m).line = some (promErrorBody m) := by
  have : JsonOk (promErrorBody m) := by simp [promErrorBody, JsonOk, MembersOk]
  have h := (C76_json this [] ['\n'] (fun _ h => nomatch h)).1 (fun c hc => .inr (.inr (.inr (by simpa using hc))))
  exact h

private theorem prom_error (fl : FloatLib F) {st : Nat → Nat} (hst : ErrorStatus st) (why : Str) {c : Nat} {m : Str}
    (hc : c ≠ 0) (un : Json → Option (PResult F)) :
    readProm un (.resp (gatewayProm fl st why (.error c m)).1 (some (gatewayProm fl st why (.error c m)).2)) = none := by
  unfold readProm gatewayProm
  simp only
  rw [if_pos (hst c hc)]

/-- An instant query gives the same over gRPC and over HTTP: the result of the server
for the query that was meant, and an error if the server failed. -/
theorem C104_instant {fl : FloatLib F} (hl : FloatLaws fl) {st : Nat → Nat} (hst : ErrorStatus st) (why : Str)
    (s : PromServer F) (query : Str) (opts : List PromOpt) :
    (∀ r, s.instant (askedInstant query opts) = .ok (some r) → (∀ p ∈ points r, ThreeDecimals fl p.time) →
      grpcProm (s.instant (grpcPromQL query opts)) = some (some r) ∧
      readProm (unmarshalInstant fl) (gatewayServe fl st why s (httpPromQL query opts)) = some r) ∧
    (∀ c m, s.instant (askedInstant query opts) = .error c m → c ≠ 0 →
      grpcProm (s.instant (grpcPromQL query opts)) = none ∧
      readProm (unmarshalInstant fl) (gatewayServe fl st why s (httpPromQL query opts)) = none) := by
  rw [serve_instant, (C104_requests query opts).1]
  constructor
  · intro r hr ht
    rw [hr]
    obtain ⟨j, h1, h2, -⟩ := C76_exact hl r ht
    refine ⟨rfl, ?_⟩
    rw [prom_ok h1]
    unfold readProm
    simp only
    rw [if_neg (by decide), Option.bind_some, ← List.append_nil j.line, (text_read fl h1 _ []).2.1]
    exact h2
  · intro c m hr hc
    rw [hr]
    exact ⟨rfl, prom_error fl hst why hc _⟩

/-- The same for range queries. -/
theorem C104_range {fl : FloatLib F} (hl : FloatLaws fl) {st : Nat → Nat} (hst : ErrorStatus st) (why : Str)
    (s : PromServer F) (query : Str) (opts : List PromOpt) :
    (∀ ss, s.range (askedRange query opts) = .ok (some (.matrix ss)) →
      (∀ p ∈ points (.matrix ss), ThreeDecimals fl p.time) →
      grpcProm (s.range (grpcPromQLRange query opts)) = some (some (.matrix ss)) ∧
      readProm (unmarshalRange fl) (gatewayServe fl st why s (httpPromQLRange query opts)) = some (.matrix ss)) ∧
    (∀ c m, s.range (askedRange query opts) = .error c m → c ≠ 0 →
      grpcProm (s.range (grpcPromQLRange query opts)) = none ∧
      readProm (unmarshalRange fl) (gatewayServe fl st why s (httpPromQLRange query opts)) = none) := by
  rw [serve_range, (C104_requests query opts).2.2.1]
  constructor
  · intro ss hr ht
    rw [hr]
    obtain ⟨j, h1, -, h2⟩ := C76_exact hl (.matrix ss) ht
    refine ⟨rfl, ?_⟩
    rw [prom_ok h1]
    unfold readProm
    simp only
    rw [if_neg (by decide), Option.bind_some, ← List.append_nil j.line, (text_read fl h1 _ []).2.1]
    exact h2 ⟨ss, rfl⟩
  · intro c m hr hc
    rw [hr]
    exact ⟨rfl, prom_error fl hst why hc _⟩

/-- An empty result message is where the two differ: no error over gRPC, an error over
HTTP. -/
theorem C104_empty_false (fl : FloatLib F) (st : Nat → Nat) (why : Str) (s : PromServer F) (query : Str)
    (opts : List PromOpt) (h : s.instant (askedInstant query opts) = .ok none) :
    grpcProm (s.instant (grpcPromQL query opts)) = some none ∧
    readProm (unmarshalInstant fl) (gatewayServe fl st why s (httpPromQL query opts)) = none := by
  rw [serve_instant, (C104_requests query opts).1, h]
  refine ⟨rfl, ?_⟩
  have h1 : marshalResult fl none = some (.obj [("status".toList, .str "success".toList),
      ("data".toList, .obj [("resultType".toList, .str [])])]) := rfl
  rw [prom_ok h1]
  unfold readProm
  simp only
  rw [if_neg (by decide), Option.bind_some, ← List.append_nil (Json.line _), (text_read fl h1 _ []).2.1]
  rfl

/-- The whole way: an instant query with a time of whole seconds is evaluated at that
time, and without a time at the current second. -/
theorem C104_evaluated (fl : FloatLib F) (rfc : Str → Option Int) (engine : Str → Int → Option (EngineRun F))
    (read : Nat → ReadRequest → Option (List Envelope)) (order : Nat → List Matcher → List Str) (now : Int)
    (query : Str) (opts : List PromOpt) :
    (∀ t : Nat, lastGiven timeOf opts = some (t : Int) → 1000000000 ∣ t → t < (2 ^ 32 - 1) * 1000000000 →
      instantQuery fl rfc engine read order now (askedInstant query opts).query (askedInstant query opts).time =
        match engine query t with
        | none => ⟨[], 0, .error⟩
        | some p => finishQuery (toInstant fl) (runEngine read order 0 p)) ∧
    (lastGiven timeOf opts = none →
      instantQuery fl rfc engine read order now (askedInstant query opts).query (askedInstant query opts).time =
        match engine query (now - now % 1000000000) with
        | none => ⟨[], 0, .error⟩
        | some p => finishQuery (toInstant fl) (runEngine read order 0 p)) := by
  constructor
  · intro t ho hd hs
    obtain ⟨u, h1, -, -, h2⟩ := C101_client_time rfc t hs
    have hu := h2 hd
    clear h2
    subst hu
    have hne : formatClientTime (t : Int) ≠ [] := by
      obtain ⟨n, hn, -⟩ := formatClient_core t (by omega)
      rw [hn]
      unfold three
      simp
    have h3 : requestTime rfc now (askedInstant query opts).time = some (t : Int) := by
      unfold requestTime askedInstant
      simp only
      rw [ho]
      exact (if_neg hne).trans h1
    unfold instantQuery
    rw [h3]
    rfl
  · intro ho
    have h3 : requestTime rfc now (askedInstant query opts).time = some (now - now % 1000000000) := by
      unfold requestTime askedInstant
      simp only
      rw [ho]
      exact if_pos rfl
    unfold instantQuery
    rw [h3]
    rfl

/-- The whole way back: what the query engine computed arrives at a client that uses HTTP,
as text on the way: labels, values and times, in order and nothing else. -/
theorem C104_values (st : Nat → Nat) (why : Str) (s : PromServer Go64) (query : Str) (opts : List PromOpt) :
    (∀ t v, s.instant (askedInstant query opts) = .ok (toInstant go64 (.scalar t v)) → t.natAbs < 2 ^ 43 * 1000 →
      readProm (unmarshalInstant go64) (gatewayServe go64 st why s (httpPromQL query opts)) =
        some (.scalar ⟨thousandthsText t, v⟩)) ∧
    (∀ xs, s.instant (askedInstant query opts) = .ok (toInstant go64 (.vector xs)) →
      (∀ x ∈ xs, (x.labels.map Prod.fst).Nodup ∧ x.t.natAbs < 2 ^ 43 * 1000) →
      readProm (unmarshalInstant go64) (gatewayServe go64 st why s (httpPromQL query opts)) =
        some (.vector (xs.map fun x => ⟨x.labels, thousandthsText x.t, x.v⟩))) ∧
    (∀ xs, s.range (askedRange query opts) = .ok (toRange go64 (.matrix xs)) →
      (∀ x ∈ xs, (x.labels.map Prod.fst).Nodup ∧ ∀ p ∈ x.points, p.1.natAbs < 2 ^ 43 * 1000) →
      readProm (unmarshalRange go64) (gatewayServe go64 st why s (httpPromQLRange query opts)) =
        some (.matrix (xs.map fun x => ⟨x.labels, x.points.map fun p => ⟨thousandthsText p.1, p.2⟩⟩))) := by
  have key : ∀ (r : PResult Go64) j (un : Json → Option (PResult Go64)), marshalResult go64 (some r) = some j →
      readProm un (.resp (gatewayProm go64 st why (.ok (some r))).1 (some (gatewayProm go64 st why (.ok (some r))).2)) = un j := by
    intro r j un h1
    rw [prom_ok h1]
    unfold readProm
    simp only
    rw [if_neg (by decide), Option.bind_some, ← List.append_nil j.line, (text_read go64 h1 _ []).2.1]
  obtain ⟨e1, e2, e3⟩ := C93_end_to_end C76_float64
  rw [serve_instant, serve_range]
  refine ⟨fun t v hr ht => ?_, fun xs hr hx => ?_, fun xs hr hx => ?_⟩
  · obtain ⟨j, h1, h2⟩ := e1 t v
    rw [hr]
    refine (key _ j _ h1).trans (h2.trans ?_)
    rw [go64_time ht]
  · obtain ⟨j, h1, h2⟩ := e2 xs fun x h => (hx x h).1
    rw [hr]
    refine (key _ j _ h1).trans (h2.trans ?_)
    congr 2
    refine List.map_congr_left fun x h => ?_
    rw [go64_time (hx x h).2]
  · obtain ⟨j, -, h1, -, h2⟩ := e3 xs fun x h => (hx x h).1
    rw [hr]
    refine (key _ j _ h1).trans (h2.trans ?_)
    congr 2
    refine List.map_congr_left fun x h => ?_
    congr 1
    refine List.map_congr_left fun p hp => ?_
    rw [go64_time ((hx x h).2 p hp)]

/-- A vector with a label, at a time of today. -/
example (s : PromServer Go64) (v : Go64)
    (h : s.instant (askedInstant "up".toList []) = .ok (toInstant go64 (.vector [⟨[("job".toList, "a<\"".toList)], 1700000000123, v⟩]))) :
    readProm (unmarshalInstant go64) (gatewayServe go64 (fun _ => 500) [] s (httpPromQL "up".toList [])) =
      some (.vector [⟨[("job".toList, "a<\"".toList)], "1700000000.123".toList, v⟩]) := by
  rw [(C104_values _ _ s "up".toList []).2.1 _ h (by simp)]
  have e : thousandthsText 1700000000123 = "1700000000.123".toList := by decide +kernel
  rw [← e]
  rfl

/-! ## C105 -/

private theorem raw_ok {fl : FloatLib F} (hl : FloatLaws fl) (r : PResult F)
    (ht : ∀ p ∈ points r, ThreeDecimals fl p.time) (st : Nat → Nat) (why : Str) :
    ∃ x, readRaw (.resp (gatewayProm fl st why (.ok (some r))).1 (some (gatewayProm fl st why (.ok (some r))).2)) = some x ∧
      RawHolds fl x r := by
  obtain ⟨j, h1, h2, -⟩ := C76_exact hl r ht
  rw [prom_ok h1]
  have key : ∃ v, j = .obj [("status".toList, .str "success".toList),
      ("data".toList, .obj [("resultType".toList, .str (kindName r)), ("result".toList, v)])] := by
    unfold marshalResult at h1
    cases r with
    | scalar p =>
      unfold assembleData at h1
      simp only at h1
      cases h : assemblePoint fl p with
      | none => rw [h] at h1; cases h1
      | some v => rw [h] at h1; exact ⟨v, (Option.some.inj h1).symm⟩
    | vector ss =>
      unfold assembleData at h1
      simp only at h1
      cases h : traverse (assembleSample fl) ss with
      | none => rw [h] at h1; cases h1
      | some v => rw [h] at h1; exact ⟨.arr v, (Option.some.inj h1).symm⟩
    | matrix ss =>
      unfold assembleData at h1
      simp only at h1
      cases h : traverse (assembleSeries fl) ss with
      | none => rw [h] at h1; cases h1
      | some v => rw [h] at h1; exact ⟨.arr v, (Option.some.inj h1).symm⟩
  have hu : unmarshalJson j.line = some j := by
    have := C76_json (marshal_ok fl _ j h1) [] ['\n'] (fun _ h => nomatch h)
    exact this.1 (fun c hc => .inr (.inr (.inr (by simpa using hc))))
  obtain ⟨v, rfl⟩ := key
  refine ⟨⟨"success".toList, kindName r, some v, [], []⟩, ?_, rfl, rfl, ⟨v, rfl, h2⟩, rfl, rfl⟩
  unfold readRaw
  simp only
  rw [if_neg (by decide), if_neg (by decide), Option.bind_some, hu]
  rfl

private theorem raw_error (fl : FloatLib F) (st : Nat → Nat) (why : Str) (c : Nat) (m : Str) :
    ((st c = 400 ∨ st c = 500) → ∃ x, readRaw (.resp (gatewayProm fl st why (.error c m)).1
        (some (gatewayProm fl st why (.error c m)).2)) = some x ∧ RawFailed x m) ∧
    (st c ≠ 200 → st c ≠ 400 → st c ≠ 500 → readRaw (.resp (gatewayProm fl st why (.error c m)).1
        (some (gatewayProm fl st why (.error c m)).2)) = none) := by
  unfold gatewayProm
  simp only
  constructor
  · intro h
    refine ⟨⟨"error".toList, [], none, "internal".toList, m⟩, ?_, rfl, ⟨rfl, rfl⟩, rfl, rfl⟩
    unfold readRaw
    simp only
    rw [if_neg (by omega), if_neg (by omega), Option.bind_some, error_ok]
    rfl
  · intro h1 h2 h3
    unfold readRaw
    simp only
    by_cases h4 : st c = 404
    · rw [if_pos h4]
    · rw [if_neg h4, if_pos ⟨h1, h2, h3⟩]

/-- A raw query through the gateway: what the server computed arrives as a success with
the data in it, the server's error text arrives when the status is 400 or 500, and every
other failure is an error. -/
theorem C105_raw {fl : FloatLib F} (hl : FloatLaws fl) {st : Nat → Nat} (hst : ErrorStatus st) (why : Str)
    (s : PromServer F) (query : Str) (opts : List PromOpt) :
    (∀ r, s.instant (askedInstant query opts) = .ok (some r) → (∀ p ∈ points r, ThreeDecimals fl p.time) →
      ∃ x, readRaw (gatewayServe fl st why s (httpPromQL query opts)) = some x ∧ RawHolds fl x r) ∧
    (∀ c m, s.instant (askedInstant query opts) = .error c m → c ≠ 0 →
      if st c = 400 ∨ st c = 500
      then ∃ x, readRaw (gatewayServe fl st why s (httpPromQL query opts)) = some x ∧ RawFailed x m
      else readRaw (gatewayServe fl st why s (httpPromQL query opts)) = none) ∧
    (∀ ss, s.range (askedRange query opts) = .ok (some (.matrix ss)) →
      (∀ p ∈ points (.matrix ss), ThreeDecimals fl p.time) →
      ∃ x, readRaw (gatewayServe fl st why s (httpPromQLRange query opts)) = some x ∧ RawHolds fl x (.matrix ss)) ∧
    (∀ c m, s.range (askedRange query opts) = .error c m → c ≠ 0 →
      if st c = 400 ∨ st c = 500
      then ∃ x, readRaw (gatewayServe fl st why s (httpPromQLRange query opts)) = some x ∧ RawFailed x m
      else readRaw (gatewayServe fl st why s (httpPromQLRange query opts)) = none) := by
  rw [serve_instant, serve_range]
  refine ⟨fun r hr ht => ?_, fun c m hr hc => ?_, fun ss hr ht => ?_, fun c m hr hc => ?_⟩
  · rw [hr]; exact raw_ok hl r ht st why
  · rw [hr]
    split
    · rename_i h; exact (raw_error fl st why c m).1 h
    · rename_i h; exact (raw_error fl st why c m).2 (hst c hc) (fun e => h (.inl e)) (fun e => h (.inr e))
  · rw [hr]; exact raw_ok hl _ ht st why
  · rw [hr]
    split
    · rename_i h; exact (raw_error fl st why c m).1 h
    · rename_i h; exact (raw_error fl st why c m).2 (hst c hc) (fun e => h (.inl e)) (fun e => h (.inr e))

/-- A raw query does not look at the status once it is 200, 400 or 500: an answer that
did not come from the query API, such as the 500 of a router with the body `{}`, or the
gateway's own last resort (gateway.go:202), is returned without an error and without any
status. -/
theorem C105_unchecked_false :
    (∀ t, t = "{}".toList ∨ t = "null".toList → ∀ c, c = 200 ∨ c = 400 ∨ c = 500 →
      (readRaw (.resp c (some t))).map (fun r => (r.status, r.resultType, r.result.isSome, r.errorType, r.error)) =
        some ([], [], false, [], [])) ∧
    (readRaw (.resp 500 (some "{\"error\": \"failed to marshal error message\"}".toList))).map
      (fun r => (r.status, r.resultType, r.result.isSome, r.errorType, r.error)) =
        some ([], [], false, [], "failed to marshal error message".toList) ∧
    (readRaw (.resp 500 (some "{\"status\":\"success\",\"data\":{\"resultType\":\"vector\",\"result\":[]}}".toList))).map
      (fun r => (r.status, r.resultType, r.result.isSome, r.errorType, r.error)) =
        some ("success".toList, "vector".toList, true, [], []) := by
  refine ⟨?_, by decide +kernel, by decide +kernel⟩
  rintro t (rfl | rfl) c (rfl | rfl | rfl) <;> decide +kernel

private def exZero64 : Go64 := ⟨.fin false 0 0, .inl ⟨rfl, rfl⟩⟩

/-- A server that answers instant queries and fails range queries. -/
private def exPromServer : PromServer Go64 :=
  { instant := fun r => if r.time = "7.000".toList then .ok (some (.scalar ⟨"7.000".toList, exZero64⟩))
      else .error 2 "no".toList
    range := fun _ => .error 4 "late".toList }

/-- The hypotheses of C104 and C105 are met by that server. -/
example : ∃ x, readRaw (gatewayServe go64 (fun c => if c = 2 then 500 else 504) [] exPromServer
      (httpPromQL "cpu".toList [.time 1, .time 7000000000])) = some x ∧ x.status = "success".toList ∧
    readRaw (gatewayServe go64 (fun c => if c = 2 then 500 else 504) [] exPromServer
      (httpPromQLRange "cpu".toList [])) = none ∧
    readProm (unmarshalInstant go64) (gatewayServe go64
      (fun c => if c = 2 then 500 else 504) [] exPromServer (httpPromQL "cpu".toList [.time 1, .time 7000000000])) =
      some (.scalar ⟨"7.000".toList, exZero64⟩) := by
  have hl := C76_float64
  have hst : ErrorStatus (fun c => if c = 2 then 500 else 504) := by
    intro c _; simp only; split <;> decide
  have ha : exPromServer.instant (askedInstant "cpu".toList [.time 1, .time 7000000000]) =
      .ok (some (.scalar ⟨"7.000".toList, exZero64⟩)) := by
    show (if formatClientTime 7000000000 = _ then _ else _) = _
    exact if_pos (by decide +kernel)
  have ht : ∀ p ∈ points (.scalar (⟨"7.000".toList, exZero64⟩ : PPoint Go64)),
      ThreeDecimals go64 p.time := by
    intro p hp
    rw [List.mem_singleton.1 hp]
    exact ⟨⟨.fin false 7881299347898368 (-50), .inr (by decide)⟩, by decide +kernel, (validNumber_iff _).1 (by decide +kernel)⟩
  obtain ⟨x, h1, h2⟩ := (C105_raw hl hst [] exPromServer "cpu".toList _).1 _ ha ht
  refine ⟨x, h1, h2.status, ?_, ((C104_instant hl hst [] exPromServer "cpu".toList _).1 _ ha ht).2⟩
  have := (C105_raw hl hst [] exPromServer "cpu".toList []).2.2.2 4 "late".toList rfl (by decide)
  exact this

end LogCache
