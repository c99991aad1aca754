import Verif.Spec.QueryDoor
import Verif.Props.QueryEnd
import Verif.Props.Auth
import Verif.Props.Url

/-! # Queries through the auth proxy (C158) -/

namespace LogCache
open Spec

/-! ## Rewritten selectors -/

theorem sameBut_replace (ex : Expansions) (ms : List Matcher) : SameButSources ms (ms.map (replaceMatcher ex)) := by
  unfold SameButSources
  induction ms with
  | nil => exact .nil
  | cons m ms ih =>
    refine .cons ?_ ih
    by_cases h : m.name = "source_id".toList
    · refine .inr ⟨h, ?_⟩
      have hset : ∀ xs, (setExpansions m xs).name = m.name := fun _ => rfl
      unfold replaceMatcher
      rw [if_pos (show m.name = sourceIdLabel from h)]
      split
      · unfold replaceEqual
        split
        · exact h
        · exact h
      · exact h
      · exact h
    · left
      unfold replaceMatcher
      rw [if_neg (show ¬ m.name = sourceIdLabel from h)]

theorem sameBut_ordinary {ms ms' : List Matcher} (h : SameButSources ms ms') {m : Matcher} (hm : Ordinary m) :
    m ∈ ms ↔ m ∈ ms' := by
  induction h with
  | nil => exact Iff.rfl
  | cons h _ ih =>
    rw [List.mem_cons, List.mem_cons, ih]
    rcases h with rfl | ⟨h1, h2⟩
    · exact Iff.rfl
    · constructor
      · rintro (rfl | h)
        · exact absurd h1 hm.2
        · exact .inr h
      · rintro (rfl | h)
        · exact absurd h2 hm.2
        · exact .inr h

theorem sameBut_metric {ms ms' : List Matcher} (h : SameButSources ms ms') : metricOf ms' = metricOf ms := by
  have : (ms'.filter fun m => decide (m.name = "__name__".toList)) =
      ms.filter fun m => decide (m.name = "__name__".toList) := by
    induction h with
    | nil => rfl
    | @cons m m' l l' h _ ih =>
      rcases h with rfl | ⟨h1, h2⟩
      · rw [List.filter_cons, List.filter_cons, ih]
      · rw [List.filter_cons, List.filter_cons, ih, if_neg (by rw [h2]; decide), if_neg (by rw [h1]; decide)]
  unfold metricOf
  rw [this]

section
variable {oauth : Str → Option UserCtx} {auth : Str → Str → Bool} {related : List Str → Str → Option Expansions}
    {order : List Str → List Str} {parse : Str → Option PExpr} {print : PExpr → Str}
    {nodeParse : Str → Option (List Matcher)} {token query : Str} {ms : List Matcher} {u : UserCtx} {rel : Expansions}

theorem queryNames_vector (ms : List Matcher) (id : Str) : QueryNames (.vector ms) id ↔ NamesSource ms id := by
  constructor
  · rintro ⟨_, h, hn⟩
    cases h
    exact hn
  · exact fun h => ⟨ms, .vector, h⟩

theorem forward_vector {e : PExpr} (hp : parse query = some (.vector ms)) {isAuth : UserCtx → Nat → Str → Bool}
    (h : queryHandler oauth isAuth related order parse token query = .forward e) :
    ∃ ex, e = .vector (ms.map (replaceMatcher ex)) := by
  unfold queryHandler at h
  split at h
  · cases h
  · rw [hp] at h
    simp only at h
    split at h
    · cases h
    · split at h
      · cases h
      · split at h
        · cases h
        · split at h
          · cases h
          · cases h
            exact ⟨_, rfl⟩

/-- What the proxy does with a user's query: it forwards a selector that names what the user
may see of the query, or answers with 404. -/
theorem asks_handled (h : UserAsks oauth auth related order parse print nodeParse token query ms u rel) :
    (MayAsk u auth rel ms → ∃ ms', queryHandler oauth (fun c _ id => auth id c.token) related order parse token query =
        .forward (.vector ms') ∧ SameButSources ms ms' ∧ ∀ id, NamesSource ms' id ↔ SeenSource u auth rel ms id) ∧
    (¬ MayAsk u auth rel ms →
      queryHandler oauth (fun c _ id => auth id c.token) related order parse token query = .status 404) := by
  have hids : ∃ id, QueryNames (.vector ms) id := by
    obtain ⟨id, hid⟩ := h.plain.1
    exact ⟨id, (queryNames_vector _ _).2 hid⟩
  have hrel : related (order (extractSourceIds (.vector ms))) token = some rel := by
    refine h.apps _ fun id => ?_
    rw [(h.listed _).mem_iff, C57_extract, queryNames_vector]
  obtain ⟨h1, h2⟩ := C62_exact oauth (fun c id => auth id c.token) related order h.listed parse token query u _ rel
    h.given h.user h.asked hids hrel fun id y hid hy hm => h.clean id y ((queryNames_vector _ _).1 hid) hy hm
  rcases h2 with ⟨⟨e', he⟩, hsees⟩ | ⟨h404, hna, name, hname, hnone⟩
  · have hmay : MayAsk u auth rel ms := fun name hname => hsees name ((queryNames_vector _ _).2 hname)
    refine ⟨fun _ => ?_, fun hno => absurd hmay hno⟩
    obtain ⟨ex, rfl⟩ := forward_vector h.asked he
    refine ⟨_, he, sameBut_replace ex ms, fun id => ?_⟩
    rw [← queryNames_vector, h1 _ he id]
    simp only [queryNames_vector]
    exact Iff.rfl
  · refine ⟨fun hmay => ?_, fun _ => h404⟩
    exfalso
    obtain ⟨id, h3, h4⟩ := hmay name ((queryNames_vector _ _).1 hname)
    rcases h4 with h4 | h4
    · rw [hna] at h4; cases h4
    · rw [hnone id h3] at h4; cases h4

/-- A selector with other sources shows the same of them. -/
theorem shows_other {ms' : List Matcher} (hs : SameButSources ms ms') {S : Str → Prop}
    (hS : ∀ id, NamesSource ms' id ↔ S id) (e : Envelope) (v : PVal) : Shows ms' e v ↔ ShowsOf S ms e v := by
  unfold Shows ShowsOf
  rw [hS, sameBut_metric hs]
  refine and_congr_right fun _ => and_congr_right fun _ => ?_
  constructor
  · exact fun h m hm ho => h m ((sameBut_ordinary hs ho).1 hm) ho
  · exact fun h m hm ho => h m ((sameBut_ordinary hs ho).2 hm) ho

theorem plain_other {ms' : List Matcher} (hs : SameButSources ms ms') (hp : PlainSelector ms)
    (hn : ∃ id, NamesSource ms' id) : PlainSelector ms' :=
  ⟨hn, fun m hm ho => hp.2 m ((sameBut_ordinary hs ho).2 hm) ho⟩

/-! ## The way of a request -/

theorem route_instant : proxyRoute "/api/v1/query".toList = .query := by decide +kernel
theorem route_range : proxyRoute "/api/v1/query_range".toList = .query := by decide +kernel

theorem params_query {q q' : Values} {query : Str} {opts : List PromOpt}
    (h : SameParams q (httpPromQL query opts).params) (text : Str) (h' : SameParams q' (q.set "query".toList text)) :
    (q.first "query".toList).getD [] = query ∧ gatewayInstant q' = askedInstant text opts ∧
      gatewayRange q' = askedRange text opts := by
  have a := C104_requests query opts
  have b := C104_requests text opts
  have hk : ∀ k, q'.first k = if k = "query".toList then some text else (httpPromQL query opts).params.first k := by
    intro k
    unfold Values.first
    rw [h' k, Values.set, mapSet_lookup]
    split
    · rfl
    · rw [h k]
  refine ⟨?_, ?_, ?_⟩
  · unfold Values.first
    rw [h]
    exact congrArg InstantReq.query a.2.1
  · have c : gatewayInstant (httpPromQL query opts).params = askedInstant query opts := a.2.1
    unfold gatewayInstant
    rw [hk, hk, if_pos rfl, if_neg (by decide)]
    have := congrArg InstantReq.time c
    unfold gatewayInstant askedInstant at this
    unfold askedInstant
    simp only at this
    rw [this]
    rfl
  · have c : gatewayRange (httpPromQL query opts).params = askedRange query opts := a.2.2.2
    unfold gatewayRange
    rw [hk, hk, hk, hk, if_pos rfl, if_neg (by decide), if_neg (by decide), if_neg (by decide)]
    have c1 := congrArg RangeReq.start c
    have c2 := congrArg RangeReq.stop c
    have c3 := congrArg RangeReq.step c
    unfold gatewayRange askedRange at c1 c2 c3
    unfold askedRange
    simp only at c1 c2 c3
    rw [c1, c2, c3]
    rfl

variable {F : Type} (fl : FloatLib F) (st : Nat → Nat) (why : Str) (s : PromServer F) (explain : Str → Str)

theorem proxy_forward {e : PExpr} {path p : Str} {q q' : Values}
    (h : queryHandler oauth (fun c _ id => auth id c.token) related order parse token
      ((q.first "query".toList).getD []) = .forward e) (hr : proxyRoute path = .query)
    (hs : seenRequest path (q.set "query".toList (print e)) = some (p, q')) :
    proxyQuery fl st why s oauth auth related order parse explain print token path q =
      gatewayServe fl st why s ⟨p, q'⟩ := by
  unfold proxyQuery
  rw [if_neg (by rw [hr]; simp)]
  simp only [h, hs]

theorem serve_same {r r' : HttpReq} (hp : r.path = r'.path) (h1 : gatewayInstant r.params = gatewayInstant r'.params)
    (h2 : gatewayRange r.params = gatewayRange r'.params) : gatewayServe fl st why s r = gatewayServe fl st why s r' := by
  unfold gatewayServe
  rw [hp, h1, h2]

/-- A query the proxy forwards is answered like the rewritten query at the gateway. -/
theorem ask_forward {e : PExpr}
    (h : queryHandler oauth (fun c _ id => auth id c.token) related order parse token query = .forward e)
    (opts : List PromOpt) :
    askProxy fl st why s oauth auth related order parse explain print token (httpPromQL query opts) =
      gatewayServe fl st why s (httpPromQL (print e) opts) ∧
    askProxy fl st why s oauth auth related order parse explain print token (httpPromQLRange query opts) =
      gatewayServe fl st why s (httpPromQLRange (print e) opts) := by
  have hstep : ∀ path, proxyRoute ('/' :: path) = .query →
      askProxy fl st why s oauth auth related order parse explain print token
        ⟨'/' :: path, (httpPromQL query opts).params⟩ =
      gatewayServe fl st why s ⟨'/' :: path, (httpPromQL (print e) opts).params⟩ := by
    intro path hroute
    obtain ⟨q, h1, h2, h3⟩ := C132_seen path _ (promParams_proper query opts)
    obtain ⟨q', h4, h5, -⟩ := C132_seen path _ (mapSet_proper h3 (k := "query".toList) (vs := [print e]) (by simp))
    obtain ⟨p1, p2, p3⟩ := params_query (opts := opts) h2 (print e) h5
    have h1' : seenRequest ('/' :: path) (httpPromQL query opts).params = some ('/' :: path, q) := h1
    have h4' : seenRequest ('/' :: path) (q.set "query".toList (print e)) = some ('/' :: path, q') := h4
    have hp := proxy_forward fl st why s explain (by rw [p1]; exact h) hroute h4'
    unfold askProxy
    simp only
    rw [h1']
    simp only
    rw [hp]
    have a := C104_requests (print e) opts
    exact serve_same fl st why s rfl (p2.trans a.2.1.symm) (p3.trans a.2.2.2.symm)
  exact ⟨hstep _ route_instant, hstep _ route_range⟩

/-- A query the proxy answers itself. -/
theorem ask_status {n : Nat}
    (h : queryHandler oauth (fun c _ id => auth id c.token) related order parse token query = .status n)
    (opts : List PromOpt) {r : HttpReq} (hr : r = httpPromQL query opts ∨ r = httpPromQLRange query opts) :
    askProxy fl st why s oauth auth related order parse explain print token r = refusedQuery parse explain query n := by
  have hstep : ∀ path, proxyRoute ('/' :: path) = .query →
      askProxy fl st why s oauth auth related order parse explain print token
        ⟨'/' :: path, (httpPromQL query opts).params⟩ = refusedQuery parse explain query n := by
    intro path hroute
    obtain ⟨q, h1, h2, -⟩ := C132_seen path _ (promParams_proper query opts)
    have h1' : seenRequest ('/' :: path) (httpPromQL query opts).params = some ('/' :: path, q) := h1
    obtain ⟨p1, -, -⟩ := params_query (q' := q.set "query".toList []) (opts := opts) h2 [] (fun _ => rfl)
    unfold askProxy
    simp only
    rw [h1']
    unfold proxyQuery
    simp only
    rw [if_neg (by rw [hroute]; simp), p1, h]
  rcases hr with rfl | rfl
  · exact hstep _ route_instant
  · exact hstep _ route_range
end

section
variable {oauth : Str → Option UserCtx} {auth : Str → Str → Bool} {related : List Str → Str → Option Expansions}
    {order : List Str → List Str} {parse : Str → Option PExpr} {print : PExpr → Str}
    {nodeParse : Str → Option (List Matcher)} {token query : Str} {ms : List Matcher} {u : UserCtx} {rel : Expansions}
    {compile : Str → Option (Str → Bool)} {cfg : Config} {n : Nat} {L : Str → List Nat}
    {evs : List CEvent} {c : Cluster} {posts : List SendReq}

/-- A user who asks the auth proxy for a plain selector gets, for every combination of labels, the
value of the newest envelope that was sent, the selector asks for and is from before the
query's time and the five minutes before it: of the sources the selector names and the apps of
these names, exactly those the user may read.  Missing from the full claim: what C157 leaves
out, and ids with `|` in them. -/
theorem C158_instant_partial {st : Nat → Nat} (hst : ErrorStatus st) (why msg : Str) (rfc dur : Str → Option Int)
    (num : PVal → Go64) (explain : Str → Str)
    (hu : UserAsks oauth auth related order parse print nodeParse token query ms u rel) (hmay : MayAsk u auth rel ms)
    (hrest : RestsFor cfg n L evs c posts (SeenSource u auth rel ms)) (log : Str → List WireEnvelope)
    (hin : ∀ id, PostedInOrder posts id (log id)) (hc : ClearLabels fun id => (log id).map envelopeCode) (j : Nat)
    (read : Nat → ReadRequest → Option (List Envelope))
    (hr : ReadsByWalks compile c j (SeenSource u auth rel ms) log (read 0))
    (iter : Nat → List Matcher → List Str) (ho : ValidOrder (iter 0))
    (opts : List PromOpt) (now t : Int) (ht : EvaluatedAt opts now t) :
    ∃ samples,
      readProm (unmarshalInstant go64) (askProxy go64 st why (promNode go64 rfc dur nodeParse num read iter now msg)
        oauth auth related order parse explain print token (httpPromQL query opts)) = some (.vector samples) ∧
      (∀ s ∈ samples, s.point.time = thousandthsText (t / 1000000) ∧
        ∃ e v, ShowsOf (SeenSource u auth rel ms) ms e v ∧ CarriesLabels s.metric e ∧ s.point.value = num v ∧
          LastWith ((log e.sourceId).map envelopeCode)
            (fun x => InSeriesOf (SeenSource u auth rel ms) ms e x ∧ Recent t x) e) ∧
      (∀ id, ∀ e ∈ postedFor posts id, (∃ v, ShowsOf (SeenSource u auth rel ms) ms (envelopeCode e) v) →
        Recent t (envelopeCode e) → ∃ s ∈ samples, CarriesLabels s.metric (envelopeCode e)) ∧
      samples.Pairwise fun s s' => ¬ SameLabels s.metric s'.metric := by
  obtain ⟨ms', hq, hsame, hnames⟩ := (asks_handled hu).1 hmay
  have hS : NamesSource ms' = SeenSource u auth rel ms := funext fun id => propext (hnames id)
  have hsh : ∀ e v, Shows ms' e v ↔ ShowsOf (SeenSource u auth rel ms) ms e v := shows_other hsame hnames
  have hser : ∀ e x, InSeries ms' e x ↔ InSeriesOf (SeenSource u auth rel ms) ms e x := by
    intro e x
    unfold InSeries InSeriesOf
    simp only [hsh]
  have hplain : PlainSelector ms' := by
    obtain ⟨name, hname⟩ := hu.plain.1
    obtain ⟨id, h1, h2⟩ := hmay name hname
    exact plain_other hsame hu.plain ⟨id, (hnames id).2 ⟨name, hname, h1, h2⟩⟩
  rw [← hS] at hrest hr
  obtain ⟨samples, h1, -, h2, h3, h4⟩ := C157_instant_partial hst why msg rfc dur nodeParse num
    (print (.vector ms')) ms' (hu.readBack ms' hsame) hplain hrest log hin hc j read hr iter ho opts now t ht
  refine ⟨samples, ?_, ?_, ?_, h4⟩
  · rw [(ask_forward go64 st why _ explain hq opts).1]
    exact h1
  · simpa only [hsh, hser] using h2
  · simpa only [hsh] using h3

/-- The same for range queries. -/
theorem C158_range_partial {st : Nat → Nat} (hst : ErrorStatus st) (why msg : Str) (rfc dur : Str → Option Int)
    (num : PVal → Go64) (explain : Str → Str)
    (hu : UserAsks oauth auth related order parse print nodeParse token query ms u rel) (hmay : MayAsk u auth rel ms)
    (hrest : RestsFor cfg n L evs c posts (SeenSource u auth rel ms)) (log : Str → List WireEnvelope)
    (hin : ∀ id, PostedInOrder posts id (log id)) (hc : ClearLabels fun id => (log id).map envelopeCode) (j : Nat)
    (read : Nat → ReadRequest → Option (List Envelope))
    (hr : ReadsByWalks compile c j (SeenSource u auth rel ms) log (read 0))
    (iter : Nat → List Matcher → List Str) (ho : ValidOrder (iter 0))
    (opts : List PromOpt) (now : Int) (a b : Nat) (ht : RangeGiven opts a b) (step : Str) (d : Nat)
    (hstep : lastGiven stepOf opts = some step) (hd : parseStep dur step = some (d * 1000000 : Nat)) (hd0 : 1 ≤ d) :
    ∃ series,
      readProm (unmarshalRange go64) (askProxy go64 st why (promNode go64 rfc dur nodeParse num read iter now msg)
        oauth auth related order parse explain print token (httpPromQLRange query opts)) = some (.matrix series) ∧
      (∀ s ∈ series, s.points ≠ [] ∧ ∃ e ∈ (log e.sourceId).map envelopeCode,
        (∃ v, ShowsOf (SeenSource u auth rel ms) ms e v) ∧ CarriesLabels s.metric e ∧
        ∃ shown : Int → Option (Envelope × PVal), ∃ ts : List Int, ts.Pairwise (· < ·) ∧
          (∀ T, T ∈ ts ↔ IsStep (a * 1000) (b * 1000) d T) ∧
          (∀ T ∈ ts, StepShowsOf ((log e.sourceId).map envelopeCode) (SeenSource u auth rel ms) ms e (b * 1000000000)
            (T * 1000000) (shown T)) ∧
          s.points = ts.filterMap fun T => (shown T).map fun y => ⟨thousandthsText T, num y.2⟩) ∧
      (∀ id, ∀ e ∈ postedFor posts id, (∃ v, ShowsOf (SeenSource u auth rel ms) ms (envelopeCode e) v) →
        ∀ T, IsStep (a * 1000) (b * 1000) d T →
        InSecond (T * 1000000) (b * 1000000000) (envelopeCode e) ∨
          SecondsBefore (T * 1000000) (b * 1000000000) (envelopeCode e) →
        ∃ s ∈ series, CarriesLabels s.metric (envelopeCode e)) ∧
      series.Pairwise fun s s' => ¬ SameLabels s.metric s'.metric := by
  obtain ⟨ms', hq, hsame, hnames⟩ := (asks_handled hu).1 hmay
  have hS : NamesSource ms' = SeenSource u auth rel ms := funext fun id => propext (hnames id)
  have hsh : ∀ e v, Shows ms' e v ↔ ShowsOf (SeenSource u auth rel ms) ms e v := shows_other hsame hnames
  have hser : ∀ e x, InSeries ms' e x ↔ InSeriesOf (SeenSource u auth rel ms) ms e x := by
    intro e x
    unfold InSeries InSeriesOf
    simp only [hsh]
  have hsteps : ∀ es e stop T o, StepShows es ms' e stop T o ↔
      StepShowsOf es (SeenSource u auth rel ms) ms e stop T o := by
    intro es e stop T o
    cases o <;> simp only [StepShows, StepShowsOf, hsh, hser]
  have hplain : PlainSelector ms' := by
    obtain ⟨name, hname⟩ := hu.plain.1
    obtain ⟨id, h1, h2⟩ := hmay name hname
    exact plain_other hsame hu.plain ⟨id, (hnames id).2 ⟨name, hname, h1, h2⟩⟩
  rw [← hS] at hrest hr
  obtain ⟨series, h1, -, h2, h3, h4⟩ := C157_range_partial hst why msg rfc dur nodeParse num
    (print (.vector ms')) ms' (hu.readBack ms' hsame) hplain hrest log hin hc j read hr iter ho opts now a b ht step d
    hstep hd hd0
  refine ⟨series, ?_, ?_, ?_, h4⟩
  · rw [(ask_forward go64 st why _ explain hq opts).2]
    exact h1
  · simpa only [hsh, hsteps] using h2
  · simpa only [hsh] using h3

variable {F : Type} (fl : FloatLib F) (st : Nat → Nat) (why : Str) (s : PromServer F) (explain : Str → Str)
    (opts : List PromOpt) {r : HttpReq}

/-- A user who may read nothing of a source that the selector names gets an error and no data,
whatever the gateway and the nodes would answer. -/
theorem C158_refused (hu : UserAsks oauth auth related order parse print nodeParse token query ms u rel)
    (hno : ¬ MayAsk u auth rel ms) (hr : r = httpPromQL query opts ∨ r = httpPromQLRange query opts) :
    askProxy fl st why s oauth auth related order parse explain print token r = .resp 404 (some []) ∧
    (∀ un : Json → Option (PResult F), readProm un (askProxy fl st why s oauth auth related order parse explain print token r) = none) ∧
    readRaw (askProxy fl st why s oauth auth related order parse explain print token r) = none := by
  have h := ask_status (print := print) fl st why s explain ((asks_handled hu).2 hno) opts hr
  rw [h]
  exact ⟨rfl, fun _ => rfl, rfl⟩

/-- The same without a token that is valid, unless the query is no good anyway. -/
theorem C158_stranger (htok : token = [] ∨ oauth token = none) (hr : r = httpPromQL query opts ∨ r = httpPromQLRange query opts) :
    ∃ status body, (status = 404 ∨ status = 400) ∧
      askProxy fl st why s oauth auth related order parse explain print token r = .resp status (some body) := by
  have : ∃ n, (n = 404 ∨ n = 400) ∧
      queryHandler oauth (fun c _ id => auth id c.token) related order parse token query = .status n := by
    unfold queryHandler
    split
    · exact ⟨404, .inl rfl, rfl⟩
    · next h0 =>
      split
      · exact ⟨400, .inr rfl, rfl⟩
      · simp only
        split
        · exact ⟨400, .inr rfl, rfl⟩
        · rcases htok with h | h
          · exact absurd h h0
          · rw [h]
            exact ⟨404, .inl rfl, rfl⟩
  obtain ⟨n, hn, h⟩ := this
  rw [ask_status (print := print) fl st why s explain h opts hr]
  unfold refusedQuery
  split
  · exact ⟨_, _, .inr rfl, rfl⟩
  · exact ⟨n, _, hn, rfl⟩

/-- A query that cannot be parsed, or names no source, is turned down with the reason, which a
user who asks for the raw result gets. -/
theorem C158_bad (htok : token ≠ []) (hord : ∀ l, (order l).Perm l)
    (hbad : parse query = none ∨ ∃ e, parse query = some e ∧ ∀ id, ¬ QueryNames e id)
    (hr : r = httpPromQL query opts ∨ r = httpPromQLRange query opts) :
    (∀ un : Json → Option (PResult F), readProm un (askProxy fl st why s oauth auth related order parse explain print token r) = none) ∧
    ∃ x, readRaw (askProxy fl st why s oauth auth related order parse explain print token r) = some x ∧
      x.status = "error".toList ∧ x.errorType = "bad_data".toList ∧ x.result = none ∧
      x.error = if parse query = none then explain query else "query does not request any source_ids".toList := by
  have h : queryHandler oauth (fun c _ id => auth id c.token) related order parse token query = .status 400 := by
    unfold queryHandler
    rw [if_neg htok]
    rcases hbad with h | ⟨e, h, hno⟩
    · rw [h]
    · rw [h]
      simp only
      rw [if_pos]
      rw [List.eq_nil_iff_forall_not_mem]
      intro id hid
      exact hno id ((C57_extract e id).1 ((hord _).mem_iff.1 hid))
  rw [ask_status (print := print) fl st why s explain h opts hr]
  have hread : ∀ m, unmarshalJson (badDataBody m).line = some (badDataBody m) := by
    intro m
    have : JsonOk (badDataBody m) := by simp [badDataBody, JsonOk, MembersOk]
    exact (C76_json this [] ['\n'] (fun _ h => nomatch h)).1 (fun c hc => .inr (.inr (.inr (by simpa using hc))))
  unfold refusedQuery
  rw [if_pos rfl]
  refine ⟨fun _ => rfl, ⟨"error".toList, [], none, "bad_data".toList, _⟩, ?_, rfl, rfl, rfl, rfl⟩
  unfold readRaw
  simp only
  rw [if_neg (by decide), if_neg (by decide), Option.bind_some, hread]
  show some (RawResult.mk _ _ _ _ _) = _
  congr 2
  rcases hbad with h | ⟨e, h, -⟩ <;> rw [h] <;> rfl
end

/-- The selector `hits{source_id="shop"}`. -/
def hitsOfShop : List Matcher :=
  [⟨.equal, "__name__".toList, "hits".toList⟩, ⟨.equal, "source_id".toList, "shop".toList⟩]

theorem hitsOfShop_names (id : Str) : NamesSource hitsOfShop id ↔ id = "shop".toList := by
  constructor
  · rintro ⟨m, hm, hn, hv⟩
    simp only [hitsOfShop, List.mem_cons, List.not_mem_nil, or_false] at hm
    rcases hm with rfl | rfl
    · exact absurd hn (by decide)
    · rcases hv with ⟨_, rfl⟩ | ⟨h, _⟩
      · rfl
      · cases h
  · rintro rfl
    exact ⟨⟨.equal, "source_id".toList, "shop".toList⟩, by simp [hitsOfShop], rfl, .inl ⟨rfl, rfl⟩⟩

theorem hitsOfShop_plain : PlainSelector hitsOfShop := by
  refine ⟨⟨_, (hitsOfShop_names _).2 rfl⟩, ?_⟩
  intro m hm
  simp only [hitsOfShop, List.mem_cons, List.not_mem_nil, or_false] at hm
  rcases hm with rfl | rfl
  · intro h; exact absurd rfl h.1
  · intro h; exact absurd rfl h.2

/-- The user `t` may read the app `a`, one of the two apps named `shop`. -/
def shopUser : UserCtx := ⟨false, "t".toList, 0⟩
/-- The apps of a name. -/
def shopApps : Expansions := fun x => if x = "shop".toList then some ["a".toList, "v".toList] else none
/-- A printer for selectors of `hits` with one matcher on the source id: its kind and value. -/
def hitsText : PExpr → Str
  | .vector [_, m] => (match m.type with | .equal => '=' | .notEqual => '!' | .regexp => '~' | .notRegexp => '^') :: m.value
  | _ => []
/-- The parser that goes with it. -/
def hitsParse : Str → Option (List Matcher)
  | c :: v => some [⟨.equal, "__name__".toList, "hits".toList⟩,
      ⟨if c = '=' then .equal else if c = '!' then .notEqual else if c = '~' then .regexp else .notRegexp,
        "source_id".toList, v⟩]
  | [] => none

theorem hits_readBack (ms' : List Matcher) (h : SameButSources hitsOfShop ms') :
    hitsParse (hitsText (.vector ms')) = some ms' := by
  unfold SameButSources hitsOfShop at h
  cases h with
  | cons h1 h =>
    cases h with
    | cons h2 h =>
      cases h
      rename_i m1 m2
      rcases h1 with rfl | ⟨h1, -⟩
      · have hn : m2.name = "source_id".toList := by
          rcases h2 with rfl | ⟨-, h2⟩
          · rfl
          · exact h2
        obtain ⟨t, nm, v⟩ := m2
        simp only at hn
        subst hn
        cases t <;> rfl
      · exact absurd h1 (by decide)

theorem shop_asks (parse : Str → Option PExpr) (query : Str) (hq : parse query = some (.vector hitsOfShop)) :
    UserAsks (fun t => if t = "t".toList then some shopUser else none) (fun id _ => decide (id = "a".toList))
      (fun _ _ => some shopApps) id parse hitsText hitsParse "t".toList query hitsOfShop shopUser shopApps where
  given := by decide
  user := rfl
  asked := hq
  plain := hitsOfShop_plain
  listed := fun l => List.Perm.refl l
  apps := fun _ _ => rfl
  clean := by
    rintro name id - - (h | h)
    · cases h
    · rw [show id = "a".toList by simpa using h]; decide
  readBack := hits_readBack

theorem shop_seen (id : Str) :
    SeenSource shopUser (fun id _ => decide (id = "a".toList)) shopApps hitsOfShop id ↔ id = "a".toList := by
  constructor
  · rintro ⟨name, -, -, h | h⟩
    · cases h
    · simpa using h
  · rintro rfl
    exact ⟨"shop".toList, (hitsOfShop_names _).2 rfl, .inr (by simp [shopApps]), .inr (by simp)⟩


theorem shop_mayAsk : MayAsk shopUser (fun id _ => decide (id = "a".toList)) shopApps hitsOfShop := by
  intro name hname
  rw [(hitsOfShop_names _).1 hname]
  exact ⟨"a".toList, .inr (by simp [shopApps]), .inr (by simp)⟩

theorem shop_shows (t : Int) (total : Nat) (v : PVal) :
    ShowsOf (SeenSource shopUser (fun id _ => decide (id = "a".toList)) shopApps hitsOfShop) hitsOfShop
      (envelopeCode (appMessage t (hits total))) v ↔ v = .counter total := by
  constructor
  · rintro ⟨_, ⟨_, hv⟩, _⟩; exact hv
  · rintro rfl
    refine ⟨(shop_seen _).2 rfl, ⟨by decide, rfl⟩, ?_⟩
    intro m hm
    simp only [hitsOfShop, List.mem_cons, List.not_mem_nil, or_false] at hm
    rcases hm with rfl | rfl
    · intro h; exact absurd rfl h.1
    · intro h; exact absurd rfl h.2

/-- Two counters of the app `a`, sent to a cluster: a user who may read `a` but not the other app
of the name, and asks for `shop`, gets the value of the second counter, whatever node the
gateway asks. -/
example (rfc dur : Str → Option Int) (num : PVal → Go64) (why msg : Str) :
    ∃ evs c, RestsFor { maxPerSource := 5 } 1 (fun _ => [0]) evs c (twoMessages (hits 5) (hits 6))
      (SeenSource shopUser (fun id _ => decide (id = "a".toList)) shopApps hitsOfShop) ∧
    ∀ j, ∃ read, ReadsByWalks (fun _ => none) c j
        (SeenSource shopUser (fun id _ => decide (id = "a".toList)) shopApps hitsOfShop) hitsLog read ∧
      ∃ samples s, readProm (unmarshalInstant go64) (askProxy go64 (fun _ => 500) why
          (promNode go64 rfc dur hitsParse num (fun _ => read) (fun _ ms => (selectArgs ms).ids) 2000000000 msg)
          (fun t => if t = "t".toList then some shopUser else none) (fun id _ => decide (id = "a".toList))
          (fun _ _ => some shopApps) id (fun _ => some (.vector hitsOfShop)) id hitsText "t".toList
          (httpPromQL "hits{source_id='shop'}".toList [.time 1000000000])) = some (.vector samples) ∧
        s ∈ samples ∧ s.point.time = "1.000".toList ∧ s.point.value = num (.counter 6) := by
  obtain ⟨evs, c, hcl⟩ := hits_cluster
  have hrest := hcl _ fun id h => (shop_seen id).1 h
  refine ⟨evs, c, hrest, fun j => ?_⟩
  obtain ⟨read, hr⟩ := readsByWalks_exists (compile := fun _ => none) hrest hitsLog_order j
  obtain ⟨samples, h1, h3, h4, -⟩ := C158_instant_partial (st := fun _ => 500) (fun _ _ => by simp) why msg rfc dur num id
    (shop_asks (fun _ => some (.vector hitsOfShop)) "hits{source_id='shop'}".toList rfl) shop_mayAsk hrest hitsLog
    hitsLog_order hitsLog_clear j (fun _ => read) hr (fun _ ms => (selectArgs ms).ids) namedOrder_valid
    [.time 1000000000] 2000000000 1000000000 ⟨by decide, .inl ⟨rfl, by decide, by decide⟩⟩
  obtain ⟨s, hs, -⟩ := h4 "a".toList (appMessage 2 (hits 6)) (by rw [hits_posted]; simp) ⟨_, (shop_shows _ _ _).2 rfl⟩
    (by unfold Recent secondOf envelopeCode appMessage; decide)
  refine ⟨read, hr, samples, s, h1, hs, ?_, ?_⟩
  · rw [(h3 s hs).1]
    decide +kernel
  · obtain ⟨-, e, v, hsh, -, hv, hlast⟩ := h3 s hs
    rw [hv]
    have hone : e = envelopeCode (appMessage 2 (hits 6)) := by
      refine hitsLog_last ⟨⟨⟨_, (shop_shows _ _ _).2 rfl⟩, ?_⟩, by unfold Recent secondOf envelopeCode appMessage; decide⟩
        hlast
      obtain ⟨_, _, hsplit, -⟩ := hlast
      rcases hitsLog_mem _ e (by rw [hsplit]; simp) with rfl | rfl <;> exact fun k v => Iff.rfl
    rw [hone, shop_shows] at hsh
    rw [hsh]

/-- A user who may read nothing cannot ask. -/
example : ¬ MayAsk shopUser (fun _ _ => false) shopApps hitsOfShop := by
  intro h
  obtain ⟨id, -, h | h⟩ := h _ ((hitsOfShop_names _).2 rfl)
  · cases h
  · cases h

end LogCache
