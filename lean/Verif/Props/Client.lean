import Verif.Proof.Client
import Verif.Proof.Oauth
/-! # Properties of the client library -/
namespace LogCache
open Spec

/-! ## C52: the options of a Read reach the server -/

/-- Over HTTP the gateway hands the server exactly the request that was meant. -/
theorem C52_http (sourceId : Str) (start : Int) (opts : List ReadOpt) (hs : FitsInt64 start)
    (hr : ∀ o ∈ opts, OptInRange o) (hk : ∀ o ∈ opts, OptKnown o) :
    gatewayRead sourceId (httpReadParams start opts) = some (asked sourceId start opts) := by
  have hstart : intParam (httpReadParams start opts) "start_time".toList = some start := by
    unfold intParam Values.first httpReadParams
    rw [fold_start, Values.set, mapSet_lookup, if_pos rfl]
    exact parse_format hs
  have hend : intParam (httpReadParams start opts) "end_time".toList =
      some ((lastSome endOf opts).getD 0) := by
    unfold intParam Values.first httpReadParams
    rw [fold_end, Values.set, mapSet_lookup, if_neg (by decide)]
    cases hx : lastSome endOf opts with
    | none => rfl
    | some t =>
      obtain ⟨o, ho, hf⟩ := lastSome_mem hx
      have h64 : FitsInt64 t := by
        have := hr o ho
        cases o <;> simp [endOf, limitOf] at hf
        subst hf; exact this
      exact parse_format h64
  have hlim : intParam (httpReadParams start opts) "limit".toList =
      some ((lastSome limitOf opts).getD 0) := by
    unfold intParam Values.first httpReadParams
    rw [fold_limit, Values.set, mapSet_lookup, if_neg (by decide)]
    cases hx : lastSome limitOf opts with
    | none => rfl
    | some t =>
      obtain ⟨o, ho, hf⟩ := lastSome_mem hx
      have h64 : FitsInt64 t := by
        have := hr o ho
        cases o <;> simp [endOf, limitOf] at hf
        subst hf; exact this
      exact parse_format h64
  have htypes : typesParam ((List.lookup "envelope_types".toList (httpReadParams start opts)).getD []) =
      some (opts.flatMap typesOf) := by
    unfold httpReadParams
    rw [fold_types, Values.set, mapSet_lookup, if_neg (by decide)]
    refine typesParam_known _ fun n hn => ?_
    obtain ⟨o, ho, hm⟩ := List.mem_flatMap.1 hn
    have := hk o ho
    cases o <;> simp [typesOf] at hm
    exact this n hm
  unfold gatewayRead
  rw [hstart, hend, hlim, htypes]
  unfold asked httpReadParams Values.first
  have e1 : List.lookup "descending".toList (Values.set [] "start_time".toList (formatInt start)) = none := by
    rw [Values.set, mapSet_lookup, if_neg (by decide)]; rfl
  have e2 : List.lookup "name_filter".toList (Values.set [] "start_time".toList (formatInt start)) = none := by
    rw [Values.set, mapSet_lookup, if_neg (by decide)]; rfl
  rw [fold_desc, fold_name, e1, e2]
  generalize hd : opts.any _ = d
  generalize lastSome nameOf opts = m
  cases d <;> cases m <;> rfl

/-- Over gRPC too, for the types the API knows. -/
theorem C52_grpc_partial (sourceId : Str) (start : Int) (opts : List ReadOpt)
    (hr : ∀ o ∈ opts, OptInRange o) (hk : ∀ o ∈ opts, OptKnown o) :
    grpcRead sourceId start opts = asked sourceId start opts := by
  unfold grpcRead asked Values.first
  simp only
  rw [fold_end, fold_limit, fold_name, fold_desc, fold_types]
  have htypes : ((List.lookup "envelope_types".toList ([] : Values)).getD [] ++
      (opts.flatMap typesOf).map etypeString).map
        (fun s => (etypeValue s).getD .any) = opts.flatMap typesOf := by
    refine map_known _ fun n hn => ?_
    obtain ⟨o, ho, hm⟩ := List.mem_flatMap.1 hn
    have := hk o ho
    cases o <;> simp [typesOf] at hm
    exact this n hm
  rw [htypes]
  have hend : ((((lastSome endOf opts).map fun t => [formatInt t]).or
      (List.lookup "end_time".toList ([] : Values))).bind List.head?).bind parseInt64 =
      lastSome endOf opts := by
    cases hx : lastSome endOf opts with
    | none => rfl
    | some t =>
      obtain ⟨o, ho, hf⟩ := lastSome_mem hx
      have h64 : FitsInt64 t := by
        have := hr o ho
        cases o <;> simp [endOf, limitOf] at hf
        subst hf; exact this
      exact parse_format h64
  have hlim : ((((lastSome limitOf opts).map fun t => [formatInt t]).or
      (List.lookup "limit".toList ([] : Values))).bind List.head?).bind parseInt64 =
      lastSome limitOf opts := by
    cases hx : lastSome limitOf opts with
    | none => rfl
    | some t =>
      obtain ⟨o, ho, hf⟩ := lastSome_mem hx
      have h64 : FitsInt64 t := by
        have := hr o ho
        cases o <;> simp [endOf, limitOf] at hf
        subst hf; exact this
      exact parse_format h64
  rw [hend, hlim]
  simp only [List.lookup]
  generalize opts.any _ = d
  generalize lastSome nameOf opts = m
  cases d <;> cases m <;> rfl

/-- A Read of a type the API does not know: over HTTP it is an error; over gRPC the
type silently becomes ANY, so the server answers with envelopes of every type. -/
theorem C52_unknown_type_false (sourceId : Str) (start n : Int) (hn : FitsInt64 n) :
    gatewayRead sourceId (httpReadParams start [.types [.other n]]) = none ∧
    (grpcRead sourceId start [.types [.other n]]).types = [.any] ∧
    requestedTypes (grpcRead sourceId start [.types [.other n]]).types = none := by
  have h0 : etypeValue (formatInt n) = none := numeral_not_type (parse_format hn)
  have hg : (grpcRead sourceId start [.types [.other n]]).types = [.any] := by
    have h1 : (etypeValue (etypeString (.other n))).getD .any = .any := by
      rw [show etypeString (.other n) = formatInt n from rfl, h0]; rfl
    simp [grpcRead, ReadOpt.apply, Values.add, mapSet, List.lookup, h1]
  refine ⟨?_, hg, by rw [hg]; decide⟩
  have htypes : typesParam ((List.lookup "envelope_types".toList
      (httpReadParams start [.types [.other n]])).getD []) = none := by
    unfold httpReadParams
    rw [fold_types, Values.set, mapSet_lookup, if_neg (by decide)]
    exact typesParam_unknown _ (n := n) (by simp [typesOf]) h0
  unfold gatewayRead
  rw [htypes]
  split <;> simp_all

/-- Options as a user writes them, with a repeated limit. -/
example : gatewayRead "app".toList (httpReadParams 5
      [.limit 10, .types [.log], .endTime 99, .limit 7, .descending, .types [.event]]) =
    some { sourceId := "app".toList, start := 5, stop := 99, limit := 7, types := [.log, .event],
           descending := true } := by
  rw [C52_http _ _ _ (by unfold FitsInt64; omega) (by simp [OptInRange, FitsInt64]) (by simp [OptKnown])]
  rfl

/-! ## C51: the API path follows the server's version -/

theorem base_ok {parse : Str → Option Semver} {s : Str} {v : Semver} (hv : parse s = some v) :
    baseApiPath parse (.resp 200 (some s)) =
      if v.gte firstAfterMove then some "/api/v1".toList else some "/v1".toList := by
  simp only [baseApiPath, logCacheVersion, Option.bind, hv]
  rfl

theorem httpRead_none {parse : Str → Option Semver} {info : HttpAns Str} (ans : HttpAns (List Envelope))
    (sourceId : Str) (start : Int) (opts : List ReadOpt) (h : baseApiPath parse info = none) :
    httpRead parse info ans sourceId start opts = ([{ path := "/api/v1/info".toList }], none) := by
  unfold httpRead; rw [h]

theorem httpRead_some {parse : Str → Option Semver} {info : HttpAns Str} (ans : HttpAns (List Envelope))
    (sourceId : Str) (start : Int) (opts : List ReadOpt) {base : Str} (h : baseApiPath parse info = some base) :
    httpRead parse info ans sourceId start opts = ([{ path := "/api/v1/info".toList },
      { path := base ++ "/read/".toList ++ sourceId, params := httpReadParams start opts }],
      match ans with
      | .failed => none
      | .resp status body => if status ≠ 200 then none else body) := by
  unfold httpRead; rw [h]; rfl

/-- A Read over HTTP asks for the version first; it reads under `/v1` from servers
before 2.0.0 and from those that do not know the question, under `/api/v1` from all
others, and not at all when the question fails; the answer is that of the server. -/
theorem C51_path (parse : Str → Option Semver) (info : HttpAns Str) (ans : HttpAns (List Envelope))
    (sourceId : Str) (start : Int) (opts : List ReadOpt) :
    ∃ reads, (httpRead parse info ans sourceId start opts).1 = { path := "/api/v1/info".toList } :: reads ∧
      (∀ s v, info = .resp 200 (some s) → parse s = some v →
        reads = [{ path := (if v.major < 2 ∨ v = ⟨2, 0, 0, true⟩ then "/v1/read/".toList
                            else "/api/v1/read/".toList) ++ sourceId,
                   params := httpReadParams start opts }]) ∧
      (∀ b, info = .resp 404 b →
        reads = [{ path := "/v1/read/".toList ++ sourceId, params := httpReadParams start opts }]) ∧
      (reads ≠ [] → (∃ s v, info = .resp 200 (some s) ∧ parse s = some v) ∨ ∃ b, info = .resp 404 b) ∧
      (∀ es, (httpRead parse info ans sourceId start opts).2 = some es ↔
        reads ≠ [] ∧ ans = .resp 200 (some es)) := by
  have hgte : ∀ v : Semver, v.gte firstAfterMove = !decide (v.major < 2 ∨ v = ⟨2, 0, 0, true⟩) := by
    rintro ⟨a, b, c, p⟩
    unfold Semver.gte firstAfterMove
    simp only
    by_cases ha : a = 2
    · subst ha
      by_cases hb : b = 0
      · subst hb
        by_cases hc : c = 0
        · subst hc; cases p <;> decide
        · simp [hc]; omega
      · simp [hb]; omega
    · simp only [ne_eq, ha, not_false_eq_true, if_true, Semver.mk.injEq, false_and, or_false]
      rcases Nat.lt_trichotomy a 2 with h | h | h
      · simp [h]; omega
      · exact absurd h ha
      · simp [h]; omega
  cases hb : baseApiPath parse info with
  | none =>
    rw [httpRead_none ans sourceId start opts hb]
    refine ⟨[], rfl, ?_, ?_, fun h => absurd rfl h, fun es => ?_⟩
    · rintro s v rfl hv
      rw [base_ok hv] at hb
      split at hb <;> exact nomatch hb
    · rintro b rfl
      exact nomatch (show (some "/v1".toList : Option Str) = none from hb)
    · constructor
      · intro h; exact nomatch h
      · rintro ⟨h, -⟩; exact absurd rfl h
  | some base =>
    rw [httpRead_some ans sourceId start opts hb]
    refine ⟨_, rfl, ?_, ?_, fun _ => ?_, fun es => ?_⟩
    · rintro s v rfl hv
      rw [base_ok hv, hgte] at hb
      by_cases hc : v.major < 2 ∨ v = ⟨2, 0, 0, true⟩
      · rw [decide_eq_true hc, if_neg (by decide)] at hb
        rw [if_pos hc, ← Option.some.inj hb]; rfl
      · rw [decide_eq_false hc, if_pos (by decide)] at hb
        rw [if_neg hc, ← Option.some.inj hb]; rfl
    · rintro b rfl
      have h1 : baseApiPath parse (.resp 404 b) = some "/v1".toList := rfl
      rw [h1] at hb
      rw [← Option.some.inj hb]; rfl
    · cases info with
      | failed => simp [baseApiPath, logCacheVersion] at hb
      | resp st b =>
        by_cases h4 : st = 404
        · exact .inr ⟨b, by rw [h4]⟩
        · by_cases h2 : st = 200
          · subst h2
            cases b with
            | none => simp [baseApiPath, logCacheVersion] at hb
            | some s =>
              cases hv : parse s with
              | none => simp [baseApiPath, logCacheVersion, hv] at hb
              | some v => exact .inl ⟨s, v, rfl, hv⟩
          · simp [baseApiPath, logCacheVersion, h4, h2] at hb
    · cases ans with
      | failed => simp
      | resp st b => by_cases h : st = 200 <;> simp [h]

/-- A server that answers 3.0.1 and one that does not know the question. -/
example : (httpRead (fun _ => some ⟨3, 0, 1, false⟩) (.resp 200 (some "3.0.1".toList)) .failed "app".toList 5 []).1 =
      [{ path := "/api/v1/info".toList }, { path := "/api/v1/read/app".toList, params := httpReadParams 5 [] }] ∧
    (httpRead (fun _ => none) (.resp 404 none) .failed "app".toList 5 []).1 =
      [{ path := "/api/v1/info".toList }, { path := "/v1/read/app".toList, params := httpReadParams 5 [] }] :=
  ⟨rfl, rfl⟩

/-- The version is the one the server sent, that of the last servers that do not know the
question when it is not known, and there is none with every other answer. -/
theorem C51_version (parse : Str → Option Semver) (a : HttpAns Str) (v : Semver) :
    logCacheVersion parse a = some v ↔
      (∃ s, a = .resp 200 (some s) ∧ parse s = some v) ∨ ((∃ b, a = .resp 404 b) ∧ v = ⟨1, 4, 7, false⟩) := by
  cases a with
  | failed => simp [logCacheVersion]
  | resp st b =>
    by_cases h : st = 404
    · subst h
      simp [logCacheVersion, lastWithoutInfo, eq_comm]
    · by_cases h2 : st = 200
      · subst h2
        cases b <;> simp [logCacheVersion]
      · simp [logCacheVersion, h, h2]

example : logCacheVersion (fun _ => none) (.resp 404 none) = some ⟨1, 4, 7, false⟩ ∧
    logCacheVersion (fun _ => some ⟨2, 1, 0, false⟩) (.resp 500 (some [])) = none := ⟨rfl, rfl⟩

/-- The uptime is the number the server sent, and every failure is reported with a
negative number. -/
theorem C51_uptime (a : HttpAns Str) :
    (∀ n, vmUptime a = (n, true) ↔ ∃ s, a = .resp 200 (some s) ∧ IsInt64 s n) ∧
    ((vmUptime a).2 = false → (vmUptime a).1 = -1) := by
  cases a with
  | failed => simp [vmUptime]
  | resp st b =>
    by_cases h : st = 200
    · subst h
      cases b with
      | none => simp [vmUptime]
      | some s =>
        simp only [vmUptime, ne_eq, not_true_eq_false, if_false, HttpAns.resp.injEq, true_and, Option.some.injEq]
        by_cases hs : s = []
        · subst hs
          simp only [if_true, Prod.mk.injEq, Bool.false_eq_true, and_false, false_iff, implies_true, and_true]
          rintro n ⟨s, rfl, hn⟩
          have := (parseInt64_iff [] n).2 hn
          simp [parseInt64, parseDigits] at this
        · rw [if_neg hs]
          cases hp : parseInt64 s with
          | none =>
            simp only [Prod.mk.injEq, Bool.false_eq_true, and_false, false_iff, implies_true, and_true]
            rintro n ⟨s', rfl, hn⟩
            rw [(parseInt64_iff s n).2 hn] at hp
            simp at hp
          | some m =>
            simp only [Prod.mk.injEq, and_true, Bool.true_eq_false, false_implies]
            intro n
            constructor
            · rintro rfl; exact ⟨s, rfl, (parseInt64_iff s m).1 hp⟩
            · rintro ⟨s', rfl, hn⟩
              rw [(parseInt64_iff s n).2 hn] at hp
              simpa using hp.symm
    · simp [vmUptime, h]

/-! ## C50: the Oauth2 client -/

/-- Calls one after the other: each request that has no Authorization header of its
own is sent with the current token, the last one fetched, provided no such request has
been refused since; a token is asked for only when there is none; a request with its
own header is sent with that header and never causes a token to be asked for. -/
theorem C50_sequential (calls : List OCall) (before after : List OEv) (e : OEv)
    (h : doSeq 0 [] calls = before ++ e :: after) :
    (∀ k a, e = .sent k a → Own before k → Current before a) ∧
    (∀ k a b, e = .sent k a → OEv.called k (some b) ∈ before → a = b) ∧
    (∀ k, e = .asked k → Own before k ∧ ∀ t, ¬ Current before t) := by
  have hg := OAll_split (doSeq_good OSeqInv_nil calls) h
  rw [List.nil_append] at hg
  refine ⟨?_, ?_, ?_⟩
  · rintro k a rfl; exact hg.1
  · rintro k a b rfl; exact hg.2 b
  · rintro k rfl; exact hg

/-- Two requests share a token; the second is refused, so the third asks for another. -/
example : doSeq 0 [] [{ tok := some ("bearer".toList, "A".toList), ans := some 200 },
      { ans := some 401 }, { tok := some ("bearer".toList, "B".toList), ans := some 200 }] =
    [.called 0 none, .asked 0, .fetched 0 (some "bearer A".toList), .sent 0 "bearer A".toList, .answered 0 (some 200),
     .called 1 none, .sent 1 "bearer A".toList, .answered 1 (some 401),
     .called 2 none, .asked 2, .fetched 2 (some "bearer B".toList), .sent 2 "bearer B".toList, .answered 2 (some 200)] := by
  decide

/-- The documentation says a new token is fetched only after a 401. Any answer outside
2xx does it, here a 404. -/
theorem C50_only_401_false : ∃ calls : List OCall, ∃ before after,
    doSeq 0 [] calls = before ++ .asked 2 :: after ∧ (∃ t, OEv.fetched 0 (some t) ∈ before) ∧
    (∀ k, OEv.answered k (some 401) ∉ before) ∧ ∀ k, OEv.fetched k none ∉ before :=
  ⟨[{ tok := some ("bearer".toList, "A".toList), ans := some 200 }, { ans := some 404 },
    { tok := some ("bearer".toList, "B".toList), ans := some 200 }],
   [.called 0 none, .asked 0, .fetched 0 (some "bearer A".toList), .sent 0 "bearer A".toList, .answered 0 (some 200),
     .called 1 none, .sent 1 "bearer A".toList, .answered 1 (some 404), .called 2 none],
   [.fetched 2 (some "bearer B".toList), .sent 2 "bearer B".toList, .answered 2 (some 200)],
   by decide, ⟨"bearer A".toList, by simp⟩, by simp, by simp⟩

/-- Calls side by side, in every schedule: requests with their own header keep it; all
others are sent with a token the Oauth2 server gave out, or, after a refusal, with
none; they are never sent without one while no request has been refused; and a token is
asked for only by requests that need one, one at a time. -/
theorem C50_concurrent_partial (evs : List OEv) (s : OState) (hr : ORun evs s)
    (before after : List OEv) (e : OEv) (h : evs = before ++ e :: after) :
    (∀ k a, e = .sent k a → Own before k →
      (∃ j, OEv.fetched j (some a) ∈ before) ∨
      (a = [] ∧ ∃ j c, Own before j ∧ OEv.answered j (some c) ∈ before ∧ ¬ Success c)) ∧
    (∀ k a b, e = .sent k a → OEv.called k (some b) ∈ before → a = b) ∧
    (∀ k, e = .asked k → Own before k ∧
      ∀ j p m, before = p ++ .asked j :: m → ∃ r, OEv.fetched j r ∈ m) := by
  obtain ⟨s1, s2, h1, st⟩ := ORun_cut hr h
  have hi := OInv_run h1
  refine ⟨?_, ?_, ?_⟩
  · rintro k a rfl ho
    cases st with
    | @send _ _ own h0 =>
      cases own with
      | false => exact absurd ho (hi.pre _ _ h0 rfl)
      | true =>
        rcases hi.snd _ _ h0 with rfl | hf
        · by_cases hn : NoFailure before
          · exact absurd rfl ((OKeep_run h1 hn).snd _ _ h0)
          · refine .inr ⟨rfl, ?_⟩
            simp only [NoFailure, Classical.not_forall] at hn
            obtain ⟨j, c, h2, h3, h4⟩ := hn
            exact ⟨j, c, h2, h3, h4⟩
        · exact .inl hf
  · rintro k a b rfl hb
    cases st with
    | @send _ _ own h0 =>
      cases own with
      | true => exact absurd hb ((hi.own _ _ h0 rfl).2 b)
      | false => exact ((hi.preA _ _ h0).2 b hb).symm
  · rintro k rfl
    cases st with
    | lockFetch h0 hl ht =>
      refine ⟨(hi.own _ _ h0 rfl).1, fun j p m he => ?_⟩
      refine Classical.byContradiction fun hc => ?_
      have := hi.pend j p m he (fun r hr => hc ⟨r, hr⟩)
      rw [hi.lock2 _ _ this rfl] at hl; cases hl

/-- A schedule with two calls that meets the hypotheses. -/
theorem C50_schedule : ∃ s, ORun [.called 0 none, .called 1 (some "basic x".toList), .asked 0,
    .sent 1 "basic x".toList, .fetched 0 (some "b A".toList), .sent 0 "b A".toList] s :=
  ⟨_, .step (.step (.step (.step (.step (.step (.step .nil .call) (.callPre "basic x".toList))
      (.lockFetch (i := 0) rfl rfl rfl)) (.send (i := 1) rfl)) (.fetchOk (i := 0) "b".toList "A".toList rfl))
      (.useStored (i := 0) rfl)) (.send (i := 0) rfl)⟩

/-- What is missing above: after a refusal a request can be sent with an empty
Authorization header although the Oauth2 server answered every question with a token.
One call sees a token and is about to use it while another, refused, clears it. -/
theorem C50_race_false : ∃ evs s, ORun evs s ∧ Own evs 1 ∧ OEv.sent 1 [] ∈ evs ∧
    ∀ j, OEv.fetched j none ∉ evs := by
  refine ⟨[.called 0 none, .asked 0, .fetched 0 (some "b A".toList), .sent 0 "b A".toList,
      .answered 0 (some 500), .called 1 none, .sent 1 []], _,
    .step (.step (.step (.step (.step (.step (.step (.step (.step (.step (.step .nil .call)
      (.lockFetch (i := 0) rfl rfl rfl)) (.fetchOk (i := 0) "b".toList "A".toList rfl))
      (.useStored (i := 0) rfl)) (.send (i := 0) rfl)) (.refused (i := 0) 500 rfl (by decide)))
      .call) (.lockHave (i := 1) rfl rfl (by simp [OState.goto, tokenOf]))) (.clear (i := 0) rfl))
      (.useToken (i := 1) rfl)) (.send (i := 1) rfl), ?_, ?_, ?_⟩
  · unfold Own; simp
  · simp
  · simp

end LogCache
