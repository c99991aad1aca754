import Verif.Spec.WalkHttp
import Verif.Props.WalkGrpc

/-!
# Walks by way of the auth proxy and the gateway (C164)
-/

namespace LogCache
open Spec

/-- The options of a walk mean the request that `walkRequest` says. -/
theorem C164_asked (w : WalkCfg) (id : Str) (s : Int) : asked id s (walkOpts w) = walkRequest w id s := by
  obtain ⟨start, stop, limit, types, nameFilter, delay⟩ := w
  unfold asked walkRequest walkOpts
  by_cases hn : nameFilter = []
  · subst hn
    cases stop <;> cases limit <;> cases types <;> simp [lastSome, endOf, limitOf, nameOf, typesOf, isDesc]
  · cases stop <;> cases limit <;> cases types <;> simp [lastSome, endOf, limitOf, nameOf, typesOf, isDesc, hn]

section
variable {methodOk : Str → Bool} {oauth : Str → Option UserCtx} {auth : Str → Str → Bool}
    {related : List Str → Str → Option Expansions} {order : List Str → List Str}
    {parse : Str → Option PExpr} {print : PExpr → Str} {compile : Str → Option (Str → Bool)}
    {cfg : Config} {n : Nat} {L : Str → List Nat} {evs : List CEvent} {c : Cluster} {posts : List SendReq}
    {token id : Str} {w : WalkCfg} {stop : Int} {log : List WireEnvelope}

theorem fairRead_page (hw : FairHttpWalk methodOk oauth auth compile token w id stop) {s : Int} (hs : FitsInt64 s)
    (hss : s ≤ stop) : ∃ path params,
    seenRequest ("/api/v1/read/".toList ++ id) (httpReadParams s (walkOpts w)) = some (path, params) ∧
    FairRead methodOk oauth auth compile id s (walkOpts w)
      { method := "GET".toList, path := path, params := params, authorization := token } ∧
    door false methodOk oauth auth related order parse print
      { method := "GET".toList, path := path, params := params, authorization := token } =
      some (.read (walkRequest w id s)) := by
  have hr : ∀ o ∈ walkOpts w, OptInRange o := by
    intro o ho
    have h1 := hw.walk.ends
    have h2 := hw.walk.fits.2
    have h3 := hw.walk.limit
    unfold walkOpts at ho
    rw [h1] at ho
    simp only [List.mem_append, List.mem_singleton] at ho
    rcases ho with ((rfl | ho) | ho) | ho
    · exact h2
    · cases hl : w.limit with
      | none => rw [hl] at ho; simp at ho
      | some k =>
        rw [hl] at ho h3
        rw [List.mem_singleton.1 ho]
        simp only [Option.getD_some] at h3
        show FitsInt64 k
        unfold FitsInt64
        omega
    · cases hl : w.types with
      | none => rw [hl] at ho; simp at ho
      | some k =>
        rw [hl] at ho
        rw [List.mem_singleton.1 ho]
        trivial
    · split at ho
      · simp at ho
      · rw [List.mem_singleton.1 ho]
        trivial
  have hk : ∀ o ∈ walkOpts w, OptKnown o := by
    intro o ho
    cases o with
    | types ts =>
      have h1 := hw.walk.known
      have : w.types = some ts := by
        unfold walkOpts at ho
        simp only [List.mem_append] at ho
        rcases ho with ((ho | ho) | ho) | ho
        · split at ho <;> simp at ho
        · split at ho <;> simp at ho
        · split at ho
          · rename_i h
            simp only [List.mem_singleton, ReadOpt.types.injEq] at ho
            rw [h, ho]
          · simp at ho
        · split at ho <;> simp at ho
      rw [this] at h1
      exact h1
    | _ => trivial
  have hstop : (walkRequest w id s).stop = stop := by simp only [walkRequest, hw.walk.ends, Option.getD_some]
  obtain ⟨q, hq, hasked⟩ := C132_read id s (walkOpts w) hs hr hk
  refine ⟨_, q, hq, {
    begin := hs, range := hr, known := hk
    window := by rw [C164_asked, hstop]; exact .inr hss
    limit := by rw [C164_asked]; exact hw.walk.limit
    filter := by rw [C164_asked]; exact hw.walk.filter
    size := by rw [C164_asked]; exact hw.walk.size s hs
    target := hq, clean := hw.clean, method := hw.method, may := hw.may }, ?_⟩
  have := C75_served_partial methodOk oauth auth related order parse print
    { method := "GET".toList, path := "/api/v1/read/".toList ++ id, params := q, authorization := token } id
    rfl hw.clean.1 hw.clean.2.1 hw.clean.2.2 hw.method hw.may
  rw [this]
  show (gatewayRead id q).map _ = _
  rw [hasked, C164_asked]
  rfl

/-- What a page of the walk gets over HTTP is what it would get by way of grpc: what was asked
for if that fits in a message, otherwise an error; and it gets it at whatever node. -/
theorem C164_page (hcl : AtRest cfg n L evs c posts id) (hin : PostedInOrder posts id log)
    (hw : FairHttpWalk methodOk oauth auth compile token w id stop) (j : Nat) {s : Int} (hs : FitsInt64 s)
    (hss : s ≤ stop) (out : Option (List WireEnvelope)) :
    HttpPage methodOk oauth auth related order parse print compile c j token w id s out ↔
      out = if (readRespProto.encode (some (wanted compile 0 (walkRequest w id s) log))).length ≤ grpcMaxMessage then
        some (wanted compile 0 (walkRequest w id s) log) else none := by
  obtain ⟨path, params, hseen, hfair, hdoor0⟩ := fairRead_page (related := related) (order := order) (parse := parse)
    (print := print) hw hs hss
  have hstop : (walkRequest w id s).stop = stop := by simp only [walkRequest, hw.walk.ends, Option.getD_some]
  have hnow : ∀ now, wanted compile now (asked id s (walkOpts w)) log = wanted compile 0 (walkRequest w id s) log := by
    intro now
    rw [C164_asked]
    unfold wanted
    rw [hstop, if_neg hw.walk.stop0, if_neg hw.walk.stop0]
  have hthrough : ∀ now, (∃ out, ReadThrough methodOk oauth auth related order parse print compile now c j
        { method := "GET".toList, path := path, params := params, authorization := token } out) ∧
      ∀ out, ReadThrough methodOk oauth auth related order parse print compile now c j
        { method := "GET".toList, path := path, params := params, authorization := token } out →
      out = if (readRespProto.encode (some (wanted compile 0 (walkRequest w id s) log))).length ≤ grpcMaxMessage then
        some (wanted compile 0 (walkRequest w id s) log) else none := by
    intro now
    by_cases hle : (readRespProto.encode (some (wanted compile 0 (walkRequest w id s) log))).length ≤ grpcMaxMessage
    · rw [if_pos hle]
      have h := C126_read_partial methodOk oauth auth related order parse print compile now hcl hfair j hin
        (by rw [hnow]; exact hle)
      rw [hnow] at h
      exact h
    · rw [if_neg hle]
      exact C127_large methodOk oauth auth related order parse print compile now hcl hfair j hin
        (by rw [hnow]; exact Nat.lt_of_not_le hle)
  constructor
  · intro hpage
    unfold HttpPage at hpage
    rcases hpage with ⟨now, path', params', hseen', hread⟩ | ⟨-, hnone⟩
    · have hsame := Option.some.inj (hseen.symm.trans hseen')
      clear hseen hseen'
      have h1 : path = path' := congrArg Prod.fst hsame
      have h2 : params = params' := congrArg Prod.snd hsame
      clear hsame
      subst h1 h2
      rcases hread with hread | ⟨rfl, hturned⟩
      · exact (hthrough now).2 _ hread
      · exfalso
        obtain ⟨out', q, hops, i, resp, hdoor, hat, hans, -⟩ := (hthrough now).1
        rcases hturned with hno | ⟨q', hops', hdoor', hbad⟩
        · exact hno q hdoor
        · rw [hdoor] at hdoor'
          injection hdoor' with hdoor'
          injection hdoor' with hdoor'
          subst hdoor'
          have hq : q = walkRequest w id s := by
            rw [hdoor0] at hdoor
            injection hdoor with hdoor
            injection hdoor with hdoor
            exact hdoor.symm
          subst hq
          obtain ⟨_, ⟨hops2, i2, hex⟩, hnode⟩ := node_reads compile now hcl j hin (q := walkRequest w id s) rfl hw.walk.known
            (Or.inr (by rw [hstop]; exact hss)) hw.walk.limit hw.walk.filter
          obtain ⟨hv, -⟩ := asked_valid id s (walkOpts w) hfair.begin hfair.range hfair.known
          rw [C164_asked] at hv
          have hreq := C115_read_request _ hv (max_lt (hw.walk.size s hs))
          rcases hbad with hbad | ⟨i, hi, hlen | hdec | ⟨q3, e, hdec, hloc⟩⟩
          · obtain ⟨i', hi', -⟩ := hnode _ _ hbad
            cases hi'
          · exact absurd (hw.walk.size s hs) (by omega)
          · rw [hreq] at hdec
            cases hdec
          · rw [hreq] at hdec
            injection hdec with hdec
            subst hdec
            obtain ⟨i', hi', hread⟩ := hnode _ _ hi
            injection hi' with hi'
            subst hi'
            rw [hread] at hloc
            cases hloc
    · exact nomatch hseen.symm.trans hnone
  · rintro rfl
    obtain ⟨⟨out, hout⟩, hall⟩ := hthrough 0
    have := hall out hout
    rw [this] at hout
    exact .inl ⟨0, path, params, hseen, .inl hout⟩

/-- A walk over HTTP is a walk by way of grpc. -/
theorem httpWalk_grpc {β : Type} {bo : Backoff β} (hcl : AtRest cfg n L evs c posts id)
    (hin : PostedInOrder posts id log) (hw : FairHttpWalk methodOk oauth auth compile token w id stop)
    {s : WalkState β} (hs : FitsInt64 s.start) (hss : s.start ≤ stop)
    {tr : List (WalkIn × Option (List Envelope))} {r : Option (WalkState β)}
    (h : WalkRun bo w id (HttpReader methodOk oauth auth related order parse print compile c token w id log) s tr r) :
    WalkRun bo w id (GrpcReader compile c 0 log w.delay) s tr r := by
  have hone : ∀ {s : Int} {i}, FitsInt64 s → s ≤ stop →
      HttpReader methodOk oauth auth related order parse print compile c token w id log (walkRequest w id s) i →
      GrpcReader compile c 0 log w.delay (walkRequest w id s) i := by
    intro s i hs hss hi
    cases i with
    | failed d =>
      obtain ⟨hd, j, hp⟩ := hi
      exact ⟨hd, 0, (grpcRead_iff hcl hin hw.walk 0 hs hss 0 _).2 ((C164_page hcl hin hw j hs hss _).1 hp)⟩
    | got es now more =>
      obtain ⟨hm, hold, j, ws, hp, he⟩ := hi
      exact ⟨hm, hold, 0, ws, (grpcRead_iff hcl hin hw.walk 0 hs hss 0 _).2 ((C164_page hcl hin hw j hs hss _).1 hp), he⟩
  induction h with
  | nil s => exact .nil s
  | done h1 h2 => exact .done (hone hs hss h1) h2
  | @step s s' i v tr r h1 h2 h3 ih =>
    have hg := hone hs hss h1
    refine .step hg h2 ?_
    cases v with
    | none =>
      have : s'.start = s.start := by
        cases i with
        | failed d =>
          unfold walkStep at h2
          simp only [Prod.mk.injEq] at h2
          cases d
          · simp only [Bool.false_eq_true, if_false, Prod.mk.injEq, true_and] at h2
            split at h2
            · cases h2; rfl
            · cases h2
          · simp at h2
        | got es now more => exact (walkStep_idle h2).1
      exact ih (by rw [this]; exact hs) (by rw [this]; exact hss)
    | some d =>
      obtain ⟨es, now', more, last, he, rfl, hl, hn⟩ := walkStep_visit h2
      subst he
      obtain ⟨-, -, now2, ws, hr, rfl⟩ := hg
      have hin2 := (grpcRead_iff hcl hin hw.walk 0 hs hss now2 _).1 hr
      have hmem : last ∈ (wanted compile 0 (walkRequest w id s.start) log).map envelopeCode := by
        split at hin2
        · injection hin2 with hin2
          subst hin2
          exact (walkTrim_prefix _ _ _ _).subset (List.mem_of_getLast? hl)
        · cases hin2
      obtain ⟨e, he, rfl⟩ := List.mem_map.1 hmem
      have hwin : s.start ≤ e.timestamp ∧ e.timestamp < stop := by
        unfold wanted at he
        have he := List.mem_of_mem_take he
        obtain ⟨he, -⟩ := List.mem_filter.1 he
        obtain ⟨o, ho, hp⟩ := List.mem_filterMap.1 he
        obtain ⟨-, hw1⟩ := List.mem_filter.1 ho
        have hts : e.timestamp = o.timestamp := by
          unfold wireProject at hp
          split at hp
          · cases hp; rfl
          · split at hp
            · split at hp
              · cases hp; rfl
              · cases hp; rfl
            · cases hp
        have hstop : (walkRequest w id s.start).stop = stop := by
          simp only [walkRequest, hw.walk.ends, Option.getD_some]
        rw [hstop, if_neg hw.walk.stop0] at hw1
        simp only [walkRequest, Bool.and_eq_true, decide_eq_true_eq] at hw1
        rw [hts]
        exact ⟨of_decide_eq_true hw1.1, hw1.2⟩
      have hs' : s'.start = (envelopeCode e).timestamp + 1 := by
        split at hn
        · cases hn
        · cases hn; rfl
      have ht : (envelopeCode e).timestamp = e.timestamp := rfl
      have h2' := hw.walk.fits.2
      unfold FitsInt64 at hs h2' ih
      exact ih (by rw [hs', ht]; constructor <;> omega) (by rw [hs', ht]; omega)

/-- A user who may read a source and walks through it over HTTP, from the bytes of each request by
the auth proxy, the gateway and whatever nodes to the bytes of each answer: if no envelope has
more than `B` bytes and the limit of the walk leaves room for that many, no read fails and the
visitor gets, in order and once each, all that one read without a limit would. -/
theorem C164_walk_partial {β : Type} {bo : Backoff β} (hcl : AtRest cfg n L evs c posts id)
    (hin : PostedInOrder posts id log) (hw : FairHttpWalk methodOk oauth auth compile token w id stop)
    {b : β} {B : Nat} (hB : ∀ e ∈ postedFor posts id, (wireEnvelopeProto.encode e).length ≤ B)
    (hlim : (if w.limit.getD 0 = 0 then 100 else w.limit.getD 0).toNat * (B + 5) + 5 ≤ 4194304)
    {tr : List (WalkIn × Option (List Envelope))} {r : Option (WalkState β)}
    (h : WalkRun bo w id (HttpReader methodOk oauth auth related order parse print compile c token w id log)
      (walkInit w b) tr r) :
    ∃ whole, whole = wanted compile 0 { walkRequest w id w.start with limit := log.length + 1 } log ∧
    (∀ x ∈ tr, ∃ es now more, x.1 = .got es now more) ∧
    (delivered tr).flatten <+: whole.map envelopeCode ∧
    (r = none → (delivered tr).flatten = whole.map envelopeCode) ∧
    ((∀ b, (bo.onEmpty b).2 = false) → tr.length ≤ whole.length + 1) :=
  C143_walk_partial hcl hin hw.walk 0 hB hlim (httpWalk_grpc hcl hin hw hw.walk.fits.1 hw.walk.window h)

/-- When the next page does not fit in a message, the visitor gets nothing more. -/
theorem C164_stuck {β : Type} {bo : Backoff β} (hcl : AtRest cfg n L evs c posts id)
    (hin : PostedInOrder posts id log) (hw : FairHttpWalk methodOk oauth auth compile token w id stop)
    {s : WalkState β} (hs : FitsInt64 s.start) (hss : s.start ≤ stop)
    (hlarge : grpcMaxMessage < (readRespProto.encode (some (wanted compile 0 (walkRequest w id s.start) log))).length)
    {tr : List (WalkIn × Option (List Envelope))} {r : Option (WalkState β)}
    (h : WalkRun bo w id (HttpReader methodOk oauth auth related order parse print compile c token w id log) s tr r) :
    (∀ x ∈ tr, x.1 = .failed false) ∧ delivered tr = [] :=
  C143_stuck hcl hin hw.walk 0 hs hss hlarge (httpWalk_grpc hcl hin hw hs hss h)

/-- The walk is never left without an answer: at any node, at any state it can be in. -/
theorem C164_answered (hcl : AtRest cfg n L evs c posts id) (hin : PostedInOrder posts id log)
    (hw : FairHttpWalk methodOk oauth auth compile token w id stop) {s : Int} (hs : FitsInt64 s) (hss : s ≤ stop) :
    ∃ i, HttpReader methodOk oauth auth related order parse print compile c token w id log (walkRequest w id s) i := by
  by_cases hle : (readRespProto.encode (some (wanted compile 0 (walkRequest w id s) log))).length ≤ grpcMaxMessage
  · obtain ⟨now, hnow⟩ : ∃ now, ∀ e ∈ log, e.timestamp ≤ now - w.delay := by
      clear hin hle
      induction log with
      | nil => exact ⟨0, by simp⟩
      | cons x t ih =>
        obtain ⟨m, hm⟩ := ih
        refine ⟨max m (x.timestamp + w.delay), ?_⟩
        intro e he
        rcases List.mem_cons.1 he with rfl | he
        · omega
        · have := hm e he
          omega
    exact ⟨.got _ now true, rfl, hnow, 0, _, (C164_page hcl hin hw 0 hs hss _).2 (by rw [if_pos hle]), rfl⟩
  · exact ⟨.failed false, rfl, 0, (C164_page hcl hin hw 0 hs hss _).2 (by rw [if_neg hle])⟩

end

/-! ### A walk that meets the hypotheses -/

/-- A walk over the metrics of `a` from 0 to 20 by a user with the token `t`, who may read `a`. -/
theorem fairHttpWalk_a : FairHttpWalk (fun _ => true) doorUser (fun i _ => decide (i = "a".toList)) (fun _ => none)
    "t".toList (dataReaderCfg readOfMetrics) "a".toList 20 where
  walk := fairWalk_metrics
  clean := ⟨by unfold CleanId; decide +kernel, by decide, by decide⟩
  method := rfl
  may := ⟨by decide, ⟨false, "t".toList, 0⟩, by decide, .inr (by decide)⟩

/-- Two counters with names of 3 MiB, each in a request that grpc takes: whatever the back-off, the
walk delivers neither. -/
theorem C164_walk_false : ∃ (k : Nat) (evs : List CEvent) (c : Cluster),
    AtRest { maxPerSource := 5 } 1 (fun _ => [0]) evs c (twoMessages (longCounter k) (longCounter k)) "a".toList ∧
    ∀ (β : Type) (bo : Backoff β) (b : β) tr r, WalkRun bo (dataReaderCfg readOfMetrics) "a".toList
        (HttpReader (fun _ => true) doorUser (fun i _ => decide (i = "a".toList)) (fun _ _ => none) id
          (fun _ => none) (fun _ => []) (fun _ => none) c "t".toList (dataReaderCfg readOfMetrics) "a".toList
          [appMessage 1 (longCounter k), appMessage 2 (longCounter k)])
        (walkInit (dataReaderCfg readOfMetrics) b) tr r → delivered tr = [] := by
  have hmax : grpcMaxMessage = 4194304 := rfl
  obtain ⟨k, hk⟩ : ∃ k : Nat, k = 3145728 := ⟨_, rfl⟩
  obtain ⟨evs, c, h⟩ := atRest_counters k (by omega)
  refine ⟨k, evs, c, h, fun β bo b tr r hrun => (C164_stuck h (inOrder_messages _ _) fairHttpWalk_a
    fairWalk_metrics.fits.1 fairWalk_metrics.window ?_ hrun).2⟩
  have b1 := longCounter_len 1 (.inl rfl) k (by omega)
  have b2 := longCounter_len 2 (.inr rfl) k (by omega)
  have : (walkInit (dataReaderCfg readOfMetrics) b).start = 0 := rfl
  rw [this, wanted_counters, hmax]
  show 4194304 < (encFields [(1, .bytes (encFields [(1, .bytes (wireEnvelopeProto.encode (appMessage 1 (longCounter k)))),
    (1, .bytes (wireEnvelopeProto.encode (appMessage 2 (longCounter k))))]))]).length
  simp only [encFields, List.length_append, WireVal.body, List.length_nil]
  omega

/-- Two small counters: the walk delivers both. -/
example : ∃ evs c, AtRest { maxPerSource := 5 } 1 (fun _ => [0]) evs c (twoMessages (longCounter 3) (longCounter 3)) "a".toList ∧
    ∀ tr, WalkRun dataReaderBackoff (dataReaderCfg readOfMetrics) "a".toList
        (HttpReader (fun _ => true) doorUser (fun i _ => decide (i = "a".toList)) (fun _ _ => none) id
          (fun _ => none) (fun _ => []) (fun _ => none) c "t".toList (dataReaderCfg readOfMetrics) "a".toList
          [appMessage 1 (longCounter 3), appMessage 2 (longCounter 3)])
        (walkInit (dataReaderCfg readOfMetrics) 0) tr none →
      (delivered tr).flatten =
        [envelopeCode (appMessage 1 (longCounter 3)), envelopeCode (appMessage 2 (longCounter 3))] := by
  have hmax : grpcMaxMessage = 4194304 := rfl
  obtain ⟨evs, c, h⟩ := atRest_counters 3 (by omega)
  refine ⟨evs, c, h, fun tr hrun => ?_⟩
  have b1 := longCounter_len 1 (.inl rfl) 3 (by omega)
  have b2 := longCounter_len 2 (.inr rfl) 3 (by omega)
  obtain ⟨whole, rfl, -, -, hd, -⟩ := C164_walk_partial h (inOrder_messages _ _) fairHttpWalk_a (B := 27) (by
    intro e he
    have := (inOrder_messages (longCounter 3) (longCounter 3)).1.mem_iff.2 he
    simp only [List.mem_cons, List.not_mem_nil, or_false] at this
    rcases this with rfl | rfl
    · exact b1.2
    · exact b2.2) (by decide) hrun
  exact (hd rfl).trans rfl

end LogCache
