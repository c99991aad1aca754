import Verif.Props.QueryCrash
import Verif.Props.QueryEnd
import Verif.Props.QueryDoor
import Verif.Props.UserCrash
import Verif.Spec.QueryRecover

/-! # Queries after a recovery -/

namespace LogCache
open LogCache.Spec

/-- A node by which all reads of a source come to nodes that answer from the log `log`, which has
room in a page. -/
structure NodesRead (compile : Str → Option (Str → Bool)) (c : Cluster) (id : Str) (j : Nat) (log : List WireEnvelope) : Prop where
  arrived : ∀ e ∈ log, Arrived e
  sorted : log.Pairwise fun x y => x.timestamp < y.timestamp
  reach : ∃ hops i, ReadAt c.lk id j hops (some i)
  answers : ∀ now (q : ReadRequest), q.sourceId = id → q.limit = 0 → (∀ k, EType.other k ∉ q.types) →
    (q.stop = 0 ∨ q.start ≤ q.stop) → (q.nameFilter = [] ∨ compile q.nameFilter ≠ none) →
    ∀ hops res, ReadAt c.lk id j hops res → ∃ i, res = some i ∧
      localRead compile now (c.store i) q = some (.ok ((wanted compile now q log).map envelopeCode))

section
variable {compile : Str → Option (Str → Bool)} {c : Cluster} {id : Str} {j : Nat} {w : WalkCfg} {start stop : Int}
    {log : List WireEnvelope}

/-- As `grpcRead_iff`. -/
theorem nodesRead_iff (hcl : NodesRead compile c id j log) (hl0 : w.limit.getD 0 = 0)
    (hw : FairWalk compile w id stop) {s : Int} (hs : FitsInt64 s) (hss : s ≤ stop) (now : Int)
    (out : Option (List WireEnvelope)) :
    GrpcRead compile now c j (walkRequest w id s) out ↔
      out = if (readRespProto.encode (some (wanted compile 0 (walkRequest w id s) log))).length ≤ grpcMaxMessage then
        some (wanted compile 0 (walkRequest w id s) log) else none := by
  have hstop : (walkRequest w id s).stop = stop := by simp only [walkRequest, hw.ends, Option.getD_some]
  have hnow : wanted compile now (walkRequest w id s) log = wanted compile 0 (walkRequest w id s) log := by
    unfold wanted
    rw [hstop, if_neg hw.stop0, if_neg hw.stop0]
  obtain ⟨hops, i, hex⟩ := hcl.reach
  have harr := hcl.arrived
  have hnode := hcl.answers now (walkRequest w id s) rfl hl0 hw.known (Or.inr (by rw [hstop]; exact hss)) hw.filter
  have hlim : FitsInt64 (w.limit.getD 0) := by
    have := hw.limit
    unfold FitsInt64
    omega
  have hreq : readReqProto.decode (readReqProto.encode (walkRequest w id s)) = some (walkRequest w id s) := by
    refine C115_read_request _ ⟨hs, by rw [hstop]; exact hw.fits.2, hlim, ?_⟩ (max_lt (hw.size s hs))
    intro t ht
    cases t with
    | other k => exact absurd ht (hw.known k)
    | _ => trivial
  have harrw := arrived_wanted (compile := compile) (now := 0) (q := walkRequest w id s) harr
  constructor
  · rintro (⟨hops, i, resp, hat, ⟨_, q, es, ws, b, hdec, hloc, hws, hsame, rfl⟩, hback⟩ |
      ⟨-, ⟨hops, hat⟩ | ⟨hops, i, hat, hlen | hdec | ⟨q, e, hdec, hloc⟩⟩⟩)
    rotate_left
    · obtain ⟨i', hi', -⟩ := hnode hops _ hat
      cases hi'
    · exact absurd (hw.size s hs) (by omega)
    · rw [hreq] at hdec
      cases hdec
    · rw [hreq] at hdec
      injection hdec with hdec
      subst hdec
      obtain ⟨i', hi', hread⟩ := hnode hops _ hat
      injection hi' with hi'
      subst hi'
      rw [hread] at hloc
      cases hloc
    rw [hreq] at hdec
    injection hdec with hdec
    subst hdec
    obtain ⟨i', hi', hread⟩ := hnode hops _ hat
    injection hi' with hi'
    subst hi'
    rw [hread] at hloc
    injection hloc with hloc
    injection hloc with hloc
    rw [← hloc] at hws
    have := (List.map_injective_iff.2 envelopeCode_inj) hws
    subst this
    rw [hnow] at hsame
    split
    · rename_i hle
      exact grpcBack_fits harrw (fun b hb => by rw [answer_len hb]; exact hle) hsame hback
    · exact grpcBack_large (by rw [answer_len hsame]; omega) hback
  · rintro rfl
    obtain ⟨i', hii, hi⟩ := hnode hops _ hex
    injection hii with hii
    subst hii
    refine .inl ⟨hops, i, _, hex, ⟨hw.size s hs, _, _, _,
      some (wanted compile 0 (walkRequest w id s) log), hreq, hi, rfl, ?_, rfl⟩, ?_⟩
    · rw [hnow]; exact sameBatch_self harrw
    · split
      · rename_i hle
        exact grpcBack_total harrw hle hops
      · exact .tooLarge _ _ (by omega)

/-- As `C143_walk_partial`. -/
theorem nodesRead_walk {β : Type} {bo : Backoff β} (hcl : NodesRead compile c id j log) (hl0 : w.limit.getD 0 = 0)
    (hw : FairWalk compile w id stop) {b : β} {B : Nat}
    (hB : ∀ e ∈ log, (wireEnvelopeProto.encode e).length ≤ B)
    (hlim : (if w.limit.getD 0 = 0 then 100 else w.limit.getD 0).toNat * (B + 5) + 5 ≤ 4194304)
    {tr : List (WalkIn × Option (List Envelope))} {r : Option (WalkState β)}
    (h : WalkRun bo w id (GrpcReader compile c j log w.delay) (walkInit w b) tr r) :
    ∃ whole, whole = wanted compile 0 { walkRequest w id w.start with limit := log.length + 1 } log ∧
    (∀ x ∈ tr, ∃ es now more, x.1 = .got es now more) ∧
    (delivered tr).flatten <+: whole.map envelopeCode ∧
    (r = none → (delivered tr).flatten = whole.map envelopeCode) ∧
    ((∀ b, (bo.onEmpty b).2 = false) → tr.length ≤ whole.length + 1) := by
  have hsort : (log.map envelopeCode).Pairwise (fun x y => x.timestamp < y.timestamp) := by
    rw [List.pairwise_map]
    exact hcl.sorted
  have hty : typeOk (requestedTypes (w.types.getD [])) =
      fun e => decide (∀ t ∈ w.types.getD [], t = .any) || decide (∃ t ∈ w.types.getD [], kind e = some t) :=
    funext (typeOk_requested _)
  let W : Int → List Envelope := fun s => answer s stop (requestedTypes (w.types.getD []))
    (if w.nameFilter = [] then none else compile w.nameFilter) (log.map envelopeCode)
  have hW : Pages W stop := pages_answer (hsort.imp fun h => Int.le_of_lt h) stop _ _
  have hpage : ∀ s, (wanted compile 0 (walkRequest w id s) log).map envelopeCode =
      (W s).take (if w.limit.getD 0 = 0 then 100 else w.limit.getD 0).toNat := by
    intro s
    rw [← wanted_code]
    simp only [W, answer, hty, walkRequest, Bool.false_eq_true, if_false, hw.ends, Option.getD_some, if_neg hw.stop0]
  have hwhole : (wanted compile 0 { walkRequest w id w.start with limit := log.length + 1 } log).map envelopeCode =
      W w.start := by
    rw [← wanted_code]
    simp only [W, answer, hty, walkRequest, Bool.false_eq_true, if_false, hw.ends, Option.getD_some, if_neg hw.stop0]
    rw [if_neg (by omega), List.take_of_length_le]
    refine (List.length_filter_le _ _).trans ((List.length_filterMap_le _ _).trans ((List.length_filter_le _ _).trans ?_))
    rw [List.length_map]
    omega
  have hbound : ∀ s, (readRespProto.encode (some (wanted compile 0 (walkRequest w id s) log))).length ≤ grpcMaxMessage := by
    intro s
    have hl := wanted_len (compile := compile) (now := 0) (q := walkRequest w id s) (log := log) (B := B)
      fun e he => hB e he
    refine answer_bound hl.2 ?_
    have h4 : grpcMaxMessage = 4194304 := rfl
    rw [h4]
    have := Nat.mul_le_mul_right (B + 5) hl.1
    exact le_trans (Nat.add_le_add_right this 5) hlim
  have hpos : 1 ≤ (if w.limit.getD 0 = 0 then 100 else w.limit.getD 0).toNat := by
    have := hw.limit.1
    split <;> omega
  have hgot : ∀ s, FitsInt64 s → s ≤ stop → ∀ i, GrpcReader compile c j log w.delay (walkRequest w id s) i →
      ∃ now, i = .got ((W s).take (if w.limit.getD 0 = 0 then 100 else w.limit.getD 0).toNat) now true ∧
        ∀ e ∈ log, e.timestamp ≤ now - w.delay := by
    intro s hs hss i hi
    cases i with
    | failed d =>
      obtain ⟨_, now, hr⟩ := hi
      have := (nodesRead_iff hcl hl0 hw hs hss now _).1 hr
      rw [if_pos (hbound s)] at this
      cases this
    | got es now more =>
      obtain ⟨rfl, hold, now', ws, hr, rfl⟩ := hi
      have := (nodesRead_iff hcl hl0 hw hs hss now' _).1 hr
      rw [if_pos (hbound s)] at this
      injection this with this
      subst this
      exact ⟨now, by rw [hpage], hold⟩
  have hrun : WalkRun bo w id (fun q i => GrpcReader compile c j log w.delay q i ∧ FitsInt64 q.start ∧ q.start ≤ stop)
      (walkInit w b) tr r := by
    suffices hg : ∀ s : WalkState β, FitsInt64 s.start → s.start ≤ stop →
        WalkRun bo w id (GrpcReader compile c j log w.delay) s tr r →
        WalkRun bo w id (fun q i => GrpcReader compile c j log w.delay q i ∧ FitsInt64 q.start ∧ q.start ≤ stop)
          s tr r from hg _ hw.fits.1 hw.window h
    clear h
    intro s hs hss h
    induction h with
    | nil s => exact .nil s
    | done h1 h2 => exact .done ⟨h1, hs, hss⟩ h2
    | @step s s' i v tr r h1 h2 h3 ih =>
      refine .step ⟨h1, hs, hss⟩ h2 ?_
      obtain ⟨now, rfl, -⟩ := hgot _ hs hss _ h1
      cases v with
      | none =>
        have := (walkStep_idle h2).1
        exact ih (by rw [this]; exact hs) (by rw [this]; exact hss)
      | some d =>
        obtain ⟨es, now', more, last, he, rfl, hl, hn⟩ := walkStep_visit h2
        injection he with he _ _
        subst he
        have hm : last ∈ W s.start :=
          List.mem_of_mem_take ((walkTrim_prefix _ _ _ _).subset (List.mem_of_getLast? hl))
        have hwin := hW.window _ _ hm
        have hs' : s'.start = last.timestamp + 1 := by
          split at hn
          · cases hn
          · cases hn; rfl
        have h2' := hw.fits.2
        unfold FitsInt64 at hs h2' ih
        exact ih (by rw [hs']; constructor <;> omega) (by rw [hs']; omega)
  have hall : ∀ x ∈ tr, ∃ es now more, x.1 = .got es now more := by
    clear h
    generalize walkInit w b = s0 at hrun
    induction hrun with
    | nil => simp
    | done h1 h2 =>
      intro x hx
      rw [List.mem_singleton] at hx
      subst hx
      obtain ⟨now, hi, -⟩ := hgot _ h1.2.1 h1.2.2 _ h1.1
      exact ⟨_, _, _, hi⟩
    | step h1 h2 _ ih =>
      intro x hx
      rcases List.mem_cons.1 hx with rfl | hx
      · obtain ⟨now, hi, -⟩ := hgot _ h1.2.1 h1.2.2 _ h1.1
        exact ⟨_, _, _, hi⟩
      · exact ih x hx
  obtain ⟨c1, c2, c3⟩ := walk_complete hW hw.ends (by
    intro s es now more he
    obtain ⟨now', hi, hold⟩ := hgot s he.2.1 he.2.2 _ he.1
    injection hi with h1 h2 h3
    subst h1 h2 h3
    refine ⟨wholeGroups_take (answer_sorted hsort ..) hpos, rfl, fun e he => ?_⟩
    simp only [W, answer] at he
    obtain ⟨he, -⟩ := List.mem_filter.1 he
    obtain ⟨o, ho, hp⟩ := List.mem_filterMap.1 he
    obtain ⟨x, hx, rfl⟩ := List.mem_map.1 (List.mem_filter.1 ho).1
    rw [project_ts hp]
    exact hold x hx) hrun
  refine ⟨_, rfl, hall, ?_, ?_, ?_⟩
  · rw [hwhole]; exact c1
  · intro hr
    rw [hwhole]
    refine c2 hr ?_
    obtain ⟨pre, i, v, s', hp, -, -⟩ := walkRun_init_last h hr
    obtain ⟨es, now, more, hi⟩ := hall (i, v) (by rw [hp]; simp)
    exact ⟨es, now, more, v, by rw [hp, List.getLast?_append]; simp at hi ⊢; exact hi⟩
  · intro hb
    have := (c3 hall hb).1
    rw [← List.length_map (f := envelopeCode), hwhole]
    exact this

/-- As `grpcRead_late`. -/
theorem nodesRead_late (hcl : NodesRead compile c id j log)
    (hid : (utf8Bytes id).length ≤ 4000000) (hf1 : FitsInt64 start)
    (hf2 : FitsInt64 stop) (h0 : stop ≠ 0) (hw : stop < start) (now : Int) (out : Option (List WireEnvelope)) :
    GrpcRead compile now c j (walkRequest (dataReaderCfg (metricsBetween id start stop)) id start) out ↔ out = none := by
  have hreq : readReqProto.decode (readReqProto.encode
      (walkRequest (dataReaderCfg (metricsBetween id start stop)) id start)) =
      some (walkRequest (dataReaderCfg (metricsBetween id start stop)) id start) := by
    refine C115_read_request _ ⟨hf1, hf2, by unfold FitsInt64; norm_num [walkRequest, dataReaderCfg, metricsBetween], ?_⟩
      (max_lt (query_size hid hf2 start hf1))
    intro t ht
    have : t ∈ [EType.gauge, EType.counter, EType.timer] := ht
    simp only [List.mem_cons, List.not_mem_nil, or_false] at this
    rcases this with rfl | rfl | rfl <;> trivial
  have hloc : ∀ st, localRead compile now st (walkRequest (dataReaderCfg (metricsBetween id start stop)) id start) =
      some (.error .startAfterEnd) := by
    intro st
    have : readArgs compile now (walkRequest (dataReaderCfg (metricsBetween id start stop)) id start) =
        .error .startAfterEnd := by
      unfold readArgs
      rw [if_pos ⟨h0, hw⟩]
    unfold localRead
    rw [this]
  constructor
  · rintro (⟨hops, i, resp, hat, ⟨_, q, es, ws, b, hdec, hl, _⟩, hback⟩ | ⟨rfl, _⟩)
    · rw [hreq] at hdec
      injection hdec with hdec
      subst hdec
      rw [hloc] at hl
      cases hl
    · rfl
  · rintro rfl
    obtain ⟨hops, i, hex⟩ := hcl.reach
    exact .inr ⟨rfl, .inr ⟨hops, i, hex, .inr (.inr ⟨_, _, hreq, hloc _⟩)⟩⟩

/-- As `C157_reader`. -/
theorem nodesRead_reader (hcl : NodesRead compile c id j log)
    (hid : (utf8Bytes id).length ≤ 4000000) (hB : ∀ e ∈ log, (wireEnvelopeProto.encode e).length ≤ 41937)
    (hf1 : FitsInt64 start) (hf2 : FitsInt64 stop) (h0 : stop ≠ 0) :
    (∃ tr, QueryWalk compile c j log id start stop tr) ∧
    ∀ tr, QueryWalk compile c j log id start stop tr → dataReaderResult false (delivered tr) =
      some (answer start stop (some [.gauge, .counter, .timer]) none (log.map envelopeCode)) := by
  by_cases hw : start ≤ stop
  · have hfair := fairWalk_query (compile := compile) hid hf1 hf2 h0 hw
    refine ⟨?_, fun tr hrun => ?_⟩
    · obtain ⟨now, hnow⟩ : ∃ now : Int, ∀ e ∈ log, e.timestamp ≤ now - 1000000000 := by
        have harr := hcl.arrived
        refine ⟨2 ^ 64, fun e he => ?_⟩
        have := (harr e he).1.1.2
        omega
      suffices hg : ∀ (k : Nat) (s : WalkState Int), (stop - s.start).toNat < k → FitsInt64 s.start → s.start ≤ stop →
          ∃ tr, WalkRun dataReaderBackoff (dataReaderCfg (metricsBetween id start stop)) id
            (GrpcReader compile c j log 1000000000) s tr none from
        hg _ (walkInit _ 0) (Nat.lt_succ_self _) hf1 hw
      intro k
      induction k with
      | zero =>
        intro s hk hs hss
        omega
      | succ k ih =>
        intro s hk hs hss
        have hread := (nodesRead_iff hcl rfl hfair hs hss 0 _).2 rfl
        rw [if_pos (by
          have hl := wanted_len (compile := compile) (now := 0)
            (q := walkRequest (dataReaderCfg (metricsBetween id start stop)) id s.start) (log := log) (B := 41937)
            hB
          refine answer_bound hl.2 ?_
          have h4 : grpcMaxMessage = 4194304 := rfl
          have h5 : (wanted compile 0 (walkRequest (dataReaderCfg (metricsBetween id start stop)) id s.start) log).length ≤
            100 := hl.1
          omega)] at hread
        have hre : GrpcReader compile c j log 1000000000
            (walkRequest (dataReaderCfg (metricsBetween id start stop)) id s.start) (.got _ now true) :=
          ⟨rfl, hnow, 0, _, hread, rfl⟩
        rcases hst : walkStep dataReaderBackoff (dataReaderCfg (metricsBetween id start stop)) s
          (.got ((wanted compile 0 (walkRequest (dataReaderCfg (metricsBetween id start stop)) id s.start) log).map
            envelopeCode) now true) with ⟨v, r⟩
        cases r with
        | none => exact ⟨_, .done hre hst⟩
        | some s' =>
          cases v with
          | none =>
            exfalso
            unfold walkStep at hst
            simp only at hst
            split at hst
            · simp [dataReaderBackoff, retryBackoff] at hst
            · simp at hst
          | some d =>
            obtain ⟨es, now', more, last, he, rfl, hl, hn⟩ := walkStep_visit hst
            injection he with he _ _
            subst he
            have hm := (walkTrim_prefix _ _ _ _).subset (List.mem_of_getLast? hl)
            obtain ⟨e, he, rfl⟩ := List.mem_map.1 hm
            have hwin := wanted_window h0 he
            have hwin : s.start ≤ e.timestamp ∧ e.timestamp < stop := hwin
            have hs' : s'.start = e.timestamp + 1 := by
              split at hn
              · cases hn
              · cases hn; rfl
            have h2' := hf2
            unfold FitsInt64 at hs h2' ih
            obtain ⟨tr, htr⟩ := ih s' (by rw [hs']; omega) (by rw [hs']; constructor <;> omega) (by rw [hs']; omega)
            exact ⟨_, .step hre hst htr⟩
    · obtain ⟨whole, rfl, -, -, hd, -⟩ := nodesRead_walk hcl rfl hfair (B := 41937) hB (by
        show (100 : Int).toNat * (41937 + 5) + 5 ≤ 4194304
        decide) hrun
      unfold dataReaderResult
      rw [if_neg (by simp), hd rfl, ← wanted_code]
      congr 1
      have : (fun e : Envelope => decide (∀ t ∈ [EType.gauge, EType.counter, EType.timer], t = .any) ||
          decide (∃ t ∈ [EType.gauge, EType.counter, EType.timer], kind e = some t)) =
          typeOk (some [.gauge, .counter, .timer]) := (funext (typeOk_requested [.gauge, .counter, .timer])).symm
      unfold answer
      rw [← this]
      refine List.take_of_length_le ?_ |>.trans ?_
      · refine (List.length_filter_le _ _).trans ((List.length_filterMap_le _ _).trans ((List.length_filter_le _ _).trans ?_))
        simp only [walkRequest, Bool.false_eq_true, if_false, List.length_map]
        rw [if_neg (by omega)]
        omega
      · simp only [walkRequest, Bool.false_eq_true, if_false, dataReaderCfg, metricsBetween, Option.getD_some, if_neg h0,
          reduceCtorEq, if_true]
  · have hlate : ∀ i, GrpcReader compile c j log 1000000000
        (walkRequest (dataReaderCfg (metricsBetween id start stop)) id start) i ↔ i = .failed false := by
      intro i
      constructor
      · intro hi
        cases i with
        | failed d => rw [hi.1]
        | got es now more =>
          obtain ⟨_, _, now', ws, hr, _⟩ := hi
          cases (nodesRead_late hcl hid hf1 hf2 h0 (by omega) now' _).1 hr
      · rintro rfl
        exact ⟨rfl, 0, (nodesRead_late hcl hid hf1 hf2 h0 (by omega) 0 none).2 rfl⟩
    have hf := (hlate _).2 rfl
    refine ⟨⟨List.replicate 5 (.failed false, none),
      .step hf rfl (.step hf rfl (.step hf rfl (.step hf rfl (.done hf rfl))))⟩, fun tr hrun => ?_⟩
    have hnone : answer start stop (some [.gauge, .counter, .timer]) none (log.map envelopeCode) = [] := by
      unfold answer
      have : (log.map envelopeCode).filter (inWindow start stop) = [] := by
        rw [List.filter_eq_nil_iff]
        intro e _
        unfold inWindow
        rw [Bool.and_eq_true, decide_eq_true_eq, decide_eq_true_eq]
        omega
      rw [this]
      rfl
    have hdel : delivered tr = [] := by
      suffices hg : ∀ (s : WalkState Int) r, s.start = start →
          WalkRun dataReaderBackoff (dataReaderCfg (metricsBetween id start stop)) id
            (GrpcReader compile c j log 1000000000) s tr r → delivered tr = [] from hg _ _ rfl hrun
      clear hrun
      intro s r hs h
      induction h with
      | nil => rfl
      | done he hst =>
        rw [hs, hlate] at he
        subst he
        simp only [walkStep, Bool.false_eq_true, if_false, Prod.mk.injEq] at hst
        rw [← hst.1]
        rfl
      | step he hst _ ih =>
        rw [hs, hlate] at he
        subst he
        simp only [walkStep, Bool.false_eq_true, if_false, Prod.mk.injEq] at hst
        obtain ⟨h1, h2⟩ := hst
        have := ih (by
          split at h2
          · cases h2; exact hs
          · cases h2)
        rw [← h1]
        exact this
    rw [hdel, hnone]
    rfl
/-- The nodes of a cluster that has recovered answer from one log, if the source has one owner. -/
theorem recovered_nodes {cfg : Config} {n : Nat} {L : Str → List Nat} {pre : List PruneEvent}
    {post : List XEvent} {before after : List SendReq} {k : Nat} (hcl : Recovered cfg n L pre post c before after [k] id)
    (hd : ((postedFor (before ++ after) id).map WireEnvelope.timestamp).Nodup)
    (hroom : (postedFor (before ++ after) id).length < 100) (compile : Str → Option (Str → Bool)) :
    ∃ log, RecoveredLog before after id log ∧ ∀ j, j < n → NodesRead compile c id j log := by
  obtain ⟨hrun, hp1, hp2, ha, ht, hag, hne, hin, hcalm, hq, hs, hfew, hc, hcap⟩ := hcl
  have e1 := sentBy_posted hp1 (fun r hr => ha r (List.mem_append_left _ hr)) id
  have e2 := sentBy_posted hp2 (fun r hr => ha r (List.mem_append_right _ hr)) id
  have e3 : sentBy (stepsOf pre ++ post) id = (postedFor (before ++ after) id).map envelopeCode := by
    rw [postedFor_append, List.map_append, ← e1, ← e2]
    simp [sentBy]
  have hall : ∀ j, j < n → _ := fun j hj => C156_pruned_partial hc hrun ht hag hne hin hcalm hq
    (by rw [e3]; exact spread_code hs) (fun ts => by rw [e3, howMany_code]; exact hfew ts)
    (by rw [e3, List.length_map]; exact hcap) hj
  have hone : ∀ j, j < n → ∀ hops r, ReadAt c.lk id j hops r → r = some k := by
    intro j hj hops r hat
    obtain ⟨-, k', hk', rfl, -⟩ := (hall j hj).2 hops r hat
    rw [List.mem_singleton.1 hk']
  have hk : k < n := hin k (List.mem_singleton.2 rfl)
  obtain ⟨⟨hops, r, hat⟩, hret⟩ := hall k hk
  obtain ⟨-, k', hk', -, old, hold, log', hperm, hsort, hans⟩ := hret hops r hat
  cases List.mem_singleton.1 hk'
  rw [e1] at hold
  obtain ⟨oldw, ho1, rfl⟩ := some_code hold
  rw [e2, ← List.map_append] at hperm hans
  obtain ⟨log, hl1, rfl⟩ := perm_code hperm
  have hrec : RecoveredLog before after id log :=
    ⟨⟨oldw, ho1, hl1⟩, (List.pairwise_map (f := envelopeCode) (R := fun x y => x.timestamp ≤ y.timestamp)).1 hsort⟩
  obtain ⟨rest, hrest⟩ := ho1
  have hpall : (log ++ rest).Perm (postedFor (before ++ after) id) := by
    rw [postedFor_append]
    refine (hl1.append_right rest).trans ?_
    rw [List.append_assoc]
    refine (List.perm_append_comm.append_left oldw).trans ?_
    rw [← List.append_assoc]
    exact hrest.append_right _
  have hlen : (oldw ++ postedFor after id).length < 100 := by
    rw [← hl1.length_eq]
    have := hpall.length_eq
    rw [List.length_append] at this
    omega
  refine ⟨log, hrec, fun j hj => ⟨?_, ?_, ?_, ?_⟩⟩
  · intro e he
    exact postedFor_arrived ha (src := id) e (hpall.mem_iff.1 (List.mem_append_left _ he))
  · have hn := ((hpall.map WireEnvelope.timestamp).nodup_iff).2 hd
    rw [List.map_append] at hn
    have hn := List.pairwise_map.1 (List.nodup_append.1 hn).1
    exact (hrec.2.and hn).imp fun h => lt_of_le_of_ne h.1 h.2
  · obtain ⟨hops, r, hat⟩ := (hall j hj).1
    cases hone j hj hops r hat
    exact ⟨hops, k, hat⟩
  · intro now q hid hl0 hkn hwin hfil hops res hat
    refine ⟨k, hone j hj hops res hat, ?_⟩
    rw [← wanted_code]
    rcases hans compile now q hid hkn with ⟨err, he⟩ | ⟨res, g1, all, g2, -, g4, -⟩
    · exfalso
      rcases (C24_rejected_iff compile now (c.store k) _).1 ⟨err, he⟩ with h1 | h1 | h1 | h1
      · exact hwin.elim h1.1 (fun h => absurd h1.2 (not_lt.2 h))
      · omega
      · omega
      · exact hfil.elim h1.1 (fun h => h h1.2)
    · rw [g1, g4 (by rw [hl0, List.length_map]; rw [if_pos rfl]; exact_mod_cast hlen), g2, List.take_of_length_le]
      rw [hl0]
      refine le_trans (List.length_filter_le ..) (le_trans (List.length_filterMap_le ..)
          (le_trans (List.length_filter_le ..) ?_))
      have : (log.map envelopeCode).length < 100 := by
        rw [List.length_map, hl1.length_eq]
        exact hlen
      have h100 : (100 : Int).toNat = 100 := rfl
      simp only [if_true, h100]
      split
      · rw [List.length_reverse]; omega
      · omega
end

section
variable {compile : Str → Option (Str → Bool)} {cfg : Config} {n : Nat} {L : Str → List Nat} {c : Cluster}
    {pre : List PruneEvent} {post : List XEvent} {before after : List SendReq}

/-- The log from which the nodes answer, for each of the sources. -/
theorem recovered_logs {S : Str → Prop} (h : RecoversFor cfg n L pre post c before after S)
    (compile : Str → Option (Str → Bool)) :
    ∃ log : Str → List WireEnvelope, (∀ id, S id → RecoveredLog before after id (log id) ∧
      ∀ j, j < n → NodesRead compile c id j (log id)) ∧ ∀ id, ∀ e ∈ log id, S id ∧ e ∈ postedFor (before ++ after) id := by
  classical
  have hex : ∀ id, ∃ log, (S id → RecoveredLog before after id log ∧ ∀ j, j < n → NodesRead compile c id j log) ∧
      ∀ e ∈ log, S id ∧ e ∈ postedFor (before ++ after) id := by
    intro id
    by_cases hs : S id
    · obtain ⟨⟨k, hk⟩, hd, hroom, -⟩ := h id hs
      obtain ⟨log, h1, h2⟩ := recovered_nodes hk hd hroom compile
      refine ⟨log, fun _ => ⟨h1, h2⟩, fun e he => ⟨hs, ?_⟩⟩
      obtain ⟨⟨old, g1, g2⟩, -⟩ := h1
      rw [postedFor_append]
      rcases List.mem_append.1 (g2.mem_iff.1 he) with he | he
      · exact List.mem_append_left _ (someWire_mem g1 he)
      · exact List.mem_append_right _ he
    · exact ⟨[], fun h => absurd h hs, by simp⟩
  choose log h1 h2 using hex
  exact ⟨log, h1, h2⟩

/-- A read of data for a query, at any node, after a recovery: it ends. -/
theorem recovered_walks {S : Str → Prop} (h : RecoversFor cfg n L pre post c before after S)
    {log : Str → List WireEnvelope} (hl : ∀ id, ∀ e ∈ log id, S id ∧ e ∈ postedFor (before ++ after) id) {j : Nat}
    (hn : ∀ id, S id → NodesRead compile c id j (log id)) {id : Str} (hs : S id) {start stop : Int} (hf1 : FitsInt64 start)
    (hf2 : FitsInt64 stop) (h0 : stop ≠ 0) :
    (∃ tr, QueryWalk compile c j (log id) id start stop tr) ∧
    ∀ tr, QueryWalk compile c j (log id) id start stop tr → dataReaderResult false (delivered tr) =
      some (answer start stop (some [.gauge, .counter, .timer]) none ((log id).map envelopeCode)) := by
  obtain ⟨-, -, -, hlen, hB⟩ := h id hs
  exact nodesRead_reader (hn id hs) hlen (fun e he => hB e (hl id e he).2) hf1 hf2 h0

theorem recovered_stored {S : Str → Prop} (h : RecoversFor cfg n L pre post c before after S)
    {log : Str → List WireEnvelope} (hl : ∀ id, ∀ e ∈ log id, S id ∧ e ∈ postedFor (before ++ after) id)
    (hn : ∀ id, S id → RecoveredLog before after id (log id)) : StoredLogs fun id => (log id).map envelopeCode := by
  have hmem : ∀ id, ∀ e ∈ log id, Arrived e ∧ e.sourceId = id := by
    intro id e he
    obtain ⟨hs, he⟩ := hl id e he
    obtain ⟨⟨k, hk⟩, -⟩ := h id hs
    unfold postedFor at he
    rw [List.mem_filter, decide_eq_true_eq] at he
    obtain ⟨r, hr, hre⟩ := List.mem_flatMap.1 he.1
    exact ⟨hk.arrived r hr e hre, he.2⟩
  refine ⟨fun id => ?_, fun id e he => ?_, fun id e he => ?_⟩
  · by_cases hs : log id = []
    · rw [hs]; exact List.Pairwise.nil
    · obtain ⟨e, he⟩ := List.exists_mem_of_ne_nil _ hs
      exact List.pairwise_map.2 (hn id (hl id e he).1).2
  · obtain ⟨x, hx, rfl⟩ := List.mem_map.1 he
    exact (hmem id x hx).2
  · obtain ⟨x, hx, rfl⟩ := List.mem_map.1 he
    have := (hmem id x hx).1.1.2.2.2.1
    refine List.pairwise_map.2 (this.imp ?_)
    intro a b h he
    rw [he] at h
    exact absurd h (List.lt_irrefl _)

/-- What the engine needs to know of the reads of a query after a recovery. -/
theorem recovered_answers {ms : List Matcher} (hrec : RecoversFor cfg n L pre post c before after (NamesSource ms))
    (hc : ClearLabels fun id => (postedFor (before ++ after) id).map envelopeCode) (compile : Str → Option (Str → Bool)) :
    ∃ log : Str → List WireEnvelope, (∀ id, NamesSource ms id → RecoveredLog before after id (log id)) ∧
      StoredLogs (fun id => (log id).map envelopeCode) ∧ ClearLabels (fun id => (log id).map envelopeCode) ∧
      (∀ id, NamesSource ms id → ∀ e ∈ postedFor after id, envelopeCode e ∈ (log id).map envelopeCode) ∧
      ∀ j, j < n → (∃ read, ReadsByWalks compile c j (NamesSource ms) log read) ∧
      ∀ read, ReadsByWalks compile c j (NamesSource ms) log read → AnswersFrom ms (fun id => (log id).map envelopeCode) read := by
  obtain ⟨log, h1, h2⟩ := recovered_logs hrec compile
  refine ⟨log, fun id hid => (h1 id hid).1, recovered_stored hrec h2 fun id hid => (h1 id hid).1, ?_, ?_,
    fun j hj => ⟨?_, fun read hr => ?_⟩⟩
  · have hm : ∀ id, ∀ e ∈ (log id).map envelopeCode, e ∈ (postedFor (before ++ after) id).map envelopeCode := by
      intro id e he
      obtain ⟨x, hx, rfl⟩ := List.mem_map.1 he
      exact List.mem_map.2 ⟨x, (h2 id x hx).2, rfl⟩
    intro id e he k v hk
    obtain ⟨g1, g2⟩ := hc id e (hm id e he) k v hk
    exact ⟨g1, fun id' e' he' => g2 id' e' (hm id' e' he')⟩
  · intro id hid e he
    exact List.mem_map.2 ⟨e, (h1 id hid).1.1.choose_spec.2.mem_iff.2 (List.mem_append_right _ he), rfl⟩
  · refine ⟨fun q => some (answer q.start q.stop (some [.gauge, .counter, .timer]) none ((log q.sourceId).map envelopeCode)),
      fun id start stop hid hf1 hf2 h0 => ?_⟩
    obtain ⟨⟨tr, htr⟩, hall⟩ := recovered_walks hrec h2 (fun id hid => (h1 id hid).2 j hj) hid hf1 hf2 h0
    exact ⟨tr, htr, (hall tr htr).symm⟩
  · intro id start stop hid hf1 hf2 h0
    obtain ⟨tr, htr, hread⟩ := hr id start stop hid hf1 hf2 h0
    exact hread.trans ((recovered_walks hrec h2 (fun id hid => (h1 id hid).2 j hj) hid hf1 hf2 h0).2 tr htr)

/-- **After a recovery queries show all that was sent since**, at whatever node they are asked: the
node that owns a source has a log of it, with all that was sent since and some of what was sent
before, and the answer shows for every combination of labels the value of the newest envelope of
that log that the selector asks for and that is from the five minutes before the query's time.
Missing: sources with more than one owner, of a hundred envelopes or more or with equal times, and
what C157 leaves out. -/
theorem C169_recovers_partial {st : Nat → Nat} (hst : ErrorStatus st) (why msg : Str) (rfc dur : Str → Option Int)
    (parse : Str → Option (List Matcher)) (num : PVal → Go64) (query : Str) (ms : List Matcher)
    (hq : parse query = some ms) (hp : PlainSelector ms)
    (hrec : RecoversFor cfg n L pre post c before after (NamesSource ms))
    (hc : ClearLabels fun id => (postedFor (before ++ after) id).map envelopeCode)
    (opts : List PromOpt) (now t : Int) (ht : EvaluatedAt opts now t) :
    ∃ log : Str → List WireEnvelope, (∀ id, NamesSource ms id → RecoveredLog before after id (log id)) ∧
      ∀ j, j < n → (∃ read, ReadsByWalks compile c j (NamesSource ms) log read) ∧
      ∀ (read : Nat → ReadRequest → Option (List Envelope)), ReadsByWalks compile c j (NamesSource ms) log (read 0) →
      ∀ (order : Nat → List Matcher → List Str), ValidOrder (order 0) → ∃ samples,
        readProm (unmarshalInstant go64) (gatewayServe go64 st why (promNode go64 rfc dur parse num read order now msg)
          (httpPromQL query opts)) = some (.vector samples) ∧
        grpcProm ((promNode go64 rfc dur parse num read order now msg).instant (grpcPromQL query opts)) =
          some (some (.vector samples)) ∧
        (∀ s ∈ samples, s.point.time = thousandthsText (t / 1000000) ∧
          ∃ e v, Shows ms e v ∧ CarriesLabels s.metric e ∧ s.point.value = num v ∧
            LastWith ((log e.sourceId).map envelopeCode) (fun x => InSeries ms e x ∧ Recent t x) e) ∧
        (∀ id, NamesSource ms id → ∀ e ∈ postedFor after id, (∃ v, Shows ms (envelopeCode e) v) →
          Recent t (envelopeCode e) → ∃ s ∈ samples, CarriesLabels s.metric (envelopeCode e)) ∧
        samples.Pairwise fun s s' => ¬ SameLabels s.metric s'.metric := by
  obtain ⟨log, h1, hs, hc', hin, h2⟩ := recovered_answers hrec hc compile
  refine ⟨log, h1, fun j hj => ⟨(h2 j hj).1, fun read hr order ho => ?_⟩⟩
  obtain ⟨samples, k1, k2, k3, k4, k5⟩ := C138_instant_partial hst why msg rfc dur parse num _ hs hc' read ms
    ((h2 j hj).2 _ hr) order ho query hq hp opts now t ht
  exact ⟨samples, k1, k2, k3, fun id hid e he => k4 id _ (hin id hid e he), k5⟩

/-- The same for range queries. -/
theorem C169_recovers_range_partial {st : Nat → Nat} (hst : ErrorStatus st) (why msg : Str) (rfc dur : Str → Option Int)
    (parse : Str → Option (List Matcher)) (num : PVal → Go64) (query : Str) (ms : List Matcher)
    (hq : parse query = some ms) (hp : PlainSelector ms)
    (hrec : RecoversFor cfg n L pre post c before after (NamesSource ms))
    (hc : ClearLabels fun id => (postedFor (before ++ after) id).map envelopeCode)
    (opts : List PromOpt) (now : Int) (a b : Nat) (ht : RangeGiven opts a b) (step : Str) (d : Nat)
    (hstep : lastGiven stepOf opts = some step) (hd : parseStep dur step = some (d * 1000000 : Nat)) (hd0 : 1 ≤ d) :
    ∃ log : Str → List WireEnvelope, (∀ id, NamesSource ms id → RecoveredLog before after id (log id)) ∧
      ∀ j, j < n → (∃ read, ReadsByWalks compile c j (NamesSource ms) log read) ∧
      ∀ (read : Nat → ReadRequest → Option (List Envelope)), ReadsByWalks compile c j (NamesSource ms) log (read 0) →
      ∀ (order : Nat → List Matcher → List Str), ValidOrder (order 0) → ∃ series,
        readProm (unmarshalRange go64) (gatewayServe go64 st why (promNode go64 rfc dur parse num read order now msg)
          (httpPromQLRange query opts)) = some (.matrix series) ∧
        grpcProm ((promNode go64 rfc dur parse num read order now msg).range (grpcPromQLRange query opts)) =
          some (some (.matrix series)) ∧
        (∀ s ∈ series, s.points ≠ [] ∧ ∃ e ∈ (log e.sourceId).map envelopeCode, (∃ v, Shows ms e v) ∧
          CarriesLabels s.metric e ∧
          ∃ shown : Int → Option (Envelope × PVal), ∃ ts : List Int, ts.Pairwise (· < ·) ∧
            (∀ T, T ∈ ts ↔ IsStep (a * 1000) (b * 1000) d T) ∧
            (∀ T ∈ ts, StepShows ((log e.sourceId).map envelopeCode) ms e (b * 1000000000) (T * 1000000) (shown T)) ∧
            s.points = ts.filterMap fun T => (shown T).map fun y => ⟨thousandthsText T, num y.2⟩) ∧
        (∀ id, NamesSource ms id → ∀ e ∈ postedFor after id, (∃ v, Shows ms (envelopeCode e) v) →
          ∀ T, IsStep (a * 1000) (b * 1000) d T →
          InSecond (T * 1000000) (b * 1000000000) (envelopeCode e) ∨
            SecondsBefore (T * 1000000) (b * 1000000000) (envelopeCode e) →
          ∃ s ∈ series, CarriesLabels s.metric (envelopeCode e)) ∧
        series.Pairwise fun s s' => ¬ SameLabels s.metric s'.metric := by
  obtain ⟨log, h1, hs, hc', hin, h2⟩ := recovered_answers hrec hc compile
  refine ⟨log, h1, fun j hj => ⟨(h2 j hj).1, fun read hr order ho => ?_⟩⟩
  obtain ⟨series, k1, k2, k3, k4, k5⟩ := C138_range_partial hst why msg rfc dur parse num _ hs hc' read ms
    ((h2 j hj).2 _ hr) order ho query hq hp opts now a b ht step d hstep hd hd0
  exact ⟨series, k1, k2, k3, fun id hid e he => k4 id _ (hin id hid e he), k5⟩

variable {oauth : Str → Option UserCtx} {auth : Str → Str → Bool} {related : List Str → Str → Option Expansions}
    {order : List Str → List Str} {parse : Str → Option PExpr} {print : PExpr → Str} {nodeParse : Str → Option (List Matcher)}
    {token query : Str} {ms : List Matcher} {u : UserCtx} {rel : Expansions}

/-- The same for a user who asks the auth proxy, of the sources that they may read. -/
theorem C169_recovers_user_partial {st : Nat → Nat} (hst : ErrorStatus st) (why msg : Str) (rfc dur : Str → Option Int)
    (num : PVal → Go64) (explain : Str → Str)
    (hu : UserAsks oauth auth related order parse print nodeParse token query ms u rel) (hmay : MayAsk u auth rel ms)
    (hrec : RecoversFor cfg n L pre post c before after (SeenSource u auth rel ms))
    (hc : ClearLabels fun id => (postedFor (before ++ after) id).map envelopeCode)
    (opts : List PromOpt) (now t : Int) (ht : EvaluatedAt opts now t) :
    ∃ log : Str → List WireEnvelope, (∀ id, SeenSource u auth rel ms id → RecoveredLog before after id (log id)) ∧
      ∀ j, j < n → (∃ read, ReadsByWalks compile c j (SeenSource u auth rel ms) log read) ∧
      ∀ (read : Nat → ReadRequest → Option (List Envelope)),
      ReadsByWalks compile c j (SeenSource u auth rel ms) log (read 0) →
      ∀ (iter : Nat → List Matcher → List Str), ValidOrder (iter 0) → ∃ samples,
        readProm (unmarshalInstant go64) (askProxy go64 st why (promNode go64 rfc dur nodeParse num read iter now msg)
          oauth auth related order parse explain print token (httpPromQL query opts)) = some (.vector samples) ∧
        (∀ s ∈ samples, s.point.time = thousandthsText (t / 1000000) ∧
          ∃ e v, ShowsOf (SeenSource u auth rel ms) ms e v ∧ CarriesLabels s.metric e ∧ s.point.value = num v ∧
            LastWith ((log e.sourceId).map envelopeCode)
              (fun x => InSeriesOf (SeenSource u auth rel ms) ms e x ∧ Recent t x) e) ∧
        (∀ id, SeenSource u auth rel ms id → ∀ e ∈ postedFor after id,
          (∃ v, ShowsOf (SeenSource u auth rel ms) ms (envelopeCode e) v) →
          Recent t (envelopeCode e) → ∃ s ∈ samples, CarriesLabels s.metric (envelopeCode e)) ∧
        samples.Pairwise fun s s' => ¬ SameLabels s.metric s'.metric := by
  obtain ⟨ms', hq, hsame, hnames⟩ := (asks_handled hu).1 hmay
  have hS : NamesSource ms' = SeenSource u auth rel ms := funext fun id => propext (hnames id)
  have hsh : ∀ e v, Shows ms' e v ↔ ShowsOf (SeenSource u auth rel ms) ms e v := shows_other hsame hnames
  have hser : ∀ e x, InSeries ms' e x ↔ InSeriesOf (SeenSource u auth rel ms) ms e x := by
    intro e x
    unfold InSeries InSeriesOf
    simp only [hsh]
  have hplain : PlainSelector ms' := by
    obtain ⟨name, hname⟩ := hu.plain.1
    obtain ⟨id, h1, h2⟩ := hmay name hname
    exact plain_other hsame hu.plain ⟨id, (hnames id).2 ⟨name, hname, h1, h2⟩⟩
  rw [← hS] at hrec ⊢
  obtain ⟨log, h1, h2⟩ := C169_recovers_partial (compile := compile) hst why msg rfc dur nodeParse num
    (print (.vector ms')) ms' (hu.readBack ms' hsame) hplain hrec hc opts now t ht
  refine ⟨log, h1, fun j hj => ⟨(h2 j hj).1, fun read hr iter ho => ?_⟩⟩
  obtain ⟨samples, k1, -, k3, k4, k5⟩ := (h2 j hj).2 read hr iter ho
  rw [hS] at k4 ⊢
  refine ⟨samples, ?_, ?_, ?_, k5⟩
  · rw [(ask_forward go64 st why _ explain hq opts).1]
    exact k1
  · simpa only [hsh, hser] using k3
  · simpa only [hsh] using k4
end

/-- A counter is lost with the node that took it, and another one is sent later. -/
theorem recovered_hits : ∃ pre post c, ∀ S : Str → Prop, (∀ id, S id → id = "a".toList) →
    RecoversFor { maxPerSource := 5 } 2 (fun _ => [1]) pre post c
      [{ envelopes := some [appMessage 1 (hits 5)] }] [{ envelopes := some [appMessage 2 (hits 6)] }] S := by
  have a1 := hits_arrived 1 (by unfold FitsInt64; norm_num) 5 (by norm_num)
  have a2 := hits_arrived 2 (by unfold FitsInt64; norm_num) 6 (by norm_num)
  obtain ⟨c, hrun, hq⟩ := laterLog_runs ((appMessage 1 (hits 5)).message.map messageCode)
    ((appMessage 2 (hits 6)).message.map messageCode)
  have hpf := hits_posted
  have hpost : ∀ t m, Arrived (appMessage t m) →
      (sendReqProto.encode { envelopes := some [appMessage t m] }).length ≤ grpcMaxMessage →
      Posted [.client 0 { envelopes := some [storedLog t ((appMessage t m).message.map messageCode)] }]
        [{ envelopes := some [appMessage t m] }] := fun t m ha hb =>
    List.Forall₂.cons (posted_one (r := { envelopes := some [appMessage t m] }) rfl (by simpa using ha) hb) List.Forall₂.nil
  refine ⟨(lostLog ((appMessage 1 (hits 5)).message.map messageCode)).map .step,
    laterLog ((appMessage 2 (hits 6)).message.map messageCode), c, fun S hS id hid => ?_⟩
  rw [hS id hid]
  refine ⟨⟨1, recovered_plain hrun (hpost _ _ a1 (by decide +kernel)) (hpost _ _ a2 (by decide +kernel)) ?_ (lostLog_fair _) ?_
    (by simp) (by simp) ?_ ?_ ?_ ?_ (by decide) ?_⟩, ?_, ?_, by decide +kernel, ?_⟩
  · intro r hr e he
    simp only [List.cons_append, List.nil_append, List.mem_cons, List.not_mem_nil, or_false] at hr
    rcases hr with rfl | rfl <;> simp at he <;> subst he
    · exact a1
    · exact a2
  · intro j hj
    have : j = 0 ∨ j = 1 := by omega
    rcases this with rfl | rfl <;> rfl
  · intro ev hev
    simp [laterLog] at hev
    rcases hev with rfl | rfl
    · rfl
    · trivial
  · intro i k e he
    rw [hq] at he
    cases he
  · show SpreadWire (postedFor (twoMessages (hits 5) (hits 6)) _)
    rw [hpf]
    intro x hx y hy hlt
    simp only [List.mem_cons, List.not_mem_nil, or_false] at hx hy
    rcases hx with rfl | rfl <;> rcases hy with rfl | rfl
    · exact absurd hlt (lt_irrefl (1 : Int))
    · show (1 : Int) + howManyWire _ 1 ≤ 2
      simp [howManyWire, appMessage]
    · exact absurd hlt (by show ¬ (2 : Int) < 1; omega)
    · exact absurd hlt (lt_irrefl (2 : Int))
  · intro ts
    show howManyWire (postedFor (twoMessages (hits 5) (hits 6)) _) _ ≤ _
    rw [hpf]
    exact le_trans (List.length_filter_le ..) (by decide)
  · show ((postedFor (twoMessages (hits 5) (hits 6)) _).length : Int) ≤ _
    rw [hpf]; decide
  · show ((postedFor (twoMessages (hits 5) (hits 6)) _).map WireEnvelope.timestamp).Nodup
    rw [hpf]; decide
  · show (postedFor (twoMessages (hits 5) (hits 6)) _).length < 100
    rw [hpf]; decide
  · intro e he
    have he : e ∈ postedFor (twoMessages (hits 5) (hits 6)) "a".toList := he
    rw [hpf] at he
    simp only [List.mem_cons, List.not_mem_nil, or_false] at he
    rcases he with rfl | rfl <;> decide +kernel

theorem hits_clear : ClearLabels fun id => (postedFor ([{ envelopes := some [appMessage 1 (hits 5)] }] ++
    [{ envelopes := some [appMessage 2 (hits 6)] }]) id).map envelopeCode := by
  have hm : ∀ id, ∀ e ∈ (postedFor (twoMessages (hits 5) (hits 6)) id).map envelopeCode, e ∈ (hitsLog id).map envelopeCode :=
    fun id e he => ((hitsLog_order id).1.map envelopeCode).mem_iff.2 he
  intro id e he k v hk
  obtain ⟨g1, g2⟩ := hitsLog_clear id e (hm id e he) k v hk
  exact ⟨g1, fun id' e' he' => g2 id' e' (hm id' e' he')⟩

/-- A case of `C169_recovers_partial`: whichever of the two nodes is asked, the client gets the value
of the counter that was sent after the crash. -/
example (rfc dur : Str → Option Int) (num : PVal → Go64) (why msg : Str) :
    ∃ pre post c, RecoversFor { maxPerSource := 5 } 2 (fun _ => [1]) pre post c
      [{ envelopes := some [appMessage 1 (hits 5)] }] [{ envelopes := some [appMessage 2 (hits 6)] }] (NamesSource hitsOfA) ∧
    ∃ log, ∀ j, j < 2 → (∃ read, ReadsByWalks (fun _ => none) c j (NamesSource hitsOfA) log read) ∧
      ∀ read, ReadsByWalks (fun _ => none) c j (NamesSource hitsOfA) log read → ∃ samples s,
        readProm (unmarshalInstant go64) (gatewayServe go64 (fun _ => 500) why
          (promNode go64 rfc dur (fun _ => some hitsOfA) num (fun _ => read) (fun _ ms => (selectArgs ms).ids)
            2000000000 msg) (httpPromQL "hits{source_id='a'}".toList [.time 1000000000])) = some (.vector samples) ∧
        s ∈ samples ∧ s.point.value = num (.counter 6) := by
  obtain ⟨pre, post, c, h⟩ := recovered_hits
  replace h := h (NamesSource hitsOfA) fun _ => hitsOfA_names
  have hname : NamesSource hitsOfA "a".toList := by
    obtain ⟨id, hid⟩ := hitsOfA_plain.1
    rw [← hitsOfA_names hid]; exact hid
  obtain ⟨log, hlog, hall⟩ := C169_recovers_partial (compile := fun _ => none) (st := fun _ => 500) (fun _ _ => by simp) why msg
    rfc dur (fun _ => some hitsOfA) num "hits{source_id='a'}".toList hitsOfA rfl hitsOfA_plain h hits_clear [.time 1000000000]
    2000000000 1000000000 ⟨by decide, .inl ⟨rfl, by decide, by decide⟩⟩
  refine ⟨pre, post, c, h, log, fun j hj => ⟨(hall j hj).1, fun read hr => ?_⟩⟩
  obtain ⟨samples, h1, -, h3, h4, -⟩ := (hall j hj).2 (fun _ => read) hr (fun _ ms => (selectArgs ms).ids) namedOrder_valid
  have hp2 : postedFor [{ envelopes := some [appMessage 2 (hits 6)] }] "a".toList = [appMessage 2 (hits 6)] := by
    simp [postedFor, appMessage]
  have hp1 : postedFor [{ envelopes := some [appMessage 1 (hits 5)] }] "a".toList = [appMessage 1 (hits 5)] := by
    simp [postedFor, appMessage]
  obtain ⟨s, hs, -⟩ := h4 "a".toList hname (appMessage 2 (hits 6)) (by rw [hp2]; simp) ⟨_, (hits_shows _ _ _).2 rfl⟩
    (by unfold Recent secondOf envelopeCode appMessage; decide)
  refine ⟨samples, s, h1, hs, ?_⟩
  obtain ⟨-, e, v, hsh, -, hv, hlast⟩ := h3 s hs
  rw [hv]
  have hsrc : e.sourceId = "a".toList := hitsOfA_names hsh.1
  rw [hsrc] at hlast
  obtain ⟨⟨old, ho, hl⟩, hsort⟩ := hlog "a".toList hname
  rw [hp1] at ho
  rw [hp2] at hl
  obtain ⟨l, r, hsplit, hQ, hr'⟩ := hlast
  have hmem : ∀ x ∈ (log "a".toList).map envelopeCode, x = envelopeCode (appMessage 1 (hits 5)) ∨
      x = envelopeCode (appMessage 2 (hits 6)) := by
    intro x hx
    obtain ⟨y, hy, rfl⟩ := List.mem_map.1 hx
    rcases List.mem_append.1 (hl.mem_iff.1 hy) with hy | hy
    · rw [List.mem_singleton.1 (someWire_mem ho hy)]; exact .inl rfl
    · rw [List.mem_singleton.1 hy]; exact .inr rfl
  rcases hmem e (by rw [hsplit]; simp) with rfl | rfl
  · exfalso
    have h6 : envelopeCode (appMessage 2 (hits 6)) ∈ (log "a".toList).map envelopeCode :=
      List.mem_map.2 ⟨_, hl.mem_iff.2 (by simp), rfl⟩
    have hso : ((log "a".toList).map envelopeCode).Pairwise fun x y => x.timestamp ≤ y.timestamp := List.pairwise_map.2 hsort
    rw [hsplit] at h6 hso
    rcases List.mem_append.1 h6 with h6 | h6
    · exact absurd ((List.pairwise_append.1 hso).2.2 _ h6 _ List.mem_cons_self) (by decide)
    · rcases List.mem_cons.1 h6 with h6 | h6
      · exact absurd (congrArg Envelope.timestamp h6) (by decide)
      · exact hr' _ h6 ⟨⟨⟨_, (hits_shows _ _ _).2 rfl⟩, fun k v => Iff.rfl⟩, by unfold Recent secondOf envelopeCode appMessage; decide⟩
  · rw [hits_shows] at hsh
    rw [hsh]

/-- A case of `C169_recovers_range_partial`: from the second 0 to the second 1, a step every second,
there is a series with the labels of the later counter. -/
example (rfc : Str → Option Int) (num : PVal → Go64) (why msg : Str) :
    ∃ pre post c, RecoversFor { maxPerSource := 5 } 2 (fun _ => [1]) pre post c
      [{ envelopes := some [appMessage 1 (hits 5)] }] [{ envelopes := some [appMessage 2 (hits 6)] }] (NamesSource hitsOfA) ∧
    ∃ log, ∀ j, j < 2 → (∃ read, ReadsByWalks (fun _ => none) c j (NamesSource hitsOfA) log read) ∧
      ∀ read, ReadsByWalks (fun _ => none) c j (NamesSource hitsOfA) log read → ∃ series s,
        readProm (unmarshalRange go64) (gatewayServe go64 (fun _ => 500) why
          (promNode go64 rfc (fun _ => some 1000000000) (fun _ => some hitsOfA) num (fun _ => read)
            (fun _ ms => (selectArgs ms).ids) 2000000000 msg)
          (httpPromQLRange "hits{source_id='a'}".toList [.start 0, .stop 1000000000, .step "1s".toList])) =
          some (.matrix series) ∧
        s ∈ series ∧ CarriesLabels s.metric (envelopeCode (appMessage 2 (hits 6))) ∧ s.points ≠ [] := by
  obtain ⟨pre, post, c, h⟩ := recovered_hits
  replace h := h (NamesSource hitsOfA) fun _ => hitsOfA_names
  have hname : NamesSource hitsOfA "a".toList := by
    obtain ⟨id, hid⟩ := hitsOfA_plain.1
    rw [← hitsOfA_names hid]; exact hid
  obtain ⟨log, -, hall⟩ := C169_recovers_range_partial (compile := fun _ => none) (st := fun _ => 500) (fun _ _ => by simp) why msg
    rfc (fun _ => some 1000000000) (fun _ => some hitsOfA) num "hits{source_id='a'}".toList hitsOfA rfl hitsOfA_plain h hits_clear
    [.start 0, .stop 1000000000, .step "1s".toList] 2000000000 0 1 ⟨rfl, rfl, by decide, by decide, by decide⟩ "1s".toList 1000
    rfl (by decide +kernel) (by decide)
  refine ⟨pre, post, c, h, log, fun j hj => ⟨(hall j hj).1, fun read hr => ?_⟩⟩
  obtain ⟨series, h1, -, h3, h4, -⟩ := (hall j hj).2 (fun _ => read) hr (fun _ ms => (selectArgs ms).ids) namedOrder_valid
  obtain ⟨s, hs, hl⟩ := h4 "a".toList hname (appMessage 2 (hits 6)) (by simp [postedFor, appMessage])
    ⟨_, (hits_shows _ _ _).2 rfl⟩ 0 ⟨0, by decide, by decide⟩ (.inl ⟨by unfold secondOf envelopeCode appMessage; decide,
      by unfold envelopeCode appMessage; decide⟩)
  exact ⟨series, s, h1, hs, hl, (h3 s hs).1⟩

/-- A case of `C169_recovers_user_partial`: a user who may read `a`, but not the other app of the name
`shop`, gets a sample with the labels of the later counter. -/
example (rfc dur : Str → Option Int) (num : PVal → Go64) (why msg : Str) :
    ∃ pre post c, RecoversFor { maxPerSource := 5 } 2 (fun _ => [1]) pre post c
      [{ envelopes := some [appMessage 1 (hits 5)] }] [{ envelopes := some [appMessage 2 (hits 6)] }]
      (SeenSource shopUser (fun id _ => decide (id = "a".toList)) shopApps hitsOfShop) ∧
    ∃ log, ∀ j, j < 2 → ∃ read, ReadsByWalks (fun _ => none) c j
        (SeenSource shopUser (fun id _ => decide (id = "a".toList)) shopApps hitsOfShop) log read ∧
      ∃ samples s, readProm (unmarshalInstant go64) (askProxy go64 (fun _ => 500) why
          (promNode go64 rfc dur hitsParse num (fun _ => read) (fun _ ms => (selectArgs ms).ids) 2000000000 msg)
          (fun t => if t = "t".toList then some shopUser else none) (fun id _ => decide (id = "a".toList))
          (fun _ _ => some shopApps) id (fun _ => some (.vector hitsOfShop)) id hitsText "t".toList
          (httpPromQL "hits{source_id='shop'}".toList [.time 1000000000])) = some (.vector samples) ∧
        s ∈ samples ∧ CarriesLabels s.metric (envelopeCode (appMessage 2 (hits 6))) := by
  obtain ⟨pre, post, c, h⟩ := recovered_hits
  replace h := h _ fun id h => (shop_seen id).1 h
  obtain ⟨log, -, hall⟩ := C169_recovers_user_partial (compile := fun _ => none) (st := fun _ => 500) (fun _ _ => by simp) why msg
    rfc dur num id (shop_asks (fun _ => some (.vector hitsOfShop)) "hits{source_id='shop'}".toList rfl) shop_mayAsk h hits_clear
    [.time 1000000000] 2000000000 1000000000 ⟨by decide, .inl ⟨rfl, by decide, by decide⟩⟩
  refine ⟨pre, post, c, h, log, fun j hj => ?_⟩
  obtain ⟨⟨read, hr⟩, hread⟩ := hall j hj
  obtain ⟨samples, h1, -, h4, -⟩ := hread (fun _ => read) hr (fun _ ms => (selectArgs ms).ids) namedOrder_valid
  obtain ⟨s, hs, hl⟩ := h4 "a".toList ((shop_seen _).2 rfl) (appMessage 2 (hits 6)) (by simp [postedFor, appMessage])
    ⟨_, (shop_shows _ _ _).2 rfl⟩ (by unfold Recent secondOf envelopeCode appMessage; decide)
  exact ⟨read, hr, samples, s, h1, hs, hl⟩

end LogCache
