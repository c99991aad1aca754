import Verif.Spec.WalkGrpc
import Verif.Props.EndToEnd
import Verif.Props.Walk

/-!
# Walks over large envelopes (C143)
-/

namespace LogCache
open Spec

theorem grpcBack_fits {ws : List WireEnvelope} (h : ∀ e ∈ ws, Arrived e)
    (hm : ∀ w, SameBatch? w (some ws) → (readRespProto.encode w).length ≤ grpcMaxMessage) {n : Nat} :
    ∀ {w : Option (List WireEnvelope)} {out : Option (List WireEnvelope)}, SameBatch? w (some ws) →
      GrpcBack n (readRespProto.encode w) out → out = some ws := by
  have hv : ∀ es, some ws = some es → ∀ e ∈ es, ValidEnvelope e := by
    intro es he e hme
    cases he
    exact (h e hme).1
  have hdec : ∀ w, SameBatch? w (some ws) → readRespProto.decode (readRespProto.encode w) = some (some ws) :=
    fun w hw => C115_read_answer w (some ws) hw hv (max_lt (hm w hw))
  induction n with
  | zero =>
    intro w out hw hc
    cases hc with
    | tooLarge _ _ hl => exact absurd (hm w hw) (by omega)
    | broken _ _ _ hd => rw [hdec w hw] at hd; cases hd
    | client _ _ _ hd =>
      rw [hdec w hw] at hd
      injection hd with hd
      exact hd.symm
  | succ n ih =>
    intro w out hw hc
    cases hc with
    | tooLarge _ _ hl => exact absurd (hm w hw) (by omega)
    | broken _ _ _ hd => rw [hdec w hw] at hd; cases hd
    | passed _ _ a w' _ _ hd hs hc =>
      rw [hdec w hw] at hd
      injection hd with hd
      subst hd
      exact ih hs hc

theorem grpcBack_total {ws : List WireEnvelope} (h : ∀ e ∈ ws, Arrived e)
    (hm : (readRespProto.encode (some ws)).length ≤ grpcMaxMessage) (n : Nat) :
    GrpcBack n (readRespProto.encode (some ws)) (some ws) := by
  have hv : ∀ es, some ws = some es → ∀ e ∈ es, ValidEnvelope e := by
    intro es he e hme
    cases he
    exact (h e hme).1
  have hdec := C115_read_answer _ _ (sameBatch_self h) hv (max_lt hm)
  induction n with
  | zero => exact .client _ _ hm hdec
  | succ n ih => exact .passed n _ _ _ _ hm hdec (sameBatch_self h) ih

theorem grpcBack_large {resp : List UInt8} (hm : grpcMaxMessage < resp.length) {n : Nat}
    {out : Option (List WireEnvelope)} (hc : GrpcBack n resp out) : out = none := by
  cases hc with
  | tooLarge => rfl
  | broken => rfl
  | client _ _ hl => omega
  | passed _ _ _ _ _ hl => omega

section
variable {compile : Str → Option (Str → Bool)} {cfg : Config} {n : Nat} {L : Str → List Nat}
    {evs : List CEvent} {c : Cluster} {posts : List SendReq} {id : Str} {w : WalkCfg} {stop : Int}
    {log : List WireEnvelope}

/-- What one read of a walk gets. -/
theorem grpcRead_iff (hcl : AtRest cfg n L evs c posts id) (hin : PostedInOrder posts id log)
    (hw : FairWalk compile w id stop) (j : Nat) {s : Int} (hs : FitsInt64 s) (hss : s ≤ stop) (now : Int)
    (out : Option (List WireEnvelope)) :
    GrpcRead compile now c j (walkRequest w id s) out ↔
      out = if (readRespProto.encode (some (wanted compile 0 (walkRequest w id s) log))).length ≤ grpcMaxMessage then
        some (wanted compile 0 (walkRequest w id s) log) else none := by
  have hstop : (walkRequest w id s).stop = stop := by simp only [walkRequest, hw.ends, Option.getD_some]
  have hnow : wanted compile now (walkRequest w id s) log = wanted compile 0 (walkRequest w id s) log := by
    unfold wanted
    rw [hstop, if_neg hw.stop0, if_neg hw.stop0]
  obtain ⟨harr, ⟨hops, i, hex⟩, hnode⟩ := node_reads compile now hcl j hin (q := walkRequest w id s) rfl hw.known
    (Or.inr (by rw [hstop]; exact hss)) hw.limit hw.filter
  have hlim : FitsInt64 (w.limit.getD 0) := by
    have := hw.limit
    unfold FitsInt64
    omega
  have hreq : readReqProto.decode (readReqProto.encode (walkRequest w id s)) = some (walkRequest w id s) := by
    refine C115_read_request _ ⟨hs, by rw [hstop]; exact hw.fits.2, hlim, ?_⟩ (max_lt (hw.size s hs))
    intro t ht
    cases t with
    | other k => exact absurd ht (hw.known k)
    | _ => trivial
  have harrw := arrived_wanted (compile := compile) (now := 0) (q := walkRequest w id s) harr
  constructor
  · rintro (⟨hops, i, resp, hat, ⟨_, q, es, ws, b, hdec, hloc, hws, hsame, rfl⟩, hback⟩ |
      ⟨-, ⟨hops, hat⟩ | ⟨hops, i, hat, hlen | hdec | ⟨q, e, hdec, hloc⟩⟩⟩)
    rotate_left
    · obtain ⟨i', hi', -⟩ := hnode hops _ hat
      cases hi'
    · exact absurd (hw.size s hs) (by omega)
    · rw [hreq] at hdec
      cases hdec
    · rw [hreq] at hdec
      injection hdec with hdec
      subst hdec
      obtain ⟨i', hi', hread⟩ := hnode hops _ hat
      injection hi' with hi'
      subst hi'
      rw [hread] at hloc
      cases hloc
    rw [hreq] at hdec
    injection hdec with hdec
    subst hdec
    obtain ⟨i', hi', hread⟩ := hnode hops _ hat
    injection hi' with hi'
    subst hi'
    rw [hread] at hloc
    injection hloc with hloc
    injection hloc with hloc
    rw [← hloc] at hws
    have := (List.map_injective_iff.2 envelopeCode_inj) hws
    subst this
    rw [hnow] at hsame
    split
    · rename_i hle
      exact grpcBack_fits harrw (fun b hb => by rw [answer_len hb]; exact hle) hsame hback
    · exact grpcBack_large (by rw [answer_len hsame]; omega) hback
  · rintro rfl
    obtain ⟨i', hii, hi⟩ := hnode hops _ hex
    injection hii with hii
    subst hii
    refine .inl ⟨hops, i, _, hex, ⟨hw.size s hs, _, _, _,
      some (wanted compile 0 (walkRequest w id s) log), hreq, hi, rfl, ?_, rfl⟩, ?_⟩
    · rw [hnow]; exact sameBatch_self harrw
    · split
      · rename_i hle
        exact grpcBack_total harrw hle hops
      · exact .tooLarge _ _ (by omega)

/-- When the next page does not fit in a message, every read of the walk fails from there on:
the visitor gets nothing more. -/
theorem C143_stuck {β : Type} {bo : Backoff β} (hcl : AtRest cfg n L evs c posts id)
    (hin : PostedInOrder posts id log) (hw : FairWalk compile w id stop) (j : Nat) {s : WalkState β}
    (hs : FitsInt64 s.start) (hss : s.start ≤ stop)
    (hlarge : grpcMaxMessage < (readRespProto.encode (some (wanted compile 0 (walkRequest w id s.start) log))).length)
    {tr : List (WalkIn × Option (List Envelope))} {r : Option (WalkState β)}
    (h : WalkRun bo w id (GrpcReader compile c j log w.delay) s tr r) :
    (∀ x ∈ tr, x.1 = .failed false) ∧ delivered tr = [] := by
  have hfail : ∀ i, GrpcReader compile c j log w.delay (walkRequest w id s.start) i → i = .failed false := by
    intro i hi
    cases i with
    | failed d => rw [hi.1]
    | got es now more =>
      obtain ⟨_, _, now', ws, hr, _⟩ := hi
      have := (grpcRead_iff hcl hin hw j hs hss now' _).1 hr
      rw [if_neg (by omega)] at this
      cases this
  have hkeep : ∀ {s' : WalkState β} {v : Option (List Envelope)} {r : Option (WalkState β)},
      walkStep bo w s' (.failed false) = (v, r) → v = none ∧ ∀ t, r = some t → t.start = s'.start := by
    intro s' v r hst
    simp only [walkStep, Bool.false_eq_true, if_false, Prod.mk.injEq] at hst
    refine ⟨hst.1.symm, fun t ht => ?_⟩
    rw [ht] at hst
    have := hst.2
    split at this
    · cases this; rfl
    · cases this
  suffices hg : ∀ s', s'.start = s.start → WalkRun bo w id (GrpcReader compile c j log w.delay) s' tr r →
      (∀ x ∈ tr, x.1 = .failed false) ∧ delivered tr = [] from hg s rfl h
  clear h
  intro s' hs' h
  induction h with
  | nil => exact ⟨by simp, rfl⟩
  | done he hst =>
    rw [hs'] at he
    obtain rfl := hfail _ he
    obtain ⟨rfl, _⟩ := hkeep hst
    exact ⟨by simp, rfl⟩
  | step he hst _ ih =>
    rw [hs'] at he
    obtain rfl := hfail _ he
    obtain ⟨rfl, hn⟩ := hkeep hst
    obtain ⟨i1, i2⟩ := ih ((hn _ rfl).trans hs')
    refine ⟨?_, ?_⟩
    · intro x hx
      rcases List.mem_cons.1 hx with rfl | hx
      · rfl
      · exact i1 x hx
    · unfold delivered at i2 ⊢
      rw [List.filterMap_cons]
      exact i2

/-- Such a walk with `AlwaysRetryBackoff` goes on for ever. -/
theorem C143_retries_forever (hcl : AtRest cfg n L evs c posts id)
    (hin : PostedInOrder posts id log) (hw : FairWalk compile w id stop) (j : Nat) {s : WalkState Unit}
    (hs : FitsInt64 s.start) (hss : s.start ≤ stop)
    (hlarge : grpcMaxMessage < (readRespProto.encode (some (wanted compile 0 (walkRequest w id s.start) log))).length) :
    (∀ tr, ¬ WalkRun alwaysRetry w id (GrpcReader compile c j log w.delay) s tr none) ∧
    ∀ k, WalkRun alwaysRetry w id (GrpcReader compile c j log w.delay) s
      (List.replicate k (.failed false, none)) (some s) := by
  refine ⟨fun tr h => ?_, fun k => ?_⟩
  · have hall := (C143_stuck hcl hin hw j hs hss hlarge h).1
    clear hlarge hs hss
    generalize hr : (none : Option (WalkState Unit)) = r at h
    induction h with
    | nil => cases hr
    | done he hst =>
      have := hall _ (List.mem_singleton.2 rfl)
      simp only at this
      subst this
      simp [walkStep, alwaysRetry] at hst
    | step he hst _ ih => exact ih (fun x hx => hall x (List.mem_cons_of_mem _ hx)) hr
  · induction k with
    | zero => exact .nil _
    | succ k ih =>
      refine .step ⟨rfl, 0, (grpcRead_iff hcl hin hw j hs hss 0 none).2 ?_⟩ rfl ih
      rw [if_neg (by omega)]

/-- A read of data for a query that meets such a page returns what it has by then as a
success: here at its first page, nothing. -/
theorem C143_query_gets_nothing (hcl : AtRest cfg n L evs c posts id)
    (hin : PostedInOrder posts id log) {req : ReadRequest} (hid : req.sourceId = id)
    (hw : FairWalk compile (dataReaderCfg req) id stop) (j : Nat)
    (hlarge : grpcMaxMessage <
      (readRespProto.encode (some (wanted compile 0 (walkRequest (dataReaderCfg req) id req.start) log))).length) :
    (∃ tr, WalkRun dataReaderBackoff (dataReaderCfg req) id (GrpcReader compile c j log 1000000000)
      (walkInit (dataReaderCfg req) 0) tr none) ∧
    ∀ tr, WalkRun dataReaderBackoff (dataReaderCfg req) id (GrpcReader compile c j log 1000000000)
      (walkInit (dataReaderCfg req) 0) tr none → dataReaderResult false (delivered tr) = some [] := by
  have hs : FitsInt64 req.start := hw.fits.1
  have hss : req.start ≤ stop := hw.window
  refine ⟨⟨List.replicate 5 (.failed false, none), ?_⟩, fun tr h => ?_⟩
  · have hf : GrpcReader compile c j log 1000000000 (walkRequest (dataReaderCfg req) id req.start) (.failed false) := by
      refine ⟨rfl, 0, (grpcRead_iff hcl hin hw j hs hss 0 none).2 ?_⟩
      rw [if_neg (by omega)]
    exact .step hf rfl (.step hf rfl (.step hf rfl (.step hf rfl (.done hf rfl))))
  · have := (C143_stuck hcl hin hw j (s := walkInit (dataReaderCfg req) 0) hs hss hlarge h).2
    rw [this]
    rfl

/-- If no envelope has more than `B` bytes, and the limit of the walk leaves room for that many,
no read fails and the walk delivers all that one read without a limit would. -/
theorem C143_walk_partial {β : Type} {bo : Backoff β} (hcl : AtRest cfg n L evs c posts id)
    (hin : PostedInOrder posts id log) (hw : FairWalk compile w id stop) (j : Nat) {b : β} {B : Nat}
    (hB : ∀ e ∈ postedFor posts id, (wireEnvelopeProto.encode e).length ≤ B)
    (hlim : (if w.limit.getD 0 = 0 then 100 else w.limit.getD 0).toNat * (B + 5) + 5 ≤ 4194304)
    {tr : List (WalkIn × Option (List Envelope))} {r : Option (WalkState β)}
    (h : WalkRun bo w id (GrpcReader compile c j log w.delay) (walkInit w b) tr r) :
    ∃ whole, whole = wanted compile 0 { walkRequest w id w.start with limit := log.length + 1 } log ∧
    (∀ x ∈ tr, ∃ es now more, x.1 = .got es now more) ∧
    (delivered tr).flatten <+: whole.map envelopeCode ∧
    (r = none → (delivered tr).flatten = whole.map envelopeCode) ∧
    ((∀ b, (bo.onEmpty b).2 = false) → tr.length ≤ whole.length + 1) := by
  have hsort : (log.map envelopeCode).Pairwise (fun x y => x.timestamp < y.timestamp) := by
    rw [List.pairwise_map]
    have hn : (log.map WireEnvelope.timestamp).Nodup := ((hin.1.map WireEnvelope.timestamp).nodup_iff).2 (hcl.times id)
    have hn := List.pairwise_map.1 hn
    exact (hin.2.and hn).imp fun h => lt_of_le_of_ne h.1 h.2
  have hty : typeOk (requestedTypes (w.types.getD [])) =
      fun e => decide (∀ t ∈ w.types.getD [], t = .any) || decide (∃ t ∈ w.types.getD [], kind e = some t) :=
    funext (typeOk_requested _)
  let W : Int → List Envelope := fun s => answer s stop (requestedTypes (w.types.getD []))
    (if w.nameFilter = [] then none else compile w.nameFilter) (log.map envelopeCode)
  have hW : Pages W stop := pages_answer (hsort.imp fun h => Int.le_of_lt h) stop _ _
  have hpage : ∀ s, (wanted compile 0 (walkRequest w id s) log).map envelopeCode =
      (W s).take (if w.limit.getD 0 = 0 then 100 else w.limit.getD 0).toNat := by
    intro s
    rw [← wanted_code]
    simp only [W, answer, hty, walkRequest, Bool.false_eq_true, if_false, hw.ends, Option.getD_some, if_neg hw.stop0]
  have hwhole : (wanted compile 0 { walkRequest w id w.start with limit := log.length + 1 } log).map envelopeCode =
      W w.start := by
    rw [← wanted_code]
    simp only [W, answer, hty, walkRequest, Bool.false_eq_true, if_false, hw.ends, Option.getD_some, if_neg hw.stop0]
    rw [if_neg (by omega), List.take_of_length_le]
    refine (List.length_filter_le _ _).trans ((List.length_filterMap_le _ _).trans ((List.length_filter_le _ _).trans ?_))
    rw [List.length_map]
    omega
  have hbound : ∀ s, (readRespProto.encode (some (wanted compile 0 (walkRequest w id s) log))).length ≤ grpcMaxMessage := by
    intro s
    have hl := wanted_len (compile := compile) (now := 0) (q := walkRequest w id s) (log := log) (B := B)
      fun e he => hB e (hin.1.mem_iff.1 he)
    refine answer_bound hl.2 ?_
    have h4 : grpcMaxMessage = 4194304 := rfl
    rw [h4]
    have := Nat.mul_le_mul_right (B + 5) hl.1
    exact le_trans (Nat.add_le_add_right this 5) hlim
  have hpos : 1 ≤ (if w.limit.getD 0 = 0 then 100 else w.limit.getD 0).toNat := by
    have := hw.limit.1
    split <;> omega
  have hgot : ∀ s, FitsInt64 s → s ≤ stop → ∀ i, GrpcReader compile c j log w.delay (walkRequest w id s) i →
      ∃ now, i = .got ((W s).take (if w.limit.getD 0 = 0 then 100 else w.limit.getD 0).toNat) now true ∧
        ∀ e ∈ log, e.timestamp ≤ now - w.delay := by
    intro s hs hss i hi
    cases i with
    | failed d =>
      obtain ⟨_, now, hr⟩ := hi
      have := (grpcRead_iff hcl hin hw j hs hss now _).1 hr
      rw [if_pos (hbound s)] at this
      cases this
    | got es now more =>
      obtain ⟨rfl, hold, now', ws, hr, rfl⟩ := hi
      have := (grpcRead_iff hcl hin hw j hs hss now' _).1 hr
      rw [if_pos (hbound s)] at this
      injection this with this
      subst this
      exact ⟨now, by rw [hpage], hold⟩
  have hrun : WalkRun bo w id (fun q i => GrpcReader compile c j log w.delay q i ∧ FitsInt64 q.start ∧ q.start ≤ stop)
      (walkInit w b) tr r := by
    suffices hg : ∀ s : WalkState β, FitsInt64 s.start → s.start ≤ stop →
        WalkRun bo w id (GrpcReader compile c j log w.delay) s tr r →
        WalkRun bo w id (fun q i => GrpcReader compile c j log w.delay q i ∧ FitsInt64 q.start ∧ q.start ≤ stop)
          s tr r from hg _ hw.fits.1 hw.window h
    clear h
    intro s hs hss h
    induction h with
    | nil s => exact .nil s
    | done h1 h2 => exact .done ⟨h1, hs, hss⟩ h2
    | @step s s' i v tr r h1 h2 h3 ih =>
      refine .step ⟨h1, hs, hss⟩ h2 ?_
      obtain ⟨now, rfl, -⟩ := hgot _ hs hss _ h1
      cases v with
      | none =>
        have := (walkStep_idle h2).1
        exact ih (by rw [this]; exact hs) (by rw [this]; exact hss)
      | some d =>
        obtain ⟨es, now', more, last, he, rfl, hl, hn⟩ := walkStep_visit h2
        injection he with he _ _
        subst he
        have hm : last ∈ W s.start :=
          List.mem_of_mem_take ((walkTrim_prefix _ _ _ _).subset (List.mem_of_getLast? hl))
        have hwin := hW.window _ _ hm
        have hs' : s'.start = last.timestamp + 1 := by
          split at hn
          · cases hn
          · cases hn; rfl
        have h2' := hw.fits.2
        unfold FitsInt64 at hs h2' ih
        exact ih (by rw [hs']; constructor <;> omega) (by rw [hs']; omega)
  have hall : ∀ x ∈ tr, ∃ es now more, x.1 = .got es now more := by
    clear h
    generalize walkInit w b = s0 at hrun
    induction hrun with
    | nil => simp
    | done h1 h2 =>
      intro x hx
      rw [List.mem_singleton] at hx
      subst hx
      obtain ⟨now, hi, -⟩ := hgot _ h1.2.1 h1.2.2 _ h1.1
      exact ⟨_, _, _, hi⟩
    | step h1 h2 _ ih =>
      intro x hx
      rcases List.mem_cons.1 hx with rfl | hx
      · obtain ⟨now, hi, -⟩ := hgot _ h1.2.1 h1.2.2 _ h1.1
        exact ⟨_, _, _, hi⟩
      · exact ih x hx
  obtain ⟨c1, c2, c3⟩ := walk_complete hW hw.ends (by
    intro s es now more he
    obtain ⟨now', hi, hold⟩ := hgot s he.2.1 he.2.2 _ he.1
    injection hi with h1 h2 h3
    subst h1 h2 h3
    refine ⟨wholeGroups_take (answer_sorted hsort ..) hpos, rfl, fun e he => ?_⟩
    simp only [W, answer] at he
    obtain ⟨he, -⟩ := List.mem_filter.1 he
    obtain ⟨o, ho, hp⟩ := List.mem_filterMap.1 he
    obtain ⟨x, hx, rfl⟩ := List.mem_map.1 (List.mem_filter.1 ho).1
    rw [project_ts hp]
    exact hold x hx) hrun
  refine ⟨_, rfl, hall, ?_, ?_, ?_⟩
  · rw [hwhole]; exact c1
  · intro hr
    rw [hwhole]
    refine c2 hr ?_
    obtain ⟨pre, i, v, s', hp, -, -⟩ := walkRun_init_last h hr
    obtain ⟨es, now, more, hi⟩ := hall (i, v) (by rw [hp]; simp)
    exact ⟨es, now, more, v, by rw [hp, List.getLast?_append]; simp at hi ⊢; exact hi⟩
  · intro hb
    have := (c3 hall hb).1
    rw [← List.length_map (f := envelopeCode), hwhole]
    exact this

end

/-! ### Clusters that meet the hypotheses -/

theorem intField_len (k : Nat) (hk : k < 16) {n : Int} (hn : FitsInt64 n) : (encFields (intField k n)).length ≤ 11 := by
  have h1 : (putVarint (k * 8 + 0)).length ≤ 1 := putVarint_len (k := 0) (by omega)
  have h2 : (putVarint (asUint64 n)).length ≤ 10 := by
    refine putVarint_len (k := 9) (lt_of_lt_of_le (b := 2 ^ 64) ?_ (by norm_num))
    unfold FitsInt64 at hn
    unfold asUint64
    omega
  unfold intField optField
  split
  · simp [encFields]
  · simp only [encFields, List.length_append, WireVal.wireType, WireVal.body, List.length_nil]
    omega

/-- The read of the data of `a` for a query from 0 to 20 (`promql.go:331-339`). -/
def readOfMetrics : ReadRequest :=
  { sourceId := "a".toList, start := 0, stop := 20, types := [.gauge, .counter, .timer] }

theorem fairWalk_metrics : FairWalk (fun _ => none) (dataReaderCfg readOfMetrics) "a".toList 20 where
  ends := rfl
  stop0 := by decide
  fits := by unfold FitsInt64 dataReaderCfg readOfMetrics; norm_num
  window := by decide
  known := by intro k; simp [dataReaderCfg, readOfMetrics]
  limit := by decide
  filter := .inl rfl
  size := by
    intro s hs
    have h1 := intField_len 2 (by omega) hs
    have h2 : (encFields (strField 1 "a".toList)).length ≤ 10 := by decide +kernel
    have h3 : (encFields (intField 3 20 ++ (intField 4 0 ++ (optField false 5 (.bytes (putEnums [.gauge, .counter, .timer])) ++
      (boolField 6 false ++ strField 7 []))))).length ≤ 20 := by decide +kernel
    have h4 : (readReqProto.encode (walkRequest (dataReaderCfg readOfMetrics) "a".toList s)).length =
        (encFields (strField 1 "a".toList)).length + ((encFields (intField 2 s)).length +
        (encFields (intField 3 20 ++ (intField 4 0 ++ (optField false 5 (.bytes (putEnums [.gauge, .counter, .timer])) ++
      (boolField 6 false ++ strField 7 []))))).length) := by
      rw [← encLen_append, ← encLen_append]
      rfl
    rw [h4]
    unfold grpcMaxMessage
    omega

/-- A counter of the app `a` with a name of `k` letters. -/
def longCounter (k : Nat) : WireMessage := .counter (List.replicate k 'x') 1 1

theorem longCounter_arrived (t : Int) (ht : FitsInt64 t) (k : Nat) : Arrived (appMessage t (longCounter k)) := by
  refine ⟨⟨ht, List.Pairwise.nil, (by intro p hp; cases hp), List.Pairwise.nil, ?_⟩, ?_⟩
  · intro m hm
    cases hm
    exact ⟨by norm_num, by norm_num⟩
  · intro t h
    simp [appMessage, longCounter] at h

theorem utf8_len (k : Nat) : (utf8Bytes (List.replicate k 'x')).length = k := by
  unfold utf8Bytes
  induction k with
  | zero => rfl
  | succ k ih =>
    rw [List.replicate_succ, List.flatMap_cons, List.length_append, ih]
    have : (String.utf8EncodeChar 'x').length = 1 := by decide +kernel
    omega

theorem longCounter_len (t : Int) (ht : t = 1 ∨ t = 2) (k : Nat) (hk : k + 100 ≤ grpcMaxMessage) :
    k ≤ (wireEnvelopeProto.encode (appMessage t (longCounter k))).length ∧
    (wireEnvelopeProto.encode (appMessage t (longCounter k))).length ≤ k + 24 := by
  have hv : ∀ n, n ≤ grpcMaxMessage → (putVarint n).length ≤ 4 := fun n hn =>
    putVarint_len (k := 3) (lt_of_le_of_lt hn (by unfold grpcMaxMessage; norm_num))
  have hl : k ≤ (counterProto.encode (List.replicate k 'x', 1, 1)).length ∧
      (counterProto.encode (List.replicate k 'x', 1, 1)).length ≤ k + 9 := by
    have h0 : (encFields (uintField 2 1 ++ uintField 3 1)).length = 4 := by decide +kernel
    have h8 : (putVarint (1 * 8 + 2)).length = 1 := by unfold putVarint; rfl
    show k ≤ (encFields (strField 1 (List.replicate k 'x') ++ (uintField 2 1 ++ uintField 3 1))).length ∧
      (encFields (strField 1 (List.replicate k 'x') ++ (uintField 2 1 ++ uintField 3 1))).length ≤ _
    rw [encLen_append, h0]
    have hvk := hv k (by omega)
    unfold strField optField
    split
    · rename_i hz
      cases k with
      | zero => simp [encFields]
      | succ k => simp [List.replicate_succ] at hz
    · simp only [encFields, List.length_append, WireVal.wireType, WireVal.body, h8, List.length_nil, utf8_len]
      omega
  have hm := hv (counterProto.encode (List.replicate k 'x', 1, 1)).length (by omega)
  have h34 : (putVarint (5 * 8 + 2)).length = 1 := by unfold putVarint; rfl
  have ha : (encFields (intField 1 t)).length = 2 := by rcases ht with rfl | rfl <;> decide +kernel
  have hb : (encFields (strField 2 "a".toList)).length = 3 := by decide +kernel
  show k ≤ (encFields (wireEnvelopeProto.fields (appMessage t (longCounter k)))).length ∧
    (encFields (wireEnvelopeProto.fields (appMessage t (longCounter k)))).length ≤ _
  have he : wireEnvelopeProto.fields (appMessage t (longCounter k)) = intField 1 t ++ (strField 2 "a".toList ++
    [(5, .bytes (counterProto.encode (List.replicate k 'x', 1, 1)))]) := rfl
  rw [he]
  simp only [encLen_append, ha, hb]
  simp only [encFields, List.length_append, WireVal.wireType, WireVal.body, h34, List.length_nil]
  omega

theorem inOrder_messages (m1 m2 : WireMessage) :
    PostedInOrder (twoMessages m1 m2) "a".toList [appMessage 1 m1, appMessage 2 m2] := by
  have h : postedFor (twoMessages m1 m2) "a".toList = [appMessage 1 m1, appMessage 2 m2] := by
    simp [twoMessages, postedFor, appMessage]
  unfold PostedInOrder
  rw [h]
  exact ⟨List.Perm.refl _, by simp [appMessage]⟩

theorem atRest_counters (k : Nat) (hk : k + 100 ≤ grpcMaxMessage) :
    ∃ evs c, AtRest { maxPerSource := 5 } 1 (fun _ => [0]) evs c (twoMessages (longCounter k) (longCounter k)) "a".toList := by
  refine atRest_messages _ _ (longCounter_arrived 1 (by unfold FitsInt64; norm_num) k)
    (longCounter_arrived 2 (by unfold FitsInt64; norm_num) k) ?_
  have b1 := longCounter_len 1 (.inl rfl) k hk
  have b2 := longCounter_len 2 (.inr rfl) k hk
  intro r hr
  simp only [twoMessages, List.mem_cons, List.not_mem_nil, or_false] at hr
  rcases hr with rfl | rfl
  · exact answer_bound (ws := [appMessage 1 (longCounter k)]) (B := k + 24) (by simpa using b1.2)
      (by show 1 * (k + 24 + 5) + 5 ≤ _; omega)
  · exact answer_bound (ws := [appMessage 2 (longCounter k)]) (B := k + 24) (by simpa using b2.2)
      (by show 1 * (k + 24 + 5) + 5 ≤ _; omega)

theorem wanted_counters (k : Nat) :
    wanted (fun _ => none) 0 (walkRequest (dataReaderCfg readOfMetrics) "a".toList 0)
      [appMessage 1 (longCounter k), appMessage 2 (longCounter k)] =
    [appMessage 1 (longCounter k), appMessage 2 (longCounter k)] := by
  unfold longCounter
  generalize List.replicate k 'x' = n
  rfl

/-- Two counters with names of 3 MiB, each in a request that grpc takes: a query reads neither,
and does not learn of it. -/
theorem C143_walk_false : ∃ (k : Nat) (evs : List CEvent) (c : Cluster),
    AtRest { maxPerSource := 5 } 1 (fun _ => [0]) evs c (twoMessages (longCounter k) (longCounter k)) "a".toList ∧
    ∀ j, (∃ tr, WalkRun dataReaderBackoff (dataReaderCfg readOfMetrics) "a".toList
        (GrpcReader (fun _ => none) c j [appMessage 1 (longCounter k), appMessage 2 (longCounter k)] 1000000000)
        (walkInit (dataReaderCfg readOfMetrics) 0) tr none) ∧
      ∀ tr, WalkRun dataReaderBackoff (dataReaderCfg readOfMetrics) "a".toList
        (GrpcReader (fun _ => none) c j [appMessage 1 (longCounter k), appMessage 2 (longCounter k)] 1000000000)
        (walkInit (dataReaderCfg readOfMetrics) 0) tr none →
        dataReaderResult false (delivered tr) = some [] := by
  have hmax : grpcMaxMessage = 4194304 := rfl
  obtain ⟨k, hk⟩ : ∃ k : Nat, k = 3145728 := ⟨_, rfl⟩
  obtain ⟨evs, c, h⟩ := atRest_counters k (by omega)
  refine ⟨k, evs, c, h, fun j => C143_query_gets_nothing h (inOrder_messages _ _) rfl fairWalk_metrics j ?_⟩
  have b1 := longCounter_len 1 (.inl rfl) k (by omega)
  have b2 := longCounter_len 2 (.inr rfl) k (by omega)
  have : readOfMetrics.start = 0 := rfl
  rw [this, wanted_counters, hmax]
  show 4194304 < (encFields [(1, .bytes (encFields [(1, .bytes (wireEnvelopeProto.encode (appMessage 1 (longCounter k)))),
    (1, .bytes (wireEnvelopeProto.encode (appMessage 2 (longCounter k))))]))]).length
  simp only [encFields, List.length_append, WireVal.body, List.length_nil]
  omega

/-- The hypotheses of `C143_walk_partial` are met by two small counters: the walk delivers both. -/
example : ∃ evs c, AtRest { maxPerSource := 5 } 1 (fun _ => [0]) evs c (twoMessages (longCounter 3) (longCounter 3)) "a".toList ∧
    ∀ j tr, WalkRun dataReaderBackoff (dataReaderCfg readOfMetrics) "a".toList
        (GrpcReader (fun _ => none) c j [appMessage 1 (longCounter 3), appMessage 2 (longCounter 3)] 1000000000)
        (walkInit (dataReaderCfg readOfMetrics) 0) tr none →
      (delivered tr).flatten =
        [envelopeCode (appMessage 1 (longCounter 3)), envelopeCode (appMessage 2 (longCounter 3))] := by
  have hmax : grpcMaxMessage = 4194304 := rfl
  obtain ⟨evs, c, h⟩ := atRest_counters 3 (by omega)
  refine ⟨evs, c, h, fun j tr hrun => ?_⟩
  have b1 := longCounter_len 1 (.inl rfl) 3 (by omega)
  have b2 := longCounter_len 2 (.inr rfl) 3 (by omega)
  obtain ⟨whole, rfl, -, -, hd, -⟩ := C143_walk_partial h (inOrder_messages _ _) fairWalk_metrics j (B := 27) (by
    intro e he
    have := (inOrder_messages (longCounter 3) (longCounter 3)).1.mem_iff.2 he
    simp only [List.mem_cons, List.not_mem_nil, or_false] at this
    rcases this with rfl | rfl
    · exact b1.2
    · exact b2.2) (by decide) hrun
  exact (hd rfl).trans rfl

end LogCache
