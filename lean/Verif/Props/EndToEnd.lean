import Verif.Proof.EndToEnd
import Verif.Props.Cluster
import Verif.Props.Door
import Verif.Props.Client
import Verif.Props.Protobuf
import Verif.Props.EnvelopeJson
import Verif.Props.Url

/-!
# From a Send to the user who reads (C126-C128)
-/

namespace LogCache
open Spec

/-! ## C126: a user who may read a source gets what was sent for it -/

theorem max_lt {n : Nat} (h : n ≤ grpcMaxMessage) : n < 2 ^ 64 :=
  lt_of_le_of_lt h (by unfold grpcMaxMessage; norm_num)

theorem sameBatch_self {ws : List WireEnvelope} (h : ∀ e ∈ ws, Arrived e) : SameBatch? (some ws) (some ws) := by
  unfold SameBatch? SameBatch
  exact List.forall₂_same.2 fun e he => SameEnvelope.self (h e he)

theorem comesBack_fits {ws : List WireEnvelope} (h : ∀ e ∈ ws, Arrived e)
    (hm : ∀ w, SameBatch? w (some ws) → (readRespProto.encode w).length ≤ grpcMaxMessage) {n : Nat} :
    ∀ {w : Option (List WireEnvelope)} {out : Option (List WireEnvelope)}, SameBatch? w (some ws) →
      ComesBack n (readRespProto.encode w) out → out = some ws := by
  have hv : ∀ es, some ws = some es → ∀ e ∈ es, ValidEnvelope e := by
    intro es he e hme
    cases he
    exact (h e hme).1
  have hdec : ∀ w, SameBatch? w (some ws) → readRespProto.decode (readRespProto.encode w) = some (some ws) :=
    fun w hw => C115_read_answer w (some ws) hw hv (max_lt (hm w hw))
  induction n with
  | zero =>
    intro w out hw hc
    cases hc with
    | gateway =>
      unfold answerThroughGateway
      rw [if_pos (hm w hw), hdec w hw, Option.bind_some, C113_read _ hv]
      rfl
  | succ n ih =>
    intro w out hw hc
    cases hc with
    | tooLarge _ _ hl => exact absurd (hm w hw) (by omega)
    | broken _ _ hd => rw [hdec w hw] at hd; cases hd
    | passed _ _ a w' _ _ hd hs hc =>
      rw [hdec w hw] at hd
      injection hd with hd
      subst hd
      exact ih hs hc

theorem comesBack_total {ws : List WireEnvelope} (h : ∀ e ∈ ws, Arrived e) (n : Nat) :
    ∃ out, ComesBack n (readRespProto.encode (some ws)) out := by
  have hv : ∀ es, some ws = some es → ∀ e ∈ es, ValidEnvelope e := by
    intro es he e hme
    cases he
    exact (h e hme).1
  induction n with
  | zero => exact ⟨_, .gateway _⟩
  | succ n ih =>
    by_cases hm : (readRespProto.encode (some ws)).length ≤ grpcMaxMessage
    · obtain ⟨out, ho⟩ := ih
      exact ⟨out, .passed n _ _ _ out hm (C115_read_answer _ _ (sameBatch_self h) hv (max_lt hm)) (sameBatch_self h) ho⟩
    · exact ⟨none, .tooLarge n _ (by omega)⟩

theorem comesBack_large {resp : List UInt8} (hm : grpcMaxMessage < resp.length) {n : Nat}
    {out : Option (List WireEnvelope)} (hc : ComesBack n resp out) : out = none := by
  cases hc with
  | gateway => unfold answerThroughGateway; rw [if_neg (by omega)]
  | tooLarge => rfl
  | broken => rfl
  | passed _ _ _ _ _ hl => omega

theorem asked_valid (id : Str) (start : Int) (opts : List ReadOpt) (hs : FitsInt64 start)
    (hr : ∀ o ∈ opts, OptInRange o) (hk : ∀ o ∈ opts, OptKnown o) :
    ValidReadRequest (asked id start opts) ∧ ∀ k, EType.other k ∉ (asked id start opts).types := by
  have h0 : FitsInt64 0 := by unfold FitsInt64; norm_num
  have ht : ∀ k, EType.other k ∉ (asked id start opts).types := by
    intro k hm
    obtain ⟨o, ho, hmo⟩ := List.mem_flatMap.1 hm
    cases o <;> simp only [typesOf, List.not_mem_nil] at hmo
    exact hk _ ho k hmo
  refine ⟨⟨hs, ?_, ?_, ?_⟩, ht⟩
  · show FitsInt64 ((lastSome endOf opts).getD 0)
    cases hl : lastSome endOf opts with
    | none => exact h0
    | some x =>
      obtain ⟨o, ho, hf⟩ := lastSome_mem hl
      cases o <;> simp only [endOf, reduceCtorEq, Option.some.injEq] at hf
      subst hf
      exact hr _ ho
  · show FitsInt64 ((lastSome limitOf opts).getD 0)
    cases hl : lastSome limitOf opts with
    | none => exact h0
    | some x =>
      obtain ⟨o, ho, hf⟩ := lastSome_mem hl
      cases o <;> simp only [limitOf, reduceCtorEq, Option.some.injEq] at hf
      subst hf
      exact hr _ ho
  · intro t hm
    cases t with
    | other k => exact absurd hm (ht k)
    | _ => trivial

/-- Two orders of the same envelopes by distinct times are the same. -/
theorem sorted_unique {l l' : List Envelope} (hp : l.Perm l') (hs : l.Pairwise fun x y => x.timestamp ≤ y.timestamp)
    (hs' : l'.Pairwise fun x y => x.timestamp ≤ y.timestamp) (hd : (l.map Envelope.timestamp).Nodup) : l = l' := by
  refine hp.eq_of_pairwise ?_ hs hs'
  intro a b ha hb h1 h2
  exact List.inj_on_of_nodup_map hd ha (hp.mem_iff.2 hb) (le_antisymm h1 h2)

/-- What the nodes of a cluster at rest answer to a read, and that they answer. -/
theorem node_reads (compile : Str → Option (Str → Bool)) (now : Int) {cfg : Config} {n : Nat} {L : Str → List Nat}
    {evs : List CEvent} {c : Cluster} {posts : List SendReq} {id : Str} (hcl : AtRest cfg n L evs c posts id) (j : Nat)
    {log : List WireEnvelope} (hin : PostedInOrder posts id log) {q : ReadRequest} (hid : q.sourceId = id)
    (hkn : ∀ k, EType.other k ∉ q.types) (hwin : q.stop = 0 ∨ q.start ≤ q.stop)
    (hlim : 0 ≤ q.limit ∧ q.limit ≤ 1000) (hfil : q.nameFilter = [] ∨ compile q.nameFilter ≠ none) :
    (∀ e ∈ log, Arrived e) ∧
    (∃ hops i, ReadAt c.lk id j hops (some i)) ∧
    ∀ hops res, ReadAt c.lk id j hops res → ∃ i, res = some i ∧
      localRead compile now (c.store i) q = some (.ok ((wanted compile now q log).map envelopeCode)) := by
  obtain ⟨h, hr, hp, hpl, ha, hq, hLn, hd, hL, hc, hcap⟩ := hcl
  obtain ⟨hlog, hsort⟩ := hin
  have hcs := posted_code hp (fun r hr e he => (ha r hr e he).1) (fun w r => C115_send w r)
  have hg : ∀ j req, CEvent.client j req ∈ evs → req.localOnly = false := by
    intro j req hm
    have hm' : CEvent.client j req ∈ evs.filter fun | .client _ _ => true | _ => false := by
      rw [List.mem_filter]; exact ⟨hm, rfl⟩
    unfold Posted at hp
    generalize evs.filter _ = l at hp hm'
    clear hcs hcap hlog hd
    induction hp with
    | nil => cases hm'
    | @cons ev p l posts hx _ ih =>
      rcases List.mem_cons.1 hm' with rfl | hm'
      · obtain ⟨i, w, p', h1, h2, h3, h4, h5⟩ := hx
        have := C115_send w p h1 h2 (fun es he e hme => (ha p List.mem_cons_self e (by rw [he]; exact hme)).1) (max_lt h3)
        rw [this] at h4
        injection h4 with h4
        subst h4
        injection h5 with _ h5
        subst h5
        exact hpl p List.mem_cons_self
      · exact ih (fun p hp => hpl p (List.mem_cons_of_mem _ hp)) (fun p hp => ha p (List.mem_cons_of_mem _ hp)) hm'
  have hd' : ∀ s, ((clientSent evs s).map Envelope.timestamp).Nodup := by
    intro s
    rw [hcs, List.map_map]
    exact hd s
  obtain ⟨⟨hops, res, hex⟩, hall⟩ := C35_read_your_writes hc h hr hg hq hLn hd' hL
    (by rw [hcs, List.length_map]; exact hcap) j
  have hnode : ∀ hops res, ReadAt c.lk id j hops res → ∃ i, res = some i ∧
      localRead compile now (c.store i) q =
        some (.ok ((wanted compile now q log).map envelopeCode)) := by
    intro hops res hre
    obtain ⟨_, i, rfl, _, log', hperm, hsort', hans⟩ := hall hops res hre
    refine ⟨i, rfl, ?_⟩
    have hll : log.map envelopeCode = log' := by
      refine sorted_unique ?_ (List.pairwise_map.2 hsort) hsort' ?_
      · refine (hlog.map envelopeCode).trans ?_
        rw [← hcs]
        exact hperm.symm
      · rw [List.map_map]
        exact ((hlog.map WireEnvelope.timestamp).nodup_iff).2 (hd id)
    rw [← wanted_code, hll]
    rcases hans compile now q hid hkn with he | ho
    · exfalso
      rcases (C24_rejected_iff compile now (c.store i) _).1 he with h1 | h1 | h1 | h1
      · exact hwin.elim h1.1 (fun h => absurd h1.2 (not_lt.2 h))
      · exact absurd hlim.2 (by omega)
      · exact absurd hlim.1 (by omega)
      · exact hfil.elim h1.1 (fun h => h h1.2)
    · exact ho
  refine ⟨?_, ?_, hnode⟩
  · intro e he
    have := hlog.mem_iff.1 he
    obtain ⟨p, hpm, hpe⟩ := List.mem_flatMap.1 (List.mem_filter.1 this).1
    exact ha p hpm e hpe
  · obtain ⟨i, rfl, _⟩ := hnode hops res hex
    exact ⟨hops, i, hex⟩

section
variable (methodOk : Str → Bool) (oauth : Str → Option UserCtx) (auth : Str → Str → Bool)
  (related : List Str → Str → Option Expansions) (order : List Str → List Str)
  (parse : Str → Option PExpr) (print : PExpr → Str) (compile : Str → Option (Str → Bool)) (now : Int)

/-- What a node answers, and that it answers. -/
theorem read_through {cfg : Config} {n : Nat} {L : Str → List Nat} {evs : List CEvent} {c : Cluster}
    {posts : List SendReq} {id : Str} (hcl : AtRest cfg n L evs c posts id)
    {start : Int} {opts : List ReadOpt} {r : WebReq}
    (hfair : FairRead methodOk oauth auth compile id start opts r) (j : Nat) {log : List WireEnvelope}
    (hin : PostedInOrder posts id log) :
    (∀ e ∈ wanted compile now (asked id start opts) log, Arrived e) ∧
    (∃ out, ReadThrough methodOk oauth auth related order parse print compile now c j r out) ∧
    ∀ out, ReadThrough methodOk oauth auth related order parse print compile now c j r out →
      ∃ hops w, SameBatch? w (some (wanted compile now (asked id start opts) log)) ∧
        ComesBack hops (readRespProto.encode w) out := by
  obtain ⟨hs, ho, hk, hwin, hlim, hfil, hsize, htarget, ⟨hid, hn, hcol⟩, hmeth, hmay⟩ := hfair
  obtain ⟨hv, hkn⟩ := asked_valid id start opts hs ho hk
  have hdoor : door false methodOk oauth auth related order parse print r = some (.read (asked id start opts)) := by
    obtain ⟨q, hseen, hasked⟩ := C132_read id start opts hs ho hk
    have hsame := Option.some.inj (htarget.symm.trans hseen)
    have hpath : r.path = _ := congrArg Prod.fst hsame
    have hparams : r.params = q := congrArg Prod.snd hsame
    clear hsame hseen htarget
    rw [C75_served_partial methodOk oauth auth related order parse print r id hpath hid hn hcol hmeth hmay, hparams, hasked]
    rfl
  clear htarget
  have hreq : readReqProto.decode (readReqProto.encode (asked id start opts)) = some (asked id start opts) :=
    C115_read_request _ hv (max_lt hsize)
  obtain ⟨hall, ⟨hops, i, hex⟩, hnode⟩ := node_reads compile now hcl j hin (q := asked id start opts) rfl hkn hwin hlim hfil
  have harr : ∀ e ∈ wanted compile now (asked id start opts) log, Arrived e := arrived_wanted hall
  refine ⟨harr, ?_, ?_⟩
  · obtain ⟨i', hii, hi⟩ := hnode hops _ hex
    injection hii with hii
    subst hii
    obtain ⟨out, hout⟩ := comesBack_total harr hops
    exact ⟨out, _, hops, i, _, hdoor, hex, ⟨hsize, _, _, _, _, hreq, hi, rfl, sameBatch_self harr, rfl⟩, hout⟩
  · rintro out ⟨q, hops, i, resp, hq, hat, ⟨_, q', es, ws, w, hdec, hloc, hws, hsame, rfl⟩, hback⟩
    rw [hdoor] at hq
    injection hq with hq
    injection hq with hq
    subst hq
    rw [hreq] at hdec
    injection hdec with hdec
    subst hdec
    obtain ⟨i', hi', hread⟩ := hnode hops _ hat
    injection hi' with hi'
    subst hi'
    rw [hread] at hloc
    injection hloc with hloc
    injection hloc with hloc
    rw [← hloc] at hws
    have := (List.map_injective_iff.2 envelopeCode_inj) hws
    subst this
    exact ⟨hops, w, hsame, hback⟩

/-- A user with the right to read a source, on a cluster at rest: the read is answered, by
whatever node it enters at, with exactly the part of the source that was asked for, every
envelope as it was in the request that wrote it, if that part fits in a grpc message. -/
theorem C126_read_partial {cfg : Config} {n : Nat} {L : Str → List Nat} {evs : List CEvent} {c : Cluster}
    {posts : List SendReq} {id : Str} (hcl : AtRest cfg n L evs c posts id)
    {start : Int} {opts : List ReadOpt} {r : WebReq}
    (hfair : FairRead methodOk oauth auth compile id start opts r) (j : Nat) {log : List WireEnvelope}
    (hin : PostedInOrder posts id log)
    (hfits : (readRespProto.encode (some (wanted compile now (asked id start opts) log))).length ≤ grpcMaxMessage) :
    (∃ out, ReadThrough methodOk oauth auth related order parse print compile now c j r out) ∧
    ∀ out, ReadThrough methodOk oauth auth related order parse print compile now c j r out →
      out = some (wanted compile now (asked id start opts) log) := by
  obtain ⟨harr, hex, hall⟩ := read_through methodOk oauth auth related order parse print compile now hcl hfair j hin
  refine ⟨hex, fun out hout => ?_⟩
  obtain ⟨hops, w, hw, hback⟩ := hall out hout
  exact comesBack_fits harr (fun w hw => by rw [answer_len hw]; exact hfits) hw hback

/-! ## C127: large answers -/

/-- If it does not fit, the same user gets an error. -/
theorem C127_large {cfg : Config} {n : Nat} {L : Str → List Nat} {evs : List CEvent} {c : Cluster}
    {posts : List SendReq} {id : Str} (hcl : AtRest cfg n L evs c posts id)
    {start : Int} {opts : List ReadOpt} {r : WebReq}
    (hfair : FairRead methodOk oauth auth compile id start opts r) (j : Nat) {log : List WireEnvelope}
    (hin : PostedInOrder posts id log)
    (hlarge : grpcMaxMessage < (readRespProto.encode (some (wanted compile now (asked id start opts) log))).length) :
    (∃ out, ReadThrough methodOk oauth auth related order parse print compile now c j r out) ∧
    ∀ out, ReadThrough methodOk oauth auth related order parse print compile now c j r out → out = none := by
  obtain ⟨harr, hex, hall⟩ := read_through methodOk oauth auth related order parse print compile now hcl hfair j hin
  refine ⟨hex, fun out hout => ?_⟩
  obtain ⟨hops, w, hw, hback⟩ := hall out hout
  exact comesBack_large (by rw [answer_len hw]; exact hlarge) hback

/-- If no envelope of the source has more than `B` bytes, and the limit of the request leaves
room for that many, it fits. -/
theorem C127_bound_partial {cfg : Config} {n : Nat} {L : Str → List Nat} {evs : List CEvent} {c : Cluster}
    {posts : List SendReq} {id : Str} (hcl : AtRest cfg n L evs c posts id)
    {start : Int} {opts : List ReadOpt} {r : WebReq}
    (hfair : FairRead methodOk oauth auth compile id start opts r) (j : Nat) {log : List WireEnvelope}
    (hin : PostedInOrder posts id log) {B : Nat}
    (hB : ∀ e ∈ postedFor posts id, (wireEnvelopeProto.encode e).length ≤ B)
    (hlim : (if (asked id start opts).limit = 0 then 100 else (asked id start opts).limit).toNat * (B + 5) + 5 ≤
      4194304) :
    ∀ out, ReadThrough methodOk oauth auth related order parse print compile now c j r out →
      out = some (wanted compile now (asked id start opts) log) := by
  refine (C126_read_partial methodOk oauth auth related order parse print compile now hcl hfair j hin ?_).2
  have hw := wanted_len (compile := compile) (now := now) (q := asked id start opts) (log := log) (B := B)
    fun e he => hB e (hin.1.mem_iff.1 he)
  refine answer_bound hw.2 ?_
  have h4 : grpcMaxMessage = 4194304 := rfl
  rw [h4]
  have := Nat.mul_le_mul_right (B + 5) hw.1
  omega

end

/-! ### A cluster that meets the hypotheses -/

/-- An envelope of the app `a`. -/
def appMessage (t : Int) (m : WireMessage) : WireEnvelope :=
  { timestamp := t, sourceId := "a".toList, message := some m }

/-- Two requests, of one envelope each. -/
def twoMessages (m1 m2 : WireMessage) : List SendReq :=
  [{ envelopes := some [appMessage 1 m1] }, { envelopes := some [appMessage 2 m2] }]

/-- A log of the app `a`. -/
def appLog (t : Int) (p : List UInt8) : WireEnvelope :=
  { timestamp := t, sourceId := "a".toList, message := some (.log (some p) 0) }

/-- Two requests, of one log each. -/
def twoPosts (p1 p2 : List UInt8) : List SendReq :=
  [{ envelopes := some [appLog 1 p1] }, { envelopes := some [appLog 2 p2] }]

def storedLog (t : Int) (m : Option Message) : Envelope := { timestamp := t, sourceId := "a".toList, message := m }

theorem two_puts (m1 m2 : Option Message) : ∃ c,
    CRun (newCluster { maxPerSource := 5 } 1 (fun _ _ => [0]))
      ([] ++ [.client 0 { envelopes := some [storedLog 1 m1] }] ++ [.client 0 { envelopes := some [storedLog 2 m2] }]) c ∧
    ∀ j i, c.queue j i = [] := by
  refine ⟨_, CRun.snoc (CRun.snoc (CRun.nil _) (.client Nat.zero_lt_one
      ⟨fun _ => true, _, _, .proxied _ rfl [storedLog 1 m1] rfl [(0, [storedLog 1 m1])] (List.Perm.refl _), .cons 0 rfl (.nil _), rfl⟩))
      (.client Nat.zero_lt_one ⟨fun _ => true, _, _, .proxied _ rfl [storedLog 2 m2] rfl [(0, [storedLog 2 m2])]
        (List.Perm.refl _), .cons 0 rfl (.nil _), rfl⟩), ?_⟩
  intro j i
  simp only [newCluster]
  by_cases h1 : j = 0 <;> by_cases h2 : i = 0 <;> simp_all [sentTo]
  intro h; exact absurd h.symm h2

theorem appLog_arrived (t : Int) (ht : FitsInt64 t) (p : List UInt8) (hp : p ≠ []) : Arrived (appLog t p) := by
  refine ⟨⟨ht, ?_, ?_, ?_, ?_⟩, ?_⟩
  all_goals first
    | exact List.Pairwise.nil
    | (intro p hp; cases hp; done)
    | skip
  · intro m hm
    cases hm
    exact ⟨by norm_num, by norm_num⟩
  · intro t h
    simp [appLog] at h
    exact hp h.1

theorem posted_one {r : SendReq} {es : List WireEnvelope} (hr : r.envelopes = some es) (ha : ∀ e ∈ es, Arrived e)
    (hs : (sendReqProto.encode r).length ≤ grpcMaxMessage) :
    ∃ i w r', SameBatch? w.envelopes r.envelopes ∧ w.localOnly = r.localOnly ∧
      (sendReqProto.encode w).length ≤ grpcMaxMessage ∧ sendReqProto.decode (sendReqProto.encode w) = some r' ∧
      CEvent.client 0 (sendCode r) = CEvent.client i (sendCode r') := by
  have hsame : SameBatch? r.envelopes r.envelopes := by rw [hr]; exact sameBatch_self ha
  refine ⟨0, r, r, hsame, rfl, hs, C115_send r r hsame rfl ?_ (max_lt hs), rfl⟩
  intro es' he e hm
  rw [hr] at he
  cases he
  exact (ha e hm).1

theorem atRest_messages (m1 m2 : WireMessage) (ha1 : Arrived (appMessage 1 m1)) (ha2 : Arrived (appMessage 2 m2))
    (hs : ∀ r ∈ twoMessages m1 m2, (sendReqProto.encode r).length ≤ grpcMaxMessage) :
    ∃ evs c, AtRest { maxPerSource := 5 } 1 (fun _ => [0]) evs c (twoMessages m1 m2) "a".toList := by
  obtain ⟨c, hrun, hq⟩ := two_puts ((appMessage 1 m1).message.map messageCode) ((appMessage 2 m2).message.map messageCode)
  refine ⟨_, c, ⟨hrun, ?_, ?_, ?_, ?_, hq, fun _ => by simp, ?_, by simp, by decide, ?_⟩⟩
  · intro ev hev
    simp at hev
    rcases hev with rfl | rfl <;> trivial
  · exact List.Forall₂.cons (posted_one (r := { envelopes := some [appMessage 1 m1] }) rfl (by simpa using ha1)
      (hs _ (by simp [twoMessages])))
      (List.Forall₂.cons (posted_one (r := { envelopes := some [appMessage 2 m2] }) rfl (by simpa using ha2)
        (hs _ (by simp [twoMessages]))) List.Forall₂.nil)
  · intro r hr
    simp only [twoMessages, List.mem_cons, List.not_mem_nil, or_false] at hr
    rcases hr with rfl | rfl <;> rfl
  · intro r hr e he
    simp only [twoMessages, List.mem_cons, List.not_mem_nil, or_false] at hr
    rcases hr with rfl | rfl <;> simp at he <;> subst he
    · exact ha1
    · exact ha2
  · intro s
    simp only [twoMessages, postedFor, List.flatMap_cons, List.flatMap_nil, Option.getD_some, List.append_nil,
      List.singleton_append]
    exact List.Nodup.sublist (List.filter_sublist.map _) (by simp [appMessage])
  · simp [twoMessages, postedFor, appMessage]

theorem atRest_two (p1 p2 : List UInt8) (h1 : p1 ≠ []) (h2 : p2 ≠ [])
    (hs : ∀ r ∈ twoPosts p1 p2, (sendReqProto.encode r).length ≤ grpcMaxMessage) :
    ∃ evs c, AtRest { maxPerSource := 5 } 1 (fun _ => [0]) evs c (twoPosts p1 p2) "a".toList :=
  atRest_messages (.log (some p1) 0) (.log (some p2) 0) (appLog_arrived 1 (by unfold FitsInt64; norm_num) p1 h1)
    (appLog_arrived 2 (by unfold FitsInt64; norm_num) p2 h2) hs

/-- What the server sees of a Read of `a` from 0. -/
@[irreducible] def readOfA : Str × Values :=
  (seenRequest ("/api/v1/read/".toList ++ "a".toList) (httpReadParams 0 [])).getD ([], [])

theorem readOfA_seen :
    seenRequest ("/api/v1/read/".toList ++ "a".toList) (httpReadParams 0 []) = some (readOfA.1, readOfA.2) := by
  obtain ⟨q, h, _⟩ := C132_read "a".toList 0 [] (by unfold FitsInt64; norm_num) (by simp) (by simp)
  have : readOfA = ("/api/v1/read/".toList ++ "a".toList, q) := by
    unfold readOfA
    rw [h, Option.getD_some]
  rw [h, this]

/-- A user with the token `t`, who may read `a`. -/
theorem fairRead_a : FairRead (fun _ => true) doorUser (fun i _ => decide (i = "a".toList)) (fun _ => none) "a".toList 0 []
    { method := "GET".toList, path := readOfA.1, params := readOfA.2, authorization := "t".toList } where
  begin := by unfold FitsInt64; norm_num
  range := by simp
  known := by simp
  window := .inl rfl
  limit := by decide
  filter := .inl rfl
  size := by
    have h : (readReqProto.encode (asked "a".toList 0 [])).length ≤ 100 := by decide +kernel
    exact le_trans h (by unfold grpcMaxMessage; norm_num)
  target := readOfA_seen
  clean := ⟨by unfold CleanId; decide +kernel, by decide, by decide⟩
  method := rfl
  may := ⟨by decide, ⟨false, "t".toList, 0⟩, by decide, .inr (by decide)⟩

theorem inOrder_two (p1 p2 : List UInt8) : PostedInOrder (twoPosts p1 p2) "a".toList [appLog 1 p1, appLog 2 p2] := by
  have h : postedFor (twoPosts p1 p2) "a".toList = [appLog 1 p1, appLog 2 p2] := by
    simp [twoPosts, postedFor, appLog]
  refine ⟨by rw [h], ?_⟩
  simp [appLog]

theorem wanted_two (p1 p2 : List UInt8) (now : Int) (h : 2 < now) :
    wanted (fun _ => none) now (asked "a".toList 0 []) [appLog 1 p1, appLog 2 p2] = [appLog 1 p1, appLog 2 p2] := by
  have e1 : (asked "a".toList 0 []).descending = false := rfl
  have e2 : (asked "a".toList 0 []).stop = 0 := rfl
  have e3 : (asked "a".toList 0 []).start = 0 := rfl
  have e4 : (asked "a".toList 0 []).types = [] := rfl
  have e5 : (asked "a".toList 0 []).limit = 0 := rfl
  have e6 : (asked "a".toList 0 []).nameFilter = [] := rfl
  unfold wanted
  rw [e1, e2, e3, e4, e5, e6]
  have t1 : (1 : Int) < now := by omega
  simp [appLog, wireProject, h, t1]

/-- The size of a log. -/
theorem appLog_len (t : Int) (ht : t = 1 ∨ t = 2) (p : List UInt8) (hp : p.length + 100 ≤ grpcMaxMessage) :
    p.length ≤ (wireEnvelopeProto.encode (appLog t p)).length ∧
    (wireEnvelopeProto.encode (appLog t p)).length ≤ p.length + 20 := by
  have hv : ∀ n, n ≤ grpcMaxMessage → (putVarint n).length ≤ 4 := fun n hn =>
    putVarint_len (k := 3) (lt_of_le_of_lt hn (by unfold grpcMaxMessage; norm_num))
  have hl : p.length ≤ (logProto.encode (some p, 0)).length ∧ (logProto.encode (some p, 0)).length ≤ p.length + 5 := by
    show p.length ≤ (encFields (bytesField 1 (some p) ++ intField 2 0)).length ∧ (encFields (bytesField 1 (some p) ++ intField 2 0)).length ≤ _
    cases p with
    | nil => decide
    | cons b p =>
      have := hv (b :: p).length (by omega)
      have h8 : (putVarint (1 * 8 + 2)).length = 1 := by unfold putVarint; rfl
      simp only [bytesField, Option.getD_some, List.isEmpty_cons, optField, intField, Bool.false_eq_true, if_false,
        decide_true, if_true, List.append_nil, encFields, List.length_append, WireVal.wireType, WireVal.body, h8, List.length_nil]
      omega
  have hm := hv (logProto.encode (some p, 0)).length (by omega)
  have h34 : (putVarint (4 * 8 + 2)).length = 1 := by unfold putVarint; rfl
  have ha : (encFields (intField 1 t)).length = 2 := by rcases ht with rfl | rfl <;> decide +kernel
  have hb : (encFields (strField 2 "a".toList)).length = 3 := by decide +kernel
  show p.length ≤ (encFields (wireEnvelopeProto.fields (appLog t p))).length ∧ (encFields (wireEnvelopeProto.fields (appLog t p))).length ≤ _
  have he : wireEnvelopeProto.fields (appLog t p) = intField 1 t ++ (strField 2 "a".toList ++ [(4, .bytes (logProto.encode (some p, 0)))]) := rfl
  rw [he]
  simp only [encLen_append, ha, hb]
  simp only [encFields, List.length_append, WireVal.wireType, WireVal.body, h34, List.length_nil]
  omega

/-- The hypotheses are met, and the answer is both logs. -/
example : ∃ evs c, AtRest { maxPerSource := 5 } 1 (fun _ => [0]) evs c (twoPosts [104, 105] [33]) "a".toList ∧
    ∀ now, 2 < now → ∀ j out, ReadThrough (fun _ => true) doorUser (fun i _ => decide (i = "a".toList)) (fun _ _ => none) id
      (fun _ => none) (fun _ => []) (fun _ => none) now c j
      { method := "GET".toList, path := readOfA.1, params := readOfA.2, authorization := "t".toList } out →
      out = some [appLog 1 [104, 105], appLog 2 [33]] := by
  have hmax : grpcMaxMessage = 4194304 := rfl
  have b1 := (appLog_len 1 (.inl rfl) [104, 105] (by rw [hmax]; decide)).2
  have b2 := (appLog_len 2 (.inr rfl) [33] (by rw [hmax]; decide)).2
  obtain ⟨evs, c, h⟩ := atRest_two [104, 105] [33] (by decide) (by decide) (by
    intro r hr
    simp only [twoPosts, List.mem_cons, List.not_mem_nil, or_false] at hr
    rcases hr with rfl | rfl
    · exact answer_bound (ws := [appLog 1 [104, 105]]) (B := 22) (by simpa using b1) (by rw [hmax]; decide)
    · exact answer_bound (ws := [appLog 2 [33]]) (B := 22) (by simpa using le_trans b2 (by decide)) (by rw [hmax]; decide))
  refine ⟨evs, c, h, fun now hn j out hout => ?_⟩
  have := (C126_read_partial _ _ _ _ _ _ _ _ now h fairRead_a j (inOrder_two _ _) (by
    rw [wanted_two _ _ now hn]
    refine answer_bound (B := 22) ?_ (by rw [hmax]; decide)
    intro e he
    simp only [List.mem_cons, List.not_mem_nil, or_false] at he
    rcases he with rfl | rfl
    · exact b1
    · exact le_trans b2 (by decide))).2 out hout
  rw [wanted_two _ _ now hn] at this
  exact this

/-- Two logs of 3 MiB, each in a request that grpc takes: together they cannot be read. -/
theorem C127_large_false : ∃ (p1 p2 : List UInt8) (evs : List CEvent) (c : Cluster),
    AtRest { maxPerSource := 5 } 1 (fun _ => [0]) evs c (twoPosts p1 p2) "a".toList ∧
    ∀ now, 2 < now → ∀ j,
      (∃ out, ReadThrough (fun _ => true) doorUser (fun i _ => decide (i = "a".toList)) (fun _ _ => none) id
        (fun _ => none) (fun _ => []) (fun _ => none) now c j
        { method := "GET".toList, path := readOfA.1, params := readOfA.2, authorization := "t".toList } out) ∧
      ∀ out, ReadThrough (fun _ => true) doorUser (fun i _ => decide (i = "a".toList)) (fun _ _ => none) id
        (fun _ => none) (fun _ => []) (fun _ => none) now c j
        { method := "GET".toList, path := readOfA.1, params := readOfA.2, authorization := "t".toList } out →
        out = none := by
  have hmax : grpcMaxMessage = 4194304 := rfl
  obtain ⟨p, hp⟩ : ∃ p : List UInt8, p.length = 3145728 := ⟨List.replicate 3145728 0, List.length_replicate⟩
  have hne : p ≠ [] := by rintro rfl; cases hp
  have b1 := appLog_len 1 (.inl rfl) p (by omega)
  have b2 := appLog_len 2 (.inr rfl) p (by omega)
  rw [hp] at b1 b2
  obtain ⟨evs, c, h⟩ := atRest_two p p hne hne (by
    intro r hr
    simp only [twoPosts, List.mem_cons, List.not_mem_nil, or_false] at hr
    rcases hr with rfl | rfl
    · exact answer_bound (ws := [appLog 1 p]) (B := 3145748) (by simpa using b1.2)
        (by rw [hmax]; show 1 * (3145748 + 5) + 5 ≤ 4194304; omega)
    · exact answer_bound (ws := [appLog 2 p]) (B := 3145748) (by simpa using b2.2)
        (by rw [hmax]; show 1 * (3145748 + 5) + 5 ≤ 4194304; omega))
  refine ⟨p, p, evs, c, h, fun now hn j => C127_large _ _ _ _ _ _ _ _ now h fairRead_a j (inOrder_two _ _) ?_⟩
  rw [wanted_two _ _ now hn, hmax]
  show 4194304 < (encFields [(1, .bytes (encFields [(1, .bytes (wireEnvelopeProto.encode (appLog 1 p))),
    (1, .bytes (wireEnvelopeProto.encode (appLog 2 p)))]))]).length
  simp only [encFields, List.length_append, WireVal.body, List.length_nil]
  omega

/-! ## C128: large batches -/

theorem request_len (w : BatchWriter) (es : List WireEnvelope) :
    (sendReqProto.encode (w.request es)).length =
      (readRespProto.encode (some es)).length + (if w = .nozzle then 0 else 2) := by
  have h2 : (encFields (boolField 2 true)).length = 2 := by decide +kernel
  have h0 : (encFields (boolField 2 false)).length = 0 := rfl
  have h : ∀ b, (sendReqProto.encode { envelopes := some es, localOnly := b }).length =
      (readRespProto.encode (some es)).length + (encFields (boolField 2 b)).length := fun b => encLen_append _ _
  cases w
  · exact (h false).trans (by rw [h0]; rfl)
  · exact (h true).trans (by rw [h2]; rfl)
  · exact (h true).trans (by rw [h2]; rfl)

/-- A batch of a writer arrives as it is if no envelope has more than `B` bytes and there is
room for the largest number of them. -/
theorem C128_bound_partial (w : BatchWriter) (es : List WireEnvelope) (hn : es.length ≤ w.most)
    (ha : ∀ e ∈ es, Arrived e) {B : Nat} (hB : ∀ e ∈ es, (wireEnvelopeProto.encode e).length ≤ B)
    (hroom : w.most * (B + 5) + 7 ≤ 4194304) : writeArrives (w.request es) = some (w.request es) := by
  have hsz : ∀ {M : Nat}, es.length * (B + 5) + 5 ≤ M → M ≤ grpcMaxMessage → (readRespProto.encode (some es)).length ≤ M :=
    fun h1 h2 => answer_room hB h1 h2
  have hmul := Nat.mul_le_mul_right (B + 5) hn
  have h1 := hsz (M := 4194302) (by omega) (by unfold grpcMaxMessage; norm_num)
  have h3 : (sendReqProto.encode (w.request es)).length ≤ grpcMaxMessage := by
    rw [request_len]
    have h4 : grpcMaxMessage = 4194304 := rfl
    rw [h4]
    split <;> omega
  unfold writeArrives
  rw [if_pos h3]
  refine C115_send _ _ ?_ rfl ?_ (max_lt h3)
  · cases w <;> exact sameBatch_self ha
  · intro es' he e hm
    have : es' = es := by cases w <;> (cases he; rfl)
    subst this
    exact (ha e hm).1

/-- So envelopes of up to 8186 bytes always arrive, and between nodes those of up to 41937
bytes. -/
theorem C128_sizes_partial (w : BatchWriter) (es : List WireEnvelope) (hn : es.length ≤ w.most)
    (ha : ∀ e ∈ es, Arrived e)
    (hB : ∀ e ∈ es, (wireEnvelopeProto.encode e).length ≤ if w = .node then 41937 else 8186) :
    writeArrives (w.request es) = some (w.request es) :=
  C128_bound_partial w es hn ha hB (by cases w <;> decide)

example : [appLog 1 [104, 105]].length ≤ BatchWriter.node.most ∧ (∀ e ∈ [appLog 1 [104, 105]], Arrived e) ∧
    ∀ e ∈ [appLog 1 [104, 105]], (wireEnvelopeProto.encode e).length ≤ if BatchWriter.node = .node then 41937 else 8186 := by
  refine ⟨by decide, ?_, ?_⟩
  · intro e he
    rw [List.mem_singleton.1 he]
    exact appLog_arrived 1 (by unfold FitsInt64; norm_num) _ (by decide)
  · intro e he
    rw [List.mem_singleton.1 he]
    have := (appLog_len 1 (.inl rfl) [104, 105] (by unfold grpcMaxMessage; decide)).2
    exact le_trans this (by decide)

theorem batch_lower (es : List WireEnvelope) {N : Nat} (h : ∀ e ∈ es, N ≤ (wireEnvelopeProto.encode e).length) :
    es.length * N ≤ (readRespProto.encode (some es)).length := by
  have h1 : es.length * N ≤ (batchProto.encode es).length := by
    show _ ≤ (encFields (es.map fun x => (1, .bytes (wireEnvelopeProto.encode x)))).length
    induction es with
    | nil => simp
    | cons e es ih =>
      have := ih fun e he => h e (List.mem_cons_of_mem _ he)
      have he := h e List.mem_cons_self
      rw [List.length_cons, Nat.add_mul, one_mul, List.map_cons]
      simp only [encFields, List.length_append, WireVal.body]
      omega
  show _ ≤ (encFields [(1, .bytes (batchProto.encode es))]).length
  simp only [encFields, List.length_append, WireVal.body]
  omega

/-- Every writer loses batches of envelopes of which each alone arrives: here the largest batch,
with logs of 50 kB. -/
theorem C128_batch_false (w : BatchWriter) : ∃ es : List WireEnvelope, es.length = w.most ∧
    (∀ e ∈ es, Arrived e ∧ (wireEnvelopeProto.encode e).length ≤ 51200 ∧
      writeArrives (w.request [e]) = some (w.request [e])) ∧
    writeArrives (w.request es) = none := by
  obtain ⟨p, hp⟩ : ∃ p : List UInt8, p.length = 50000 := ⟨List.replicate 50000 0, List.length_replicate⟩
  have hmax : grpcMaxMessage = 4194304 := rfl
  have hne : p ≠ [] := by rintro rfl; cases hp
  have b := appLog_len 1 (.inl rfl) p (by omega)
  have ha := appLog_arrived 1 (by unfold FitsInt64; norm_num) p hne
  rw [hp] at b
  refine ⟨List.replicate w.most (appLog 1 p), List.length_replicate, ?_, ?_⟩
  · intro e he
    rw [(List.mem_replicate.1 he).2]
    refine ⟨ha, by omega, ?_⟩
    have h1 := answer_room (ws := [appLog 1 p]) (B := 50020) (M := 60000) (by simpa using b.2)
      (by show 1 * (50020 + 5) + 5 ≤ 60000; omega) (by omega)
    have h3 : (sendReqProto.encode (w.request [appLog 1 p])).length ≤ grpcMaxMessage := by
      rw [request_len, hmax]
      split <;> omega
    unfold writeArrives
    rw [if_pos h3]
    refine C115_send _ _ ?_ rfl ?_ (max_lt h3)
    · cases w <;> exact sameBatch_self (by simpa using ha)
    · intro es' he e hm
      have : es' = [appLog 1 p] := by cases w <;> (cases he; rfl)
      subst this
      rw [List.mem_singleton.1 hm]
      exact ha.1
  · unfold writeArrives
    rw [if_neg]
    rw [request_len]
    have hl := batch_lower (List.replicate w.most (appLog 1 p)) (N := 50000) (by
      intro e he
      rw [(List.mem_replicate.1 he).2]
      exact b.1)
    rw [List.length_replicate] at hl
    have : 100 ≤ w.most := by cases w <;> decide
    rw [hmax]
    have h5 := Nat.mul_le_mul_right 50000 this
    omega

theorem putVarint_len4 {n : Nat} (h1 : 2097152 ≤ n) (h2 : n ≤ 4194304) : (putVarint n).length = 4 := by
  rw [putVarint, if_neg (by omega), putVarint, if_neg (by omega), putVarint, if_neg (by omega), putVarint,
    if_pos (by omega)]
  rfl

/-- A request of a client that a node takes and that it cannot pass on to the owner, because the
mark that keeps the owner from passing it on again makes it too large. -/
theorem C128_forward_false : ∃ e : WireEnvelope, Arrived e ∧
    writeArrives { envelopes := some [e] } = some { envelopes := some [e] } ∧
    writeArrives (BatchWriter.node.request [e]) = none := by
  obtain ⟨p, hp⟩ : ∃ p : List UInt8, p.length = 4194279 := ⟨List.replicate 4194279 0, List.length_replicate⟩
  have hmax : grpcMaxMessage = 4194304 := rfl
  have hne : p ≠ [] := by rintro rfl; cases hp
  have ha := appLog_arrived 1 (by unfold FitsInt64; norm_num) p hne
  have h8 : (putVarint (1 * 8 + 2)).length = 1 := by unfold putVarint; rfl
  have h34 : (putVarint (4 * 8 + 2)).length = 1 := by unfold putVarint; rfl
  have hlog : (logProto.encode (some p, 0)).length = 4194284 := by
    have he : p.isEmpty = false := by
      cases p with
      | nil => exact absurd rfl hne
      | cons => rfl
    show (encFields (bytesField 1 (some p) ++ intField 2 0)).length = _
    simp only [bytesField, Option.getD_some, he, optField, intField, Bool.false_eq_true, if_false,
      decide_true, if_true, List.append_nil, encFields, List.length_append, WireVal.wireType, WireVal.body, h8, hp, List.length_nil]
    rw [putVarint_len4 (by omega) (by omega)]
  have henv : (wireEnvelopeProto.encode (appLog 1 p)).length = 4194294 := by
    have h1 : (encFields (intField 1 1)).length = 2 := by decide +kernel
    have hb : (encFields (strField 2 "a".toList)).length = 3 := by decide +kernel
    show (encFields (intField 1 1 ++ (strField 2 "a".toList ++ [(4, .bytes (logProto.encode (some p, 0)))]))).length = _
    simp only [encLen_append, h1, hb]
    simp only [encFields, List.length_append, WireVal.wireType, WireVal.body, h34, hlog, List.length_nil]
    rw [putVarint_len4 (by omega) (by omega)]
  have hresp : (readRespProto.encode (some [appLog 1 p])).length = 4194304 := by
    show (encFields [(1, .bytes (encFields [(1, .bytes (wireEnvelopeProto.encode (appLog 1 p)))]))]).length = _
    simp only [encFields, List.length_append, WireVal.wireType, WireVal.body, h8, henv, List.length_nil]
    have hv := putVarint_len4 (n := 4194294) (by omega) (by omega)
    rw [hv, putVarint_len4 (by omega) (by omega)]
  have hfit : (sendReqProto.encode { envelopes := some [appLog 1 p] }).length ≤ grpcMaxMessage := by
    have := request_len .nozzle [appLog 1 p]
    rw [hresp, if_pos rfl] at this
    rw [hmax]
    exact le_of_eq this
  refine ⟨appLog 1 p, ha, ?_, ?_⟩
  · unfold writeArrives
    rw [if_pos hfit]
    refine C115_send _ _ (sameBatch_self (by simpa using ha)) rfl ?_ (max_lt hfit)
    intro es he e hm
    cases he
    rw [List.mem_singleton.1 hm]
    exact ha.1
  · unfold writeArrives
    rw [if_neg]
    rw [request_len, hresp, if_neg (by decide), hmax]
    omega

end LogCache
