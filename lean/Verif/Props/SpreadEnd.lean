import Verif.Spec.SpreadEnd
import Verif.Props.SpreadCluster
import Verif.Props.EndToEnd
/-!
# From a Send to the user who reads, with equal times (C126)
-/
namespace LogCache
open Spec

theorem howMany_code (l : List WireEnvelope) (ts : Int) : howMany (l.map envelopeCode) ts = howManyWire l ts := by
  unfold howMany howManyWire
  rw [List.filter_map, List.length_map]
  rfl

theorem spread_code {l : List WireEnvelope} (h : SpreadWire l) : Spread (l.map envelopeCode) := by
  intro x hx y hy hlt
  obtain ⟨x', hx', rfl⟩ := List.mem_map.1 hx
  obtain ⟨y', hy', rfl⟩ := List.mem_map.1 hy
  rw [howMany_code]
  exact h x' hx' y' hy' hlt

theorem plain_clients {evs : List CEvent} {posts : List SendReq} (hp : Posted evs posts)
    (hpl : ∀ r ∈ posts, r.localOnly = false) (ha : ∀ r ∈ posts, ∀ e ∈ r.envelopes.getD [], Arrived e) :
    ∀ j req, CEvent.client j req ∈ evs → req.localOnly = false := by
  intro j req hm
  have hm' : CEvent.client j req ∈ evs.filter fun | .client _ _ => true | _ => false := by
    rw [List.mem_filter]; exact ⟨hm, rfl⟩
  unfold Posted at hp
  generalize evs.filter _ = l at hp hm'
  induction hp with
  | nil => cases hm'
  | @cons ev p l posts hx _ ih =>
    rcases List.mem_cons.1 hm' with rfl | hm'
    · obtain ⟨i, w, p', h1, h2, h3, h4, h5⟩ := hx
      have := C115_send w p h1 h2 (fun es he e hme => (ha p List.mem_cons_self e (by rw [he]; exact hme)).1) (max_lt h3)
      rw [this] at h4
      injection h4 with h4
      subst h4
      injection h5 with _ h5
      subst h5
      exact hpl p List.mem_cons_self
    · exact ih (fun p hp => hpl p (List.mem_cons_of_mem _ hp)) (fun p hp => ha p (List.mem_cons_of_mem _ hp)) hm'

/-- What the nodes answer to a read with room for all results, and that they answer. -/
theorem node_reads_spread (compile : Str → Option (Str → Bool)) (now : Int) {cfg : Config} {n : Nat} {L : Str → List Nat}
    {evs : List CEvent} {c : Cluster} {posts : List SendReq} {id : Str} (hcl : AtRestSpread cfg n L evs c posts id) (j : Nat)
    {q : ReadRequest} (hid : q.sourceId = id)
    (hkn : ∀ k, EType.other k ∉ q.types) (hwin : q.stop = 0 ∨ q.start ≤ q.stop)
    (hlim : 0 ≤ q.limit ∧ q.limit ≤ 1000) (hfil : q.nameFilter = [] ∨ compile q.nameFilter ≠ none)
    (hroom : ((postedFor posts id).length : Int) < (if q.limit = 0 then 100 else q.limit)) :
    (∃ hops i, ReadAt c.lk id j hops (some i)) ∧
    ∀ hops res, ReadAt c.lk id j hops res → ∃ i log, res = some i ∧ PostedInOrder posts id log ∧
      (∀ e ∈ log, Arrived e) ∧
      localRead compile now (c.store i) q = some (.ok ((wanted compile now q log).map envelopeCode)) := by
  obtain ⟨h, hr, hp, hpl, ha, hq, hLn, hL, hs, hfew, hc, hcap⟩ := hcl
  have hcs := posted_code hp (fun r hr e he => (ha r hr e he).1) (fun w r => C115_send w r)
  have hg := plain_clients hp hpl ha
  obtain ⟨⟨hops, res, hex⟩, hall⟩ := C35_spread hc h hr hg hq (src := id) hLn hL
    (by rw [hcs]; exact spread_code hs) (fun ts => by rw [hcs, howMany_code]; exact hfew ts)
    (by rw [hcs, List.length_map]; exact hcap) j
  have hnode : ∀ hops res, ReadAt c.lk id j hops res → ∃ i log, res = some i ∧ PostedInOrder posts id log ∧
      (∀ e ∈ log, Arrived e) ∧
      localRead compile now (c.store i) q =
        some (.ok ((wanted compile now q log).map envelopeCode)) := by
    intro hops res hre
    obtain ⟨_, i, rfl, _, log', hperm, hsort, hans⟩ := hall hops res hre
    rw [hcs] at hperm
    obtain ⟨log, hlog, rfl⟩ : ∃ log : List WireEnvelope, log.Perm (postedFor posts id) ∧ log.map envelopeCode = log' := by
      have : log' ∈ (postedFor posts id).permutations.map (List.map envelopeCode) := by
        rw [List.map_permutations]
        exact List.mem_permutations.2 hperm
      obtain ⟨log, h1, h2⟩ := List.mem_map.1 this
      exact ⟨log, List.mem_permutations.1 h1, h2⟩
    refine ⟨i, log, rfl, ⟨hlog, (List.pairwise_map (f := envelopeCode) (R := fun x y => x.timestamp ≤ y.timestamp)).1 hsort⟩, ?_, ?_⟩
    · intro e he
      have := hlog.mem_iff.1 he
      obtain ⟨p, hpm, hpe⟩ := List.mem_flatMap.1 (List.mem_filter.1 this).1
      exact ha p hpm e hpe
    rw [← wanted_code]
    rcases hans compile now q hid hkn with he | ⟨res, g1, all, g2, -, g4, -⟩
    · exfalso
      rcases (C24_rejected_iff compile now (c.store i) _).1 he with h1 | h1 | h1 | h1
      · exact hwin.elim h1.1 (fun h => absurd h1.2 (not_lt.2 h))
      · exact absurd hlim.2 (by omega)
      · exact absurd hlim.1 (by omega)
      · exact hfil.elim h1.1 (fun h => h h1.2)
    · rw [g1, g4 (by rw [hcs, List.length_map]; exact hroom), g2, List.take_of_length_le]
      refine le_trans (List.length_filter_le ..) (le_trans (List.length_filterMap_le ..)
          (le_trans (List.length_filter_le ..) ?_))
      have : (log.map envelopeCode).length = (postedFor posts id).length := by
        rw [List.length_map, hlog.length_eq]
      split <;> simp only [List.length_reverse, this] <;> omega
  refine ⟨?_, hnode⟩
  obtain ⟨i, -, rfl, _⟩ := hnode hops res hex
  exact ⟨hops, i, hex⟩

section
variable (methodOk : Str → Bool) (oauth : Str → Option UserCtx) (auth : Str → Str → Bool)
  (related : List Str → Str → Option Expansions) (order : List Str → List Str)
  (parse : Str → Option PExpr) (print : PExpr → Str) (compile : Str → Option (Str → Bool)) (now : Int)

/-- As `C126_read_partial` for envelopes that may have the same time: a user with the right to
read a source gets exactly the part of the source that was asked for, in the order of time, every
envelope as it was in the request that wrote it, if the limit leaves room for all of the source
and the answer fits in a grpc message. -/
theorem C126_spread_partial {cfg : Config} {n : Nat} {L : Str → List Nat} {evs : List CEvent} {c : Cluster}
    {posts : List SendReq} {id : Str} (hcl : AtRestSpread cfg n L evs c posts id)
    {start : Int} {opts : List ReadOpt} {r : WebReq}
    (hfair : FairRead methodOk oauth auth compile id start opts r)
    (hroom : ((postedFor posts id).length : Int) <
      (if (asked id start opts).limit = 0 then 100 else (asked id start opts).limit)) (j : Nat)
    (hfits : ∀ log, PostedInOrder posts id log →
      (readRespProto.encode (some (wanted compile now (asked id start opts) log))).length ≤ grpcMaxMessage) :
    (∃ out, ReadThrough methodOk oauth auth related order parse print compile now c j r out) ∧
    ∀ out, ReadThrough methodOk oauth auth related order parse print compile now c j r out →
      ∃ log, PostedInOrder posts id log ∧ out = some (wanted compile now (asked id start opts) log) := by
  obtain ⟨hs, ho, hk, hwin, hlim, hfil, hsize, htarget, ⟨hid, hn, hcol⟩, hmeth, hmay⟩ := hfair
  obtain ⟨hv, hkn⟩ := asked_valid id start opts hs ho hk
  have hdoor : door false methodOk oauth auth related order parse print r = some (.read (asked id start opts)) := by
    obtain ⟨q, hseen, hasked⟩ := C132_read id start opts hs ho hk
    have hsame := Option.some.inj (htarget.symm.trans hseen)
    have hpath : r.path = _ := congrArg Prod.fst hsame
    have hparams : r.params = q := congrArg Prod.snd hsame
    clear hsame hseen htarget
    rw [C75_served_partial methodOk oauth auth related order parse print r id hpath hid hn hcol hmeth hmay, hparams, hasked]
    rfl
  clear htarget
  have hreq : readReqProto.decode (readReqProto.encode (asked id start opts)) = some (asked id start opts) :=
    C115_read_request _ hv (max_lt hsize)
  obtain ⟨⟨hops, i, hex⟩, hnode⟩ := node_reads_spread compile now hcl j (q := asked id start opts) rfl hkn hwin hlim hfil hroom
  constructor
  · obtain ⟨i', log, hii, -, hall, hi⟩ := hnode hops _ hex
    injection hii with hii
    subst hii
    have harr := arrived_wanted (compile := compile) (now := now) (q := asked id start opts) hall
    obtain ⟨out, hout⟩ := comesBack_total harr hops
    exact ⟨out, _, hops, i, _, hdoor, hex, ⟨hsize, _, _, _, _, hreq, hi, rfl, sameBatch_self harr, rfl⟩, hout⟩
  · rintro out ⟨q, hops, i, resp, hq, hat, ⟨_, q', es, ws, w, hdec, hloc, hws, hsame, rfl⟩, hback⟩
    rw [hdoor] at hq
    injection hq with hq
    injection hq with hq
    subst hq
    rw [hreq] at hdec
    injection hdec with hdec
    subst hdec
    obtain ⟨i', log, hi', hin, hall, hread⟩ := hnode hops _ hat
    injection hi' with hi'
    subst hi'
    rw [hread] at hloc
    injection hloc with hloc
    injection hloc with hloc
    rw [← hloc] at hws
    have := (List.map_injective_iff.2 envelopeCode_inj) hws
    subst this
    have harr := arrived_wanted (compile := compile) (now := now) (q := asked id start opts) hall
    exact ⟨log, hin, comesBack_fits harr (fun w hw => by rw [answer_len hw]; exact hfits log hin) hsame hback⟩

end

/-! ### A cluster that meets the hypotheses -/

/-- Two requests, of one log each, of the same time. -/
def twoSamePosts : List SendReq :=
  [{ envelopes := some [appLog 1 [104, 105]] }, { envelopes := some [appLog 1 [33]] }]

theorem two_same_puts (m1 m2 : Option Message) : ∃ c,
    CRun (newCluster { maxPerSource := 5 } 1 (fun _ _ => [0]))
      ([] ++ [.client 0 { envelopes := some [storedLog 1 m1] }] ++ [.client 0 { envelopes := some [storedLog 1 m2] }]) c ∧
    ∀ j i, c.queue j i = [] := by
  refine ⟨_, CRun.snoc (CRun.snoc (CRun.nil _) (.client Nat.zero_lt_one
      ⟨fun _ => true, _, _, .proxied _ rfl [storedLog 1 m1] rfl [(0, [storedLog 1 m1])] (List.Perm.refl _), .cons 0 rfl (.nil _), rfl⟩))
      (.client Nat.zero_lt_one ⟨fun _ => true, _, _, .proxied _ rfl [storedLog 1 m2] rfl [(0, [storedLog 1 m2])]
        (List.Perm.refl _), .cons 0 rfl (.nil _), rfl⟩), ?_⟩
  intro j i
  simp only [newCluster]
  by_cases h1 : j = 0 <;> by_cases h2 : i = 0 <;> simp_all [sentTo]
  intro h; exact absurd h.symm h2

theorem posted_same : postedFor twoSamePosts "a".toList = [appLog 1 [104, 105], appLog 1 [33]] := by
  simp [twoSamePosts, postedFor, appLog]

theorem log_bytes : (wireEnvelopeProto.encode (appLog 1 [104, 105])).length ≤ 22 ∧
    (wireEnvelopeProto.encode (appLog 1 [33])).length ≤ 22 := by
  have hmax : grpcMaxMessage = 4194304 := rfl
  exact ⟨(appLog_len 1 (.inl rfl) [104, 105] (by rw [hmax]; decide)).2,
    le_trans (appLog_len 1 (.inl rfl) [33] (by rw [hmax]; decide)).2 (by decide)⟩

theorem atRest_same : ∃ evs c, AtRestSpread { maxPerSource := 5 } 1 (fun _ => [0]) evs c twoSamePosts "a".toList := by
  have hmax : grpcMaxMessage = 4194304 := rfl
  have a1 := appLog_arrived 1 (by unfold FitsInt64; norm_num) [104, 105] (by decide)
  have a2 := appLog_arrived 1 (by unfold FitsInt64; norm_num) [33] (by decide)
  obtain ⟨c, hrun, hq⟩ := two_same_puts ((appLog 1 [104, 105]).message.map messageCode) ((appLog 1 [33]).message.map messageCode)
  refine ⟨_, c, ⟨hrun, ?_, ?_, ?_, ?_, hq, by simp, by simp, ?_, ?_, by decide, ?_⟩⟩
  · intro ev hev
    simp at hev
    rcases hev with rfl | rfl <;> trivial
  · exact List.Forall₂.cons (posted_one (r := { envelopes := some [appLog 1 [104, 105]] }) rfl (by simpa using a1)
      (answer_bound (ws := [appLog 1 [104, 105]]) (B := 22) (by simpa using log_bytes.1) (by rw [hmax]; decide)))
      (List.Forall₂.cons (posted_one (r := { envelopes := some [appLog 1 [33]] }) rfl (by simpa using a2)
        (answer_bound (ws := [appLog 1 [33]]) (B := 22) (by simpa using log_bytes.2) (by rw [hmax]; decide))) List.Forall₂.nil)
  · intro r hr
    simp only [twoSamePosts, List.mem_cons, List.not_mem_nil, or_false] at hr
    rcases hr with rfl | rfl <;> rfl
  · intro r hr e he
    simp only [twoSamePosts, List.mem_cons, List.not_mem_nil, or_false] at hr
    rcases hr with rfl | rfl <;> simp at he <;> subst he
    · exact a1
    · exact a2
  · rw [posted_same]
    intro x hx y hy hlt
    simp only [List.mem_cons, List.not_mem_nil, or_false] at hx hy
    rcases hx with rfl | rfl <;> rcases hy with rfl | rfl <;> exact absurd hlt (lt_irrefl (1 : Int))
  · intro ts
    rw [posted_same]
    exact le_trans (List.length_filter_le ..) (by decide)
  · rw [posted_same]; decide

/-- Two logs of the same time, and both are returned. -/
example : ∃ evs c, AtRestSpread { maxPerSource := 5 } 1 (fun _ => [0]) evs c twoSamePosts "a".toList ∧
    ∀ now j, (∃ out, ReadThrough (fun _ => true) doorUser (fun i _ => decide (i = "a".toList)) (fun _ _ => none) id
      (fun _ => none) (fun _ => []) (fun _ => none) now c j
      { method := "GET".toList, path := readOfA.1, params := readOfA.2, authorization := "t".toList } out) := by
  obtain ⟨evs, c, h⟩ := atRest_same
  refine ⟨evs, c, h, fun now j => ?_⟩
  refine (C126_spread_partial _ _ _ _ _ _ _ _ now h fairRead_a (by rw [posted_same]; decide) j ?_).1
  intro log hin
  have hmax : grpcMaxMessage = 4194304 := rfl
  have hB : ∀ e ∈ log, (wireEnvelopeProto.encode e).length ≤ 22 := by
    intro e he
    have := hin.1.mem_iff.1 he
    rw [posted_same] at this
    simp only [List.mem_cons, List.not_mem_nil, or_false] at this
    rcases this with rfl | rfl
    · exact log_bytes.1
    · exact log_bytes.2
  have hw := wanted_len (compile := fun _ => none) (now := now) (q := asked "a".toList 0 []) (log := log) (B := 22) hB
  refine answer_bound hw.2 ?_
  rw [hmax]
  have h1 := hw.1
  have h2 : (if (asked "a".toList 0 []).limit = 0 then 100 else (asked "a".toList 0 []).limit).toNat = 100 := rfl
  rw [h2] at h1
  omega

end LogCache
