import Verif.Spec.UserCrash
import Verif.Props.SpreadEnd
import Verif.Props.Heal
import Verif.Props.PruneHeal
/-!
# What a user reads while nodes crash and recover (C167)
-/
namespace LogCache
open Spec

theorem sentBy_clients (evs : List XEvent) (src : Str) : sentBy evs src = clientSent (clientsOf evs) src := by
  unfold sentBy clientSent clientsOf
  induction evs with
  | nil => rfl
  | cons ev t ih => cases ev <;> simp_all

theorem postedFor_append (a b : List SendReq) (src : Str) :
    postedFor (a ++ b) src = postedFor a src ++ postedFor b src := by
  simp [postedFor]

theorem sentBy_posted {evs : List XEvent} {posts : List SendReq} (hp : Posted (clientsOf evs) posts)
    (ha : ∀ r ∈ posts, ∀ e ∈ r.envelopes.getD [], Arrived e) (src : Str) :
    sentBy evs src = (postedFor posts src).map envelopeCode := by
  rw [sentBy_clients]
  exact posted_code hp (fun r hr e he => (ha r hr e he).1) (fun w r => C115_send w r) src

theorem postedFor_arrived {posts : List SendReq} (ha : ∀ r ∈ posts, ∀ e ∈ r.envelopes.getD [], Arrived e) {src : Str} :
    ∀ e ∈ postedFor posts src, Arrived e := by
  intro e he
  obtain ⟨p, hpm, hpe⟩ := List.mem_flatMap.1 (List.mem_filter.1 he).1
  exact ha p hpm e hpe

theorem perm_code {l : List Envelope} {ws : List WireEnvelope} (h : l.Perm (ws.map envelopeCode)) :
    ∃ lw : List WireEnvelope, lw.Perm ws ∧ lw.map envelopeCode = l := by
  have : l ∈ ws.permutations.map (List.map envelopeCode) := by
    rw [List.map_permutations]
    exact List.mem_permutations.2 h
  obtain ⟨log, h1, h2⟩ := List.mem_map.1 this
  exact ⟨log, List.mem_permutations.1 h1, h2⟩

theorem some_code {l : List Envelope} {ws : List WireEnvelope} (h : SomeOf l (ws.map envelopeCode)) :
    ∃ lw : List WireEnvelope, SomeWire lw ws ∧ lw.map envelopeCode = l := by
  obtain ⟨rest, hr⟩ := h
  obtain ⟨lw, h1, h2⟩ := perm_code hr
  obtain ⟨a, b, rfl, h3, h4⟩ := List.map_eq_append_iff.1 h2
  exact ⟨a, ⟨b, h1⟩, h3⟩

theorem someWire_mem {l all : List WireEnvelope} (h : SomeWire l all) {e : WireEnvelope} (he : e ∈ l) : e ∈ all := by
  obtain ⟨r, hr⟩ := h
  exact hr.mem_iff.1 (List.mem_append_left _ he)

theorem someOf_trans {a b x : List Envelope} (h1 : SomeOf a b) (h2 : SomeOf b x) : SomeOf a x := by
  obtain ⟨r, hr⟩ := h1
  obtain ⟨s, hs⟩ := h2
  exact ⟨r ++ s, by rw [← List.append_assoc]; exact (hr.append_right s).trans hs⟩

theorem someOf_perm {a b x : List Envelope} (h1 : SomeOf a b) (h2 : b.Perm x) : SomeOf a x :=
  someOf_trans h1 ⟨[], by simpa using h2⟩

/-- What was put into the store of a node, after any history, is some of what was sent. -/
theorem node_has {cfg : Config} {n : Nat} {L : Str → List Nat} {evs : List PruneEvent} {c : Cluster}
    {posts : List SendReq} (hcl : AnyHistory cfg n L evs c posts) (i : Nat) :
    ∃ ops, Run (newStore cfg) ops (c.store i) ∧
      ∀ id, SomeOf (putsOf ops id) ((postedFor posts id).map envelopeCode) := by
  obtain ⟨⟨s0, hx⟩, hb⟩ := prune_books hcl.some hcl.run
  obtain ⟨-, hperm, -⟩ := C154_accounts hx i
  obtain ⟨ops, o1, o3⟩ := hb i
  refine ⟨ops, o1, fun id => ?_⟩
  rw [← sentBy_posted hcl.posted hcl.arrived, o3]
  refine someOf_trans ?_ (due_some hcl.tables i id)
  have := hperm.filter (fun e => decide (e.sourceId = id))
  rw [List.append_assoc, List.filter_append] at this
  exact ⟨_, this⟩

theorem node_holds {cfg : Config} {n : Nat} {L : Str → List Nat} {evs : List PruneEvent} {c : Cluster}
    {posts : List SendReq} (hcl : AnyHistory cfg n L evs c posts) (i : Nat) :
    ∃ ops, Run (newStore cfg) ops (c.store i) ∧
      ∀ id, SomeOf ((c.store i).envelopes id) ((postedFor posts id).map envelopeCode) := by
  obtain ⟨ops, h1, h2⟩ := node_has hcl i
  exact ⟨ops, h1, fun id => someOf_trans (stored_sub_put hcl.some h1 id) (h2 id)⟩

/-- A history goes on with a node that prunes its store. -/
theorem any_prune {cfg : Config} {n : Nat} {L : Str → List Nat} {evs : List PruneEvent} {c c' : Cluster}
    {posts : List SendReq} (h : AnyHistory cfg n L evs c posts) {i : Nat} (hs : PruneStep cfg c (.prune i) c') :
    AnyHistory cfg n L (evs ++ [.prune i]) c' posts := by
  refine ⟨h.run.snoc hs, ?_, h.arrived, ?_, h.some⟩ <;> rw [stepsOf_snoc, List.append_nil]
  · exact h.posted
  · exact h.tables

/-- A history in which no node prunes. -/
theorem any_plain {cfg : Config} {n : Nat} {L : Str → List Nat} {evs : List XEvent} {c : Cluster}
    {posts : List SendReq} (hrun : XRun cfg (newCluster cfg n (fun _ => L)) evs c)
    (hp : Posted (clientsOf evs) posts) (ha : ∀ r ∈ posts, ∀ e ∈ r.envelopes.getD [], Arrived e)
    (ht : FairTables L evs) (hc : 1 ≤ cfg.maxPerSource) : AnyHistory cfg n L (evs.map .step) c posts :=
  ⟨prune_none hrun, by rw [stepsOf_step]; exact hp, ha, by rw [stepsOf_step]; exact ht, hc⟩

theorem matching_code (compile : Str → Option (Str → Bool)) (now : Int) (q : ReadRequest) (log : List WireEnvelope) :
    ((((if q.descending then (log.map envelopeCode).reverse else log.map envelopeCode).filter
        (inWindow q.start (if q.stop = 0 then now else q.stop))).filterMap
        (project (if q.nameFilter = [] then none else compile q.nameFilter))).filter
        (fun e => decide (∀ t ∈ q.types, t = .any) || decide (∃ t ∈ q.types, kind e = some t))) =
      (matching compile now q log).map envelopeCode := by
  unfold matching
  have h1 : (if q.descending then (log.map envelopeCode).reverse else log.map envelopeCode) =
      (if q.descending then log.reverse else log).map envelopeCode := by
    split
    · rw [List.map_reverse]
    · rfl
  rw [h1]
  generalize (if q.descending then log.reverse else log) = l
  rw [filter_code _ (fun e => decide (q.start ≤ e.timestamp) &&
    decide (e.timestamp < if q.stop = 0 then now else q.stop)) (fun e => rfl)]
  generalize l.filter _ = l
  rw [List.filterMap_map]
  have h2 : l.filterMap (project (if q.nameFilter = [] then none else compile q.nameFilter) ∘ envelopeCode) =
      (l.filterMap (wireProject (if q.nameFilter = [] then none else compile q.nameFilter))).map envelopeCode := by
    rw [List.map_filterMap]
    apply List.filterMap_congr
    intro e _
    exact project_code _ e
  rw [h2]
  generalize l.filterMap _ = l
  rw [filter_code _ (fun e => decide (∀ t ∈ q.types, t = .any) || decide (∃ t ∈ q.types, wireKind e = some t))
    (fun e => by rw [kind_code])]

theorem arrived_matching {compile : Str → Option (Str → Bool)} {now : Int} {q : ReadRequest} {log : List WireEnvelope}
    (h : ∀ e ∈ log, Arrived e) : ∀ e ∈ matching compile now q log, Arrived e := by
  intro e he
  unfold matching at he
  have h2 := (List.mem_filter.1 he).1
  obtain ⟨a, ha, hp⟩ := List.mem_filterMap.1 h2
  refine arrived_project (h a ?_) hp
  have := (List.mem_filter.1 ha).1
  split at this
  · exact List.mem_reverse.1 this
  · exact this

theorem typesParam_no_other {l : List Str} {ts : List EType} (h : typesParam l = some ts) : ∀ k, EType.other k ∉ ts := by
  induction l generalizing ts with
  | nil => cases h; intro k hk; cases hk
  | cons s ss ih =>
    unfold typesParam at h
    split at h
    · rename_i t ts' h1 h2
      cases h
      intro k hk
      rcases List.mem_cons.1 hk with hk | hk
      · subst hk
        unfold etypeValue at h1
        repeat' split at h1
        all_goals cases h1
      · exact ih h2 k hk
    · cases h

theorem intParam_fits {q : Values} {k : Str} {n : Int} (h : intParam q k = some n) : FitsInt64 n := by
  unfold intParam at h
  split at h
  · cases h; unfold FitsInt64; norm_num
  · exact ⟨((parseInt64_iff _ _).1 h).1, ((parseInt64_iff _ _).1 h).2.1⟩

/-- Whatever a gateway reads from the parameters of a request can be sent to a node. -/
theorem gatewayRead_valid {id : Str} {q : Values} {req : ReadRequest} (h : gatewayRead id q = some req) :
    ValidReadRequest req ∧ ∀ k, EType.other k ∉ req.types := by
  unfold gatewayRead at h
  split at h
  · rename_i s e l ts h1 h2 h3 h4
    cases h
    have hk := typesParam_no_other h4
    refine ⟨⟨intParam_fits h1, intParam_fits h2, intParam_fits h3, ?_⟩, hk⟩
    intro t ht
    cases t with
    | other k => exact absurd ht (hk k)
    | _ => trivial
  · cases h

theorem door_valid {methodOk : Str → Bool} {oauth : Str → Option UserCtx} {auth : Str → Str → Bool}
    {related : List Str → Str → Option Expansions} {order : List Str → List Str}
    {parse : Str → Option PExpr} {print : PExpr → Str} {r : WebReq} {req : ReadRequest}
    (h : door false methodOk oauth auth related order parse print r = some (.read req)) :
    ValidReadRequest req ∧ ∀ k, EType.other k ∉ req.types := by
  unfold door at h
  cases hr : proxyRoute r.path with
  | read id =>
    rw [hr] at h
    dsimp only at h
    cases hh : readHandler oauth auth r.authorization id with
    | status n => rw [hh] at h; cases h
    | forward x =>
      rw [hh] at h
      dsimp only at h
      obtain ⟨id', hid, hg⟩ := gatewayCall_read (proxyRoute_read hr).1 h
      unfold gatewayReadCall at hg
      obtain ⟨req', h1, h2⟩ := Option.map_eq_some_iff.1 hg
      simp only [Bool.false_eq_true, if_false, Backend.read.injEq] at h2
      subst h2
      exact gatewayRead_valid h1
  | query =>
    rw [hr] at h
    dsimp only at h
    cases hh : queryHandler oauth (fun c _ id => auth id c.token) related order parse r.authorization
        ((r.params.first "query".toList).getD []) with
    | status n => rw [hh] at h; cases h
    | forward e =>
      rw [hh] at h
      dsimp only at h
      rcases gatewayCall_query (r := { r with params := r.params.set "query".toList (print e) })
        (proxyRoute_query hr) h with h | h <;> cases h
  | info =>
    rw [hr] at h
    dsimp only at h
    unfold gatewayCall at h
    rw [if_pos (proxyRoute_info hr)] at h
    cases h
  | metaRoute => rw [hr] at h; cases h
  | redirect w => rw [hr] at h; cases h
  | notFound => rw [hr] at h; cases h

section
variable (methodOk : Str → Bool) (oauth : Str → Option UserCtx) (auth : Str → Str → Bool)
  (related : List Str → Str → Option Expansions) (order : List Str → List Str)
  (parse : Str → Option PExpr) (print : PExpr → Str) (compile : Str → Option (Str → Bool)) (now : Int)

/-- From what the nodes answer to what the user gets, for any cluster and any request that the
auth proxy and the gateway turn into the request `q`. -/
theorem door_through {c : Cluster} {r : WebReq} {q : ReadRequest}
    (hdoor : door false methodOk oauth auth related order parse print r = some (.read q))
    (hsize : (readReqProto.encode q).length ≤ grpcMaxMessage)
    (hreq : readReqProto.decode (readReqProto.encode q) = some q) {j : Nat} {P : List WireEnvelope → Prop}
    (hnode : ∀ hops i, ReadAt c.lk q.sourceId j hops (some i) → ∃ ws : List WireEnvelope, (∀ e ∈ ws, Arrived e) ∧ P ws ∧
      localRead compile now (c.store i) q = some (.ok (ws.map envelopeCode))) :
    (∀ hops i, ReadAt c.lk q.sourceId j hops (some i) →
      ∃ out, ReadThrough methodOk oauth auth related order parse print compile now c j r out) ∧
    ∀ out, ReadThrough methodOk oauth auth related order parse print compile now c j r out →
      ∃ ws, P ws ∧ (out = some ws ∨
        out = none ∧ grpcMaxMessage < (readRespProto.encode (some ws)).length) := by
  constructor
  · intro hops i hex
    obtain ⟨ws, harr, -, hi⟩ := hnode hops i hex
    obtain ⟨out, hout⟩ := comesBack_total harr hops
    exact ⟨out, _, hops, i, _, hdoor, hex, ⟨hsize, _, _, _, _, hreq, hi, rfl, sameBatch_self harr, rfl⟩, hout⟩
  · rintro out ⟨q', hops, i, resp, hq, hat, ⟨_, q', es, ws, w, hdec, hloc, hws, hsame, rfl⟩, hback⟩
    rw [hdoor] at hq
    injection hq with hq
    injection hq with hq
    subst hq
    rw [hreq] at hdec
    injection hdec with hdec
    subst hdec
    obtain ⟨ws', harr, hP, hread⟩ := hnode hops i hat
    rw [hread] at hloc
    injection hloc with hloc
    injection hloc with hloc
    rw [← hloc] at hws
    have := (List.map_injective_iff.2 envelopeCode_inj) hws
    subst this
    refine ⟨ws, hP, ?_⟩
    by_cases hm : (readRespProto.encode (some ws)).length ≤ grpcMaxMessage
    · exact .inl (comesBack_fits harr (fun w hw => by rw [answer_len hw]; exact hm) hsame hback)
    · exact .inr ⟨comesBack_large (by rw [answer_len hsame]; omega) hback, by omega⟩

/-- The same for a request of the client library. -/
theorem fair_through {c : Cluster} {id : Str} {start : Int} {opts : List ReadOpt} {r : WebReq}
    (hfair : FairRead methodOk oauth auth compile id start opts r) {j : Nat} {P : List WireEnvelope → Prop}
    (hnode : ∀ hops i, ReadAt c.lk id j hops (some i) → ∃ ws : List WireEnvelope, (∀ e ∈ ws, Arrived e) ∧ P ws ∧
      localRead compile now (c.store i) (asked id start opts) = some (.ok (ws.map envelopeCode))) :
    (∀ hops i, ReadAt c.lk id j hops (some i) →
      ∃ out, ReadThrough methodOk oauth auth related order parse print compile now c j r out) ∧
    ∀ out, ReadThrough methodOk oauth auth related order parse print compile now c j r out →
      ∃ ws, P ws ∧ (out = some ws ∨
        out = none ∧ grpcMaxMessage < (readRespProto.encode (some ws)).length) := by
  obtain ⟨hs, ho, hk, hwin, hlim, hfil, hsize, htarget, ⟨hid, hn, hcol⟩, hmeth, hmay⟩ := hfair
  obtain ⟨hv, hkn⟩ := asked_valid id start opts hs ho hk
  have hdoor : door false methodOk oauth auth related order parse print r = some (.read (asked id start opts)) := by
    obtain ⟨q, hseen, hasked⟩ := C132_read id start opts hs ho hk
    have hsame := Option.some.inj (htarget.symm.trans hseen)
    have hpath : r.path = _ := congrArg Prod.fst hsame
    have hparams : r.params = q := congrArg Prod.snd hsame
    clear hsame hseen htarget
    rw [C75_served_partial methodOk oauth auth related order parse print r id hpath hid hn hcol hmeth hmay, hparams, hasked]
    rfl
  clear htarget
  exact door_through methodOk oauth auth related order parse print compile now (q := asked id start opts) hdoor hsize
    (C115_read_request _ hv (max_lt hsize)) hnode

/-- A request that the client makes is not refused by a store. -/
theorem fair_accepted {id : Str} {start : Int} {opts : List ReadOpt} {r : WebReq}
    (hfair : FairRead methodOk oauth auth compile id start opts r) (st : Store) (err : ReadError) :
    localRead compile now st (asked id start opts) ≠ some (.error err) := by
  intro he
  rcases (C24_rejected_iff compile now st _).1 ⟨err, he⟩ with h1 | h1 | h1 | h1
  · have := hfair.window
    have hst : (asked id start opts).start = start := rfl
    rw [hst] at h1
    exact this.elim h1.1 (fun h => absurd h1.2 (not_lt.2 h))
  · exact absurd hfair.limit.2 (by omega)
  · exact absurd hfair.limit.1 (by omega)
  · exact hfair.filter.elim h1.1 (fun h => h h1.2)

/-- **At any time a user gets nothing but what was sent.** After any history of Sends, deliveries,
losses, new tables, crashes and prunings, what a user with the right to read a source gets is part of what
was sent for it that matches the request, each envelope no more often than it was sent, and in
the order in which a store holds it; or nothing, if that is too large for a grpc message. -/
theorem C167_only {cfg : Config} {n : Nat} {L : Str → List Nat} {evs : List PruneEvent} {c : Cluster}
    {posts : List SendReq} (hcl : AnyHistory cfg n L evs c posts)
    {id : Str} {start : Int} {opts : List ReadOpt} {r : WebReq}
    (hfair : FairRead methodOk oauth auth compile id start opts r) (j : Nat) :
    (∀ hops i, ReadAt c.lk id j hops (some i) →
      ∃ out, ReadThrough methodOk oauth auth related order parse print compile now c j r out) ∧
    ∀ out, ReadThrough methodOk oauth auth related order parse print compile now c j r out →
      ∃ log ws, SomeWire log (postedFor posts id) ∧
        ws.Sublist (matching compile now (asked id start opts) log) ∧
        (out = some ws ∨ out = none ∧ grpcMaxMessage < (readRespProto.encode (some ws)).length) := by
  have ha := hcl.arrived
  have hc := hcl.some
  obtain ⟨hv, hkn⟩ := asked_valid id start opts hfair.begin hfair.range hfair.known
  have key := fair_through methodOk oauth auth related order parse print compile now (c := c) hfair (j := j)
    (P := fun ws => ∃ log, SomeWire log (postedFor posts id) ∧
      ws.Sublist (matching compile now (asked id start opts) log)) (by
    intro hops i _
    rcases read_as_get compile now (c.store i) (asked id start opts) hkn with ⟨err, he⟩ | ⟨a, res, h1, h2, h3, h4, h5⟩
    · exact absurd he (fair_accepted methodOk oauth auth compile now hfair _ err)
    · obtain ⟨ops, o1, hsome⟩ := node_holds hcl i
      have hsrc : (asked id start opts).sourceId = id := rfl
      rw [hsrc] at h2
      obtain ⟨g1, -⟩ := C02_read_order hc o1 h2
      rw [h5] at g1
      unfold readOrder at g1
      rw [h4] at g1
      obtain ⟨log, hl1, hl2⟩ := some_code (hsome id)
      rw [← hl2, matching_code] at g1
      obtain ⟨ws, hw1, hw2⟩ := List.sublist_map_iff.1 g1
      refine ⟨ws, ?_, ⟨log, hl1, hw1⟩, by rw [h1, hw2]⟩
      intro e he
      exact arrived_matching (fun e he => postedFor_arrived ha e (someWire_mem hl1 he)) e (hw1.subset he))
  refine ⟨key.1, fun out hout => ?_⟩
  obtain ⟨ws, ⟨log, h1, h2⟩, h3⟩ := key.2 out hout
  exact ⟨log, ws, h1, h2, h3⟩

/-- **Whatever request anybody makes**, with whatever path, parameters and token, after any
history: if it is answered as a Read, then the user may read the source (or the one whose id is
followed by a colon, see C75), and gets part of what was sent for it that matches the request, in
the order of time if its equal times are spread out; or nothing, if that is too large for a grpc message. -/
theorem C167_any {cfg : Config} {n : Nat} {L : Str → List Nat} {evs : List PruneEvent} {c : Cluster}
    {posts : List SendReq} (hcl : AnyHistory cfg n L evs c posts) {r : WebReq} {j : Nat}
    {out : Option (List WireEnvelope)}
    (hout : ReadThrough methodOk oauth auth related order parse print compile now c j r out) :
    ∃ q, door false methodOk oauth auth related order parse print r = some (.read q) ∧
      (MayRead oauth auth r.authorization q.sourceId ∨ MayRead oauth auth r.authorization (q.sourceId ++ [':'])) ∧
      ∃ log ws, SomeWire log (postedFor posts q.sourceId) ∧
        ws.Sublist (matching compile now q log) ∧
        (SpreadWire (postedFor posts q.sourceId) → log.Pairwise fun x y => x.timestamp ≤ y.timestamp) ∧
        (out = some ws ∨ out = none ∧ grpcMaxMessage < (readRespProto.encode (some ws)).length) := by
  have ha := hcl.arrived
  have hc := hcl.some
  obtain ⟨q, hops, i, resp, hdoor, hat, ⟨hsize, q', es, ws, w, hdec, hloc, hws, hsame, rfl⟩, hback⟩ := hout
  obtain ⟨hv, hkn⟩ := door_valid hdoor
  rw [C115_read_request _ hv (max_lt hsize)] at hdec
  injection hdec with hdec
  subst hdec
  refine ⟨q, hdoor, C75_read methodOk oauth auth related order parse print r q hdoor, ?_⟩
  rcases read_as_get compile now (c.store i) q hkn with ⟨err, he⟩ | ⟨a, res, h1, h2, h3, h4, h5⟩
  · rw [he] at hloc
    injection hloc with hloc
    cases hloc
  · rw [h1] at hloc
    injection hloc with hloc
    injection hloc with hloc
    subst hloc
    obtain ⟨ops, o1, hput⟩ := node_has hcl i
    have hsome := fun id => someOf_trans (stored_sub_put hc o1 id) (hput id)
    obtain ⟨g1, -⟩ := C02_read_order hc o1 h2
    rw [h5] at g1
    unfold readOrder at g1
    rw [h4] at g1
    obtain ⟨log, hl1, hl2⟩ := some_code (hsome q.sourceId)
    rw [← hl2, matching_code] at g1
    obtain ⟨ws', hw1, hw2⟩ := List.sublist_map_iff.1 g1
    rw [hw2] at hws
    have := (List.map_injective_iff.2 envelopeCode_inj) hws
    subst this
    have harr : ∀ e ∈ ws, Arrived e := fun e he =>
      arrived_matching (fun e he => postedFor_arrived ha e (someWire_mem hl1 he)) e (hw1.subset he)
    refine ⟨log, ws, hl1, hw1, fun hs => ?_, ?_⟩
    · have := (C03_spread_partial hc o1 (spread_some (hput q.sourceId) (spread_code hs)) h2).1
      rw [← hl2] at this
      exact (List.pairwise_map (f := envelopeCode) (R := fun x y => x.timestamp ≤ y.timestamp)).1 this
    by_cases hm : (readRespProto.encode (some ws)).length ≤ grpcMaxMessage
    · exact .inl (comesBack_fits harr (fun w hw => by rw [answer_len hw]; exact hm) hsame hback)
    · exact .inr ⟨comesBack_large (by rw [answer_len hsame]; omega) hback, by omega⟩

/-- **For a user, too, the cluster recovers.** Whatever happened and was pruned before, from a time on at which
all nodes look up a source at the same nodes, a user with the right to read the source gets all
of what was sent for it since then that matches the request, in the order of time, together with
nothing but some of what was sent before, at whatever node the request enters. -/
theorem C167_recovers_partial {cfg : Config} {n : Nat} {L : Str → List Nat} {pre : List PruneEvent}
    {post : List XEvent} {c : Cluster} {before after : List SendReq} {owners : List Nat} {id : Str}
    (hcl : Recovered cfg n L pre post c before after owners id)
    {start : Int} {opts : List ReadOpt} {r : WebReq}
    (hfair : FairRead methodOk oauth auth compile id start opts r)
    (hroom : ((postedFor (before ++ after) id).length : Int) <
      (if (asked id start opts).limit = 0 then 100 else (asked id start opts).limit)) {j : Nat} (hj : j < n)
    (hfits : ∀ log, RecoveredLog before after id log →
      (readRespProto.encode (some (wanted compile now (asked id start opts) log))).length ≤ grpcMaxMessage) :
    (∃ out, ReadThrough methodOk oauth auth related order parse print compile now c j r out) ∧
    ∀ out, ReadThrough methodOk oauth auth related order parse print compile now c j r out →
      ∃ log, RecoveredLog before after id log ∧ out = some (wanted compile now (asked id start opts) log) := by
  obtain ⟨hrun, hp1, hp2, ha, ht, hag, hne, hin, hcalm, hq, hs, hfew, hc, hcap⟩ := hcl
  obtain ⟨hv, hkn⟩ := asked_valid id start opts hfair.begin hfair.range hfair.known
  have e1 := sentBy_posted hp1 (fun r hr => ha r (List.mem_append_left _ hr)) id
  have e2 := sentBy_posted hp2 (fun r hr => ha r (List.mem_append_right _ hr)) id
  have e3 : sentBy (stepsOf pre ++ post) id = (postedFor (before ++ after) id).map envelopeCode := by
    rw [postedFor_append, List.map_append, ← e1, ← e2]
    simp [sentBy]
  obtain ⟨⟨hops, res, hex⟩, hall⟩ := C156_pruned_partial hc hrun ht hag hne hin hcalm hq
    (by rw [e3]; exact spread_code hs) (fun ts => by rw [e3, howMany_code]; exact hfew ts)
    (by rw [e3, List.length_map]; exact hcap) hj
  have key := fair_through methodOk oauth auth related order parse print compile now (c := c) hfair (j := j)
    (P := fun ws => ∃ log, RecoveredLog before after id log ∧ ws = wanted compile now (asked id start opts) log) (by
    intro hops i hat
    obtain ⟨-, k, -, hk, old, hold, log', hperm, hsort, hans⟩ := hall hops _ hat
    injection hk with hk
    subst hk
    rw [e1] at hold
    obtain ⟨oldw, ho1, rfl⟩ := some_code hold
    rw [e2, ← List.map_append] at hperm hans
    obtain ⟨log, hl1, rfl⟩ := perm_code hperm
    have hrec : RecoveredLog before after id log :=
      ⟨⟨oldw, ho1, hl1⟩, (List.pairwise_map (f := envelopeCode) (R := fun x y => x.timestamp ≤ y.timestamp)).1 hsort⟩
    have harr : ∀ e ∈ log, Arrived e := by
      intro e he
      refine postedFor_arrived ha (src := id) e ?_
      rw [postedFor_append]
      rcases List.mem_append.1 (hl1.mem_iff.1 he) with h | h
      · exact List.mem_append_left _ (someWire_mem ho1 h)
      · exact List.mem_append_right _ h
    have hlen : (oldw ++ postedFor after id).length ≤ (postedFor (before ++ after) id).length := by
      obtain ⟨rest, hrest⟩ := ho1
      have := hrest.length_eq
      rw [postedFor_append]
      simp only [List.length_append] at this ⊢
      omega
    refine ⟨_, arrived_wanted harr, ⟨log, hrec, rfl⟩, ?_⟩
    rw [← wanted_code]
    rcases hans compile now (asked id start opts) rfl hkn with ⟨err, he⟩ | ⟨res, g1, all, g2, -, g4, -⟩
    · exact absurd he (fair_accepted methodOk oauth auth compile now hfair _ err)
    · rw [g1, g4 (by rw [List.length_map]; omega), g2, List.take_of_length_le]
      refine le_trans (List.length_filter_le ..) (le_trans (List.length_filterMap_le ..)
          (le_trans (List.length_filter_le ..) ?_))
      have : (log.map envelopeCode).length = (oldw ++ postedFor after id).length := by
        rw [List.length_map, hl1.length_eq]
      split <;> simp only [List.length_reverse, this] <;> omega)
  constructor
  · obtain ⟨-, k, -, rfl, -⟩ := hall hops res hex
    exact key.1 hops k hex
  · intro out hout
    obtain ⟨ws, ⟨log, h1, rfl⟩, h3⟩ := key.2 out hout
    refine ⟨log, h1, h3.elim (fun h => h) fun h => ?_⟩
    exact absurd h.2 (not_lt.2 (hfits log h1))

/-- The same for requests with limits that do not leave room for all of the source: what the user
gets is a first part of what matches, and if it is not all of it, it is as much as the limit. -/
theorem C167_pages_partial {cfg : Config} {n : Nat} {L : Str → List Nat} {pre : List PruneEvent}
    {post : List XEvent} {c : Cluster} {before after : List SendReq} {owners : List Nat} {id : Str}
    (hcl : Recovered cfg n L pre post c before after owners id)
    {start : Int} {opts : List ReadOpt} {r : WebReq}
    (hfair : FairRead methodOk oauth auth compile id start opts r) {j : Nat} (hj : j < n) :
    (∃ out, ReadThrough methodOk oauth auth related order parse print compile now c j r out) ∧
    ∀ out, ReadThrough methodOk oauth auth related order parse print compile now c j r out →
      ∃ ws, (∃ log, RecoveredLog before after id log ∧ ws <+: matching compile now (asked id start opts) log ∧
        (ws = matching compile now (asked id start opts) log ∨
          (if (asked id start opts).limit = 0 then 100 else (asked id start opts).limit) ≤ (ws.length : Int))) ∧
        (out = some ws ∨ out = none ∧ grpcMaxMessage < (readRespProto.encode (some ws)).length) := by
  obtain ⟨hrun, hp1, hp2, ha, ht, hag, hne, hin, hcalm, hq, hs, hfew, hc, hcap⟩ := hcl
  obtain ⟨hv, hkn⟩ := asked_valid id start opts hfair.begin hfair.range hfair.known
  have e1 := sentBy_posted hp1 (fun r hr => ha r (List.mem_append_left _ hr)) id
  have e2 := sentBy_posted hp2 (fun r hr => ha r (List.mem_append_right _ hr)) id
  have e3 : sentBy (stepsOf pre ++ post) id = (postedFor (before ++ after) id).map envelopeCode := by
    rw [postedFor_append, List.map_append, ← e1, ← e2]
    simp [sentBy]
  obtain ⟨⟨hops, res, hex⟩, hall⟩ := C156_pruned_partial hc hrun ht hag hne hin hcalm hq
    (by rw [e3]; exact spread_code hs) (fun ts => by rw [e3, howMany_code]; exact hfew ts)
    (by rw [e3, List.length_map]; exact hcap) hj
  have key := fair_through methodOk oauth auth related order parse print compile now (c := c) hfair (j := j)
    (P := fun ws => ∃ log, RecoveredLog before after id log ∧ ws <+: matching compile now (asked id start opts) log ∧
      (ws = matching compile now (asked id start opts) log ∨
        (if (asked id start opts).limit = 0 then 100 else (asked id start opts).limit) ≤ (ws.length : Int))) (by
    intro hops i hat
    obtain ⟨-, k, -, hk, old, hold, log', hperm, hsort, hans⟩ := hall hops _ hat
    injection hk with hk
    subst hk
    rw [e1] at hold
    obtain ⟨oldw, ho1, rfl⟩ := some_code hold
    rw [e2, ← List.map_append] at hperm hans
    obtain ⟨log, hl1, rfl⟩ := perm_code hperm
    have hrec : RecoveredLog before after id log :=
      ⟨⟨oldw, ho1, hl1⟩, (List.pairwise_map (f := envelopeCode) (R := fun x y => x.timestamp ≤ y.timestamp)).1 hsort⟩
    have harr : ∀ e ∈ log, Arrived e := by
      intro e he
      refine postedFor_arrived ha (src := id) e ?_
      rw [postedFor_append]
      rcases List.mem_append.1 (hl1.mem_iff.1 he) with h | h
      · exact List.mem_append_left _ (someWire_mem ho1 h)
      · exact List.mem_append_right _ h
    rcases hans compile now (asked id start opts) rfl hkn with ⟨err, he⟩ | ⟨res, g1, all, g2, g3, -, g5⟩
    · exact absurd he (fair_accepted methodOk oauth auth compile now hfair _ err)
    · rw [matching_code] at g2
      subst g2
      obtain ⟨rest, hr⟩ := g3
      obtain ⟨ws, rest', hm, rfl, -⟩ := List.map_eq_append_iff.1 hr.symm
      refine ⟨ws, fun e he => arrived_matching harr e (by rw [hm]; exact List.mem_append_left _ he),
        ⟨log, hrec, ⟨rest', hm.symm⟩, ?_⟩, g1⟩
      rcases g5 with g5 | g5
      · exact .inl ((List.map_injective_iff.2 envelopeCode_inj) g5)
      · rw [List.length_map] at g5
        exact .inr g5)
  refine ⟨?_, key.2⟩
  obtain ⟨-, k, -, rfl, -⟩ := hall hops res hex
  exact key.1 hops k hex

end

/-! ### A cluster that meets the hypotheses -/

/-- A node takes a log for another one and crashes before it has passed it on, and is given its
ranges again. -/
def lostLog (m : Option Message) : List XEvent :=
  [] ++ [.client 0 { envelopes := some [storedLog 1 m] }] ++
    [.crash 0 (fun b => if b = 1 then [storedLog 1 m] else [])] ++ [.retable 0 (fun _ => [1])]

/-- It takes another one, and passes it on. -/
def laterLog (m : Option Message) : List XEvent :=
  [] ++ [.client 0 { envelopes := some [storedLog 2 m] }] ++ [.deliver 0 1 [storedLog 2 m]]

theorem lostLog_runs (m : Option Message) : ∃ c : Cluster,
    XRun { maxPerSource := 5 } (newCluster { maxPerSource := 5 } 2 (fun _ _ => [1])) (lostLog m) c ∧
    c.lk = (fun _ _ => [1]) ∧ c.store 1 = newStore { maxPerSource := 5 } := by
  refine ⟨_, XRun.snoc (XRun.snoc (XRun.snoc (XRun.nil _) (.client (.client (show 0 < 2 by decide)
      ⟨fun _ => true, _, _, .proxied _ rfl [storedLog 1 m] rfl [(1, [storedLog 1 m])] (List.Perm.refl _), .nil _, rfl⟩)))
      (xcrash (show 0 < 2 by decide) ?_)) (.retable .retable), ?_, rfl⟩
  · intro b
    simp only [newCluster]
    by_cases h2 : b = 1
    · simp [h2, sentTo]
    · have : ¬ 1 = b := fun h => h2 h.symm
      simp_all [sentTo]
  · funext j s
    simp only [newCluster]
    by_cases h : j = 0 <;> simp [h]

theorem laterLog_runs (m m' : Option Message) : ∃ c : Cluster,
    XRun { maxPerSource := 5 } (newCluster { maxPerSource := 5 } 2 (fun _ _ => [1])) (lostLog m ++ laterLog m') c ∧
    ∀ j i, c.queue j i = [] := by
  have he : lostLog m ++ laterLog m' = [] ++ [.client 0 { envelopes := some [storedLog 1 m] }] ++
    [.crash 0 (fun b => if b = 1 then [storedLog 1 m] else [])] ++ [.retable 0 (fun _ => [1])] ++
    [.client 0 { envelopes := some [storedLog 2 m'] }] ++ [.deliver 0 1 [storedLog 2 m']] := rfl
  rw [he]
  refine ⟨_, XRun.snoc (XRun.snoc (XRun.snoc (XRun.snoc (XRun.snoc (XRun.nil _) (.client (.client (show 0 < 2 by decide)
      ⟨fun _ => true, _, _, .proxied _ rfl [storedLog 1 m] rfl [(1, [storedLog 1 m])] (List.Perm.refl _), .nil _, rfl⟩)))
      (xcrash (show 0 < 2 by decide) ?_)) (.retable .retable))
      (.client (.client (show 0 < 2 by decide)
        ⟨fun _ => true, _, _, .proxied _ rfl [storedLog 2 m'] rfl [(1, [storedLog 2 m'])] (List.Perm.refl _), .nil _, rfl⟩)))
      (.deliver (.deliver (rest := []) (show 1 < 2 by decide) (show 0 < 2 by decide) (by decide) (by rfl)
        ⟨fun _ => true, _, _, .localOnly _ rfl, .cons 0 rfl (.nil _), rfl⟩)), ?_⟩
  · intro b
    simp only [newCluster]
    by_cases h2 : b = 1
    · simp [h2, sentTo]
    · have : ¬ 1 = b := fun h => h2 h.symm
      simp_all [sentTo]
  · intro j i
    simp only [newCluster]
    by_cases h1 : j = 0 <;> by_cases h3 : j = 1 <;> by_cases h4 : i = 1 <;> simp_all [sentTo] <;>
      first | exact fun h => absurd h.symm h4 | exact fun _ h => absurd h.symm h4

theorem oneLog_bytes : (wireEnvelopeProto.encode (appLog 1 [104, 105])).length ≤ 22 ∧
    (wireEnvelopeProto.encode (appLog 2 [33])).length ≤ 22 := by
  have hmax : grpcMaxMessage = 4194304 := rfl
  exact ⟨(appLog_len 1 (.inl rfl) [104, 105] (by rw [hmax]; decide)).2,
    le_trans (appLog_len 2 (.inr rfl) [33] (by rw [hmax]; decide)).2 (by decide)⟩

theorem postedOne {t : Int} {p : List UInt8} {m : Option Message} (hm : m = (appLog t p).message.map messageCode)
    (ha : Arrived (appLog t p)) (hb : (wireEnvelopeProto.encode (appLog t p)).length ≤ 22) :
    Posted [.client 0 { envelopes := some [storedLog t m] }] [{ envelopes := some [appLog t p] }] := by
  subst hm
  have hmax : grpcMaxMessage = 4194304 := rfl
  exact List.Forall₂.cons (posted_one (r := { envelopes := some [appLog t p] }) rfl (by simpa using ha)
      (answer_bound (ws := [appLog t p]) (B := 22) (by simpa using hb)
        (by rw [hmax]; show 1 * (22 + 5) + 5 ≤ 4194304; omega))) List.Forall₂.nil

theorem lostLog_fair (m : Option Message) : FairTables (fun _ => [1]) (lostLog m) := by
  refine ⟨fun _ => by simp, fun i l hm id => ?_⟩
  simp [lostLog] at hm
  rw [hm.2]; simp

theorem lostLog_history : ∃ (evs : List XEvent) (c : Cluster), AnyHistory { maxPerSource := 5 } 2 (fun _ => [1]) (evs.map .step) c
      [{ envelopes := some [appLog 1 [104, 105]] }] ∧
    (∀ k, StaysUp 1 evs ∧ ∀ i lost, XEvent.drop i k lost ∉ evs) ∧
    c.lk = (fun _ _ => [1]) ∧ c.store 1 = newStore { maxPerSource := 5 } := by
  have a1 := appLog_arrived 1 (by unfold FitsInt64; norm_num) [104, 105] (by decide)
  obtain ⟨c, hrun, hlk, hst⟩ := lostLog_runs ((appLog 1 [104, 105]).message.map messageCode)
  refine ⟨_, c, any_plain hrun (postedOne rfl a1 oneLog_bytes.1) ?_ (lostLog_fair _) (by decide), ?_, hlk, hst⟩
  · intro r hr e he
    rw [List.mem_singleton] at hr
    subst hr
    simp at he
    subst he
    exact a1
  · intro k
    refine ⟨fun lost h => ?_, fun i lost h => ?_⟩ <;> simp [lostLog] at h

/-- A log that was taken with an OK can be missing for good, though the node that owns it stayed
up and no request failed: the user who reads gets an answer without it. -/
theorem C167_acknowledged_false : ∃ (evs : List XEvent) (c : Cluster), AnyHistory { maxPerSource := 5 } 2 (fun _ => [1]) (evs.map .step) c
      [{ envelopes := some [appLog 1 [104, 105]] }] ∧
    (∀ k, StaysUp 1 evs ∧ ∀ i lost, XEvent.drop i k lost ∉ evs) ∧
    ∀ now j, j < 2 →
      (∃ out, ReadThrough (fun _ => true) doorUser (fun i _ => decide (i = "a".toList)) (fun _ _ => none) id
        (fun _ => none) (fun _ => []) (fun _ => none) now c j
        { method := "GET".toList, path := readOfA.1, params := readOfA.2, authorization := "t".toList } out) ∧
      ∀ out, ReadThrough (fun _ => true) doorUser (fun i _ => decide (i = "a".toList)) (fun _ _ => none) id
        (fun _ => none) (fun _ => []) (fun _ => none) now c j
        { method := "GET".toList, path := readOfA.1, params := readOfA.2, authorization := "t".toList } out →
        out = some [] := by
  obtain ⟨evs, c, h, hup, hlk, hst⟩ := lostLog_history
  refine ⟨evs, c, h, hup, fun now j hj => ?_⟩
  have htab : ∀ k, k < 2 → c.lk k "a".toList = [1] := fun k _ => by rw [hlk]
  obtain ⟨⟨hops, res, hex⟩, hall⟩ := readAt_owners htab (by simp) (by simp) hj
  have key := fair_through (fun _ => true) doorUser (fun i _ => decide (i = "a".toList)) (fun _ _ => none) id
    (fun _ => none) (fun _ => []) (fun _ => none) now (c := c) fairRead_a (j := j) (P := fun ws => ws = []) (by
      intro hops i hat
      obtain ⟨-, k, hk, he⟩ := hall hops _ hat
      injection he with he
      subst he
      rw [List.mem_singleton] at hk
      subst hk
      refine ⟨[], by simp, rfl, ?_⟩
      rw [hst]
      rfl)
  constructor
  · obtain ⟨-, k, -, rfl⟩ := hall hops res hex
    exact key.1 hops k hex
  · intro out hout
    obtain ⟨ws, rfl, h3⟩ := key.2 out hout
    refine h3.elim (fun h => h) fun h => ?_
    exact absurd h.2 (not_lt.2 (answer_bound (ws := []) (B := 0) (by simp) (by unfold grpcMaxMessage; decide)))

/-- A case of `C167_any` and `C167_only`: a read after a crash, which is answered. -/
example : ∃ (evs : List XEvent) (c : Cluster), AnyHistory { maxPerSource := 5 } 2 (fun _ => [1]) (evs.map .step) c
      [{ envelopes := some [appLog 1 [104, 105]] }] ∧
    ∃ r out, ReadThrough (fun _ => true) doorUser (fun i _ => decide (i = "a".toList)) (fun _ _ => none) id
        (fun _ => none) (fun _ => []) (fun _ => none) 5 c 0 r out := by
  obtain ⟨evs, c, h, -, hr⟩ := C167_acknowledged_false
  obtain ⟨out, hout⟩ := (hr 5 0 (by decide)).1
  exact ⟨evs, c, h, _, out, hout⟩

/-- A recovery before which no node pruned. -/
theorem recovered_plain {cfg : Config} {n : Nat} {L : Str → List Nat} {pre post : List XEvent} {c : Cluster}
    {before after : List SendReq} {owners : List Nat} {id : Str}
    (run : XRun cfg (newCluster cfg n (fun _ => L)) (pre ++ post) c)
    (postedBefore : Posted (clientsOf pre) before) (postedAfter : Posted (clientsOf post) after)
    (arrived : ∀ r ∈ before ++ after, ∀ e ∈ r.envelopes.getD [], Arrived e) (tables : FairTables L pre)
    (agree : ∀ j, j < n → tablesAfter L pre j id = owners) (owned : owners ≠ []) (inside : ∀ k ∈ owners, k < n)
    (calm : Calm owners id post) (quiet : ∀ i k, ∀ e ∈ c.queue i k, e.sourceId ≠ id)
    (spread : SpreadWire (postedFor (before ++ after) id))
    (few : ∀ ts, howManyWire (postedFor (before ++ after) id) ts ≤ cfg.maxFudge) (some : 1 ≤ cfg.maxPerSource)
    (fits : ((postedFor (before ++ after) id).length : Int) ≤ cfg.maxPerSource) :
    Recovered cfg n L (pre.map .step) post c before after owners id :=
  ⟨by rw [← List.map_append]; exact prune_none run, by rw [stepsOf_step]; exact postedBefore, postedAfter, arrived,
    by rw [stepsOf_step]; exact tables, by rw [stepsOf_step]; exact agree, owned, inside, calm, quiet, spread, few, some, fits⟩

theorem recovered_later : ∃ pre post c, Recovered { maxPerSource := 5 } 2 (fun _ => [1]) pre post c
    [{ envelopes := some [appLog 1 [104, 105]] }] [{ envelopes := some [appLog 2 [33]] }] [1] "a".toList := by
  have a1 := appLog_arrived 1 (by unfold FitsInt64; norm_num) [104, 105] (by decide)
  have a2 := appLog_arrived 2 (by unfold FitsInt64; norm_num) [33] (by decide)
  obtain ⟨c, hrun, hq⟩ := laterLog_runs ((appLog 1 [104, 105]).message.map messageCode)
    ((appLog 2 [33]).message.map messageCode)
  have hpf : postedFor ([{ envelopes := some [appLog 1 [104, 105]] }] ++ [{ envelopes := some [appLog 2 [33]] }])
      "a".toList = [appLog 1 [104, 105], appLog 2 [33]] := by
    simp [postedFor, appLog]
  refine ⟨_, _, c, recovered_plain hrun (postedOne rfl a1 oneLog_bytes.1) (postedOne rfl a2 oneLog_bytes.2) ?_ (lostLog_fair _) ?_
    (by simp) (by simp) ?_ ?_ ?_ ?_ (by decide) ?_⟩
  · intro r hr e he
    simp only [List.cons_append, List.nil_append, List.mem_cons, List.not_mem_nil, or_false] at hr
    rcases hr with rfl | rfl <;> simp at he <;> subst he
    · exact a1
    · exact a2
  · intro j hj
    have : j = 0 ∨ j = 1 := by omega
    rcases this with rfl | rfl <;> rfl
  · intro ev hev
    simp [laterLog] at hev
    rcases hev with rfl | rfl
    · rfl
    · trivial
  · intro i k e he
    rw [hq] at he
    cases he
  · rw [hpf]
    intro x hx y hy hlt
    simp only [List.mem_cons, List.not_mem_nil, or_false] at hx hy
    rcases hx with rfl | rfl <;> rcases hy with rfl | rfl
    · exact absurd hlt (lt_irrefl (1 : Int))
    · show (1 : Int) + howManyWire _ 1 ≤ 2
      simp [howManyWire, appLog]
    · exact absurd hlt (by show ¬ (2 : Int) < 1; omega)
    · exact absurd hlt (lt_irrefl (2 : Int))
  · intro ts
    rw [hpf]
    exact le_trans (List.length_filter_le ..) (by decide)
  · rw [hpf]; decide

/-- The only node takes a log, prunes it, and takes another. -/
theorem recovered_pruned : ∃ c1 c2 pre post c, PruneStep { maxPerSource := 5 } c1 (.prune 0) c2 ∧
    (c1.store 0).total = 1 ∧ (c2.store 0).total = 0 ∧ PruneEvent.prune 0 ∈ pre ∧
    Recovered { maxPerSource := 5 } 1 (fun _ => [0]) pre post c
      [{ envelopes := some [appLog 1 [104, 105]] }] [{ envelopes := some [appLog 2 [33]] }] [0] "a".toList ∧ FairTables (fun _ => [0]) (stepsOf pre ++ post) := by
  have a1 := appLog_arrived 1 (by unfold FitsInt64; norm_num) [104, 105] (by decide)
  have a2 := appLog_arrived 2 (by unfold FitsInt64; norm_num) [33] (by decide)
  have hpf : postedFor ([{ envelopes := some [appLog 1 [104, 105]] }] ++ [{ envelopes := some [appLog 2 [33]] }])
      "a".toList = [appLog 1 [104, 105], appLog 2 [33]] := by
    simp [postedFor, appLog]
  generalize hm : (appLog 1 [104, 105]).message.map messageCode = m
  generalize hm' : (appLog 2 [33]).message.map messageCode = m'
  obtain ⟨s1, q1, hrun1, hq1, ht1, hg1⟩ : ∃ s1 q1, PruneRun { maxPerSource := 5 }
      (newCluster { maxPerSource := 5 } 1 (fun _ _ => [0]))
      ([] ++ [.step (.client 0 { envelopes := some [storedLog 1 m] })]) ⟨1, fun _ _ => [0], s1, q1⟩ ∧
      (∀ j i, q1 j i = []) ∧ (s1 0).total = 1 ∧ (s1 0).g.count = 1 := by
    refine ⟨_, _, PruneRun.snoc (.nil _) (.step (.client (.client (show 0 < 1 by decide)
      ⟨fun _ => true, _, _, .proxied _ rfl [storedLog 1 m] rfl [(0, [storedLog 1 m])] (List.Perm.refl _),
        .cons 0 rfl (.nil _), rfl⟩))), ?_, rfl, rfl⟩
    intro j i
    simp only [newCluster]
    by_cases h1 : j = 0 <;> by_cases h3 : i = 0 <;> simp_all [sentTo] <;> omega
  obtain ⟨-, hb1⟩ := prune_books (by decide) hrun1
  obtain ⟨ops, o1, -⟩ := hb1 0
  have o1 : Run _ ops (s1 0) := o1
  have hreq : pruneRequest (fun _ => 1) (s1 0) = 1 := by simp [pruneRequest, hg1]
  obtain ⟨st', ht0⟩ : ∃ st', truncate (fun _ => 1) (s1 0).index 0 (s1 0) = some st' := by
    have := (C13_prune_crash_iff (by decide) o1 (fun _ => 1) (List.Perm.refl _) 0).not.2 (by rw [hreq, ht1]; omega)
    exact Option.ne_none_iff_exists'.1 this
  have hst0 := (C12_prune_oldest (by decide) o1 (List.Perm.refl _) ht0).1
  rw [hreq, ht1] at hst0
  have hpr : PruneStep { maxPerSource := 5 } ⟨1, fun _ _ => [0], s1, q1⟩ (.prune 0)
      ⟨1, fun _ _ => [0], fun k => if k = 0 then st' else s1 k, q1⟩ :=
    .prune (c := ⟨1, fun _ _ => [0], s1, q1⟩) (show 0 < 1 by decide) (List.Perm.refl _) ht0
  obtain ⟨st2, hp2⟩ := putAll_total (by decide) (o1.snoc (op := .truncate 0 (fun _ => 1) _) (List.Perm.refl _) ht0)
    [("a".toList, storedLog 2 m')]
  have hrun2 := hrun1.snoc hpr
  have hst : ∀ e, stepsOf ([] ++ [PruneEvent.step e] ++ [.prune 0]) = [e] := fun _ => rfl
  refine ⟨_, _, _, [.client 0 { envelopes := some [storedLog 2 m'] }], _, hpr, ht1, by show st'.total = 0; omega, by simp,
    ⟨hrun2.snoc (.step (.client (.client (show 0 < 1 by decide)
      ⟨fun _ => true, _, st2, .proxied _ rfl [storedLog 2 m'] rfl [(0, [storedLog 2 m'])] (List.Perm.refl _), hp2, rfl⟩))),
      ?_, ?_, ?_, ?_, ?_, by simp, by simp, ?_, ?_, ?_, ?_, by decide, ?_⟩, ?_⟩
  · rw [hst]
    subst hm
    exact postedOne rfl a1 oneLog_bytes.1
  · subst hm'
    exact postedOne rfl a2 oneLog_bytes.2
  · intro r hr e he
    simp only [List.cons_append, List.nil_append, List.mem_cons, List.not_mem_nil, or_false] at hr
    rcases hr with rfl | rfl <;> simp at he <;> subst he
    · exact a1
    · exact a2
  · rw [hst]
    exact ⟨fun _ => by simp, fun i l hm id => by simp at hm⟩
  · intro j hj
    rw [hst]
    rfl
  · intro ev hev
    rw [List.mem_singleton] at hev
    subst hev
    rfl
  · intro i k e he
    simp only [hq1] at he
    exfalso
    revert he
    by_cases h1 : i = 0 <;> by_cases h3 : k = 0 <;> simp [h1, h3, sentTo] <;> omega
  · rw [hpf]
    intro x hx y hy hlt
    simp only [List.mem_cons, List.not_mem_nil, or_false] at hx hy
    rcases hx with rfl | rfl <;> rcases hy with rfl | rfl
    · exact absurd hlt (lt_irrefl (1 : Int))
    · show (1 : Int) + howManyWire _ 1 ≤ 2
      simp [howManyWire, appLog]
    · exact absurd hlt (by show ¬ (2 : Int) < 1; omega)
    · exact absurd hlt (lt_irrefl (2 : Int))
  · intro ts
    rw [hpf]
    exact le_trans (List.length_filter_le ..) (by decide)
  · rw [hpf]; decide
  · rw [hst]
    exact ⟨fun _ => by simp, fun i l hm id => by simp at hm⟩

/-- A case of `C167_pages_partial`: what its theorem says of the log that was sent after the recovery. -/
example : ∃ pre post c, Recovered { maxPerSource := 5 } 2 (fun _ => [1]) pre post c
      [{ envelopes := some [appLog 1 [104, 105]] }] [{ envelopes := some [appLog 2 [33]] }] [1] "a".toList ∧
    ∀ now, ∃ out, ReadThrough (fun _ => true) doorUser (fun i _ => decide (i = "a".toList)) (fun _ _ => none) id
        (fun _ => none) (fun _ => []) (fun _ => none) now c 0
        { method := "GET".toList, path := readOfA.1, params := readOfA.2, authorization := "t".toList } out := by
  obtain ⟨pre, post, c, h⟩ := recovered_later
  exact ⟨pre, post, c, h, fun now => (C167_pages_partial _ _ _ _ _ _ _ _ now h fairRead_a (by decide)).1⟩

/-- A case of `C167_recovers_partial`: the user reads at any of the nodes, and gets the later log. -/
example : ∃ pre post c, Recovered { maxPerSource := 5 } 2 (fun _ => [1]) pre post c
      [{ envelopes := some [appLog 1 [104, 105]] }] [{ envelopes := some [appLog 2 [33]] }] [1] "a".toList ∧
    ∀ now, 2 < now → ∀ j, j < 2 →
      (∃ out, ReadThrough (fun _ => true) doorUser (fun i _ => decide (i = "a".toList)) (fun _ _ => none) id
        (fun _ => none) (fun _ => []) (fun _ => none) now c j
        { method := "GET".toList, path := readOfA.1, params := readOfA.2, authorization := "t".toList } out) ∧
      ∀ out, ReadThrough (fun _ => true) doorUser (fun i _ => decide (i = "a".toList)) (fun _ _ => none) id
        (fun _ => none) (fun _ => []) (fun _ => none) now c j
        { method := "GET".toList, path := readOfA.1, params := readOfA.2, authorization := "t".toList } out →
        ∃ ws, out = some ws ∧ appLog 2 [33] ∈ ws := by
  obtain ⟨pre, post, c, h⟩ := recovered_later
  refine ⟨pre, post, c, h, fun now hnow j hj => ?_⟩
  have hmax : grpcMaxMessage = 4194304 := rfl
  have hp1 : postedFor [{ envelopes := some [appLog 1 [104, 105]] }] "a".toList = [appLog 1 [104, 105]] := by
    simp [postedFor, appLog]
  have hp2 : postedFor [{ envelopes := some [appLog 2 [33]] }] "a".toList = [appLog 2 [33]] := by
    simp [postedFor, appLog]
  have hroom : ((postedFor ([{ envelopes := some [appLog 1 [104, 105]] }] ++ [{ envelopes := some [appLog 2 [33]] }])
      "a".toList).length : Int) <
      (if (asked "a".toList 0 []).limit = 0 then 100 else (asked "a".toList 0 []).limit) := by
    rw [postedFor_append, hp1, hp2]; decide
  obtain ⟨k1, k2⟩ := C167_recovers_partial (fun _ => true) doorUser (fun i _ => decide (i = "a".toList)) (fun _ _ => none) id
    (fun _ => none) (fun _ => []) (fun _ => none) now h fairRead_a hroom hj (by
    rintro log ⟨⟨old, ho, hl⟩, -⟩
    rw [hp1] at ho
    rw [hp2] at hl
    have hB : ∀ e ∈ log, (wireEnvelopeProto.encode e).length ≤ 22 := by
      intro e he
      rcases List.mem_append.1 (hl.mem_iff.1 he) with he | he
      · rw [List.mem_singleton.1 (someWire_mem ho he)]
        exact oneLog_bytes.1
      · rw [List.mem_singleton.1 he]
        exact oneLog_bytes.2
    have hw := wanted_len (compile := fun _ => none) (now := now) (q := asked "a".toList 0 []) (log := log) (B := 22) hB
    refine answer_bound hw.2 ?_
    rw [hmax]
    have h1 := hw.1
    have h2 : (if (asked "a".toList 0 []).limit = 0 then 100 else (asked "a".toList 0 []).limit).toNat = 100 := rfl
    rw [h2] at h1
    omega)
  refine ⟨k1, fun out hout => ?_⟩
  obtain ⟨log, ⟨⟨old, ho, hl⟩, -⟩, rfl⟩ := k2 out hout
  refine ⟨_, rfl, ?_⟩
  rw [hp1] at ho
  rw [hp2] at hl
  have hmem : appLog 2 [33] ∈ log := hl.mem_iff.2 (by simp)
  have hlen : log.length ≤ 2 := by
    obtain ⟨rest, hr⟩ := ho
    have h1 := hr.length_eq
    have h2 := hl.length_eq
    simp only [List.length_append, List.length_singleton] at h1 h2
    omega
  have hw : wanted (fun _ => none) now (asked "a".toList 0 []) log =
      ((((log.filter fun e => decide (0 ≤ e.timestamp) && decide (e.timestamp < now)).filterMap (wireProject none)).filter
        fun _ => true)).take 100 := rfl
  rw [hw, List.take_of_length_le]
  · simp only [List.filter_true, List.mem_filterMap, List.mem_filter]
    exact ⟨_, ⟨hmem, by rw [Bool.and_eq_true]; exact ⟨rfl, decide_eq_true hnow⟩⟩, rfl⟩
  · refine le_trans (List.length_filter_le ..) (le_trans (List.length_filterMap_le ..)
      (le_trans (List.length_filter_le ..) (by omega)))

end LogCache
