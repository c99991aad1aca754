import Verif.Spec.Status
import Verif.Props.Reader
import Verif.Props.Auth
import Verif.Spec.PromClient
/-!
# The status of an answer tells whose fault it was (C148)
-/
namespace LogCache
open Spec

theorem unservable_iff (compile : Str → Option (Str → Bool)) (now : Int) (st : Store) (req : ReadRequest) :
    (∃ err, localRead compile now st req = some (.error err)) ↔ Unservable compile req := by
  rw [C24_rejected_iff]
  unfold Unservable
  constructor
  · rintro (⟨h1, h2⟩ | h | h | h)
    · exact .inl ⟨h1, h2⟩
    · exact .inr (.inr (.inl h))
    · exact .inr (.inl h)
    · exact .inr (.inr (.inr h))
  · rintro (⟨h1, h2⟩ | h | h | h)
    · exact .inl ⟨h1, h2⟩
    · exact .inr (.inr (.inl h))
    · exact .inr (.inl h)
    · exact .inr (.inr (.inr h))

private theorem gatewayRead_id {id : Str} {q : Values} {req : ReadRequest} (h : gatewayRead id q = some req) :
    req.sourceId = id := by
  unfold gatewayRead at h
  split at h
  · cases h; rfl
  · cases h

private theorem nodeRead_local {compile : Str → Option (Str → Bool)} {now : Int} {st : Store} {lookup : Str → List Nat}
    {localIdx rnd : Nat} {ask : Nat → ReadRequest → GrpcAns (List Envelope)} {msg : Str} {req : ReadRequest}
    (h : localIdx ∈ lookup req.sourceId) :
    nodeRead compile now st lookup localIdx rnd ask msg req =
      match localRead compile now st req with
      | none => .error 14 msg
      | some (.error _) => .error 2 msg
      | some (.ok es) => .ok es := by
  unfold nodeRead egressRoute
  have hne : (lookup req.sourceId).isEmpty = false := by
    cases hl : lookup req.sourceId with
    | nil => rw [hl] at h; cases h
    | cons a b => rfl
  simp only [hne, if_pos h, Bool.false_eq_true, if_false, if_true]
  cases localRead compile now st req with
  | none => rfl
  | some r => cases r <;> rfl

/-- No error is answered with 200. -/
theorem httpStatusFromCode_error : ErrorStatus httpStatusFromCode := by
  intro c hc
  unfold httpStatusFromCode
  split <;> first | exact absurd rfl hc | decide

/-- What the gateway answers for a read, when the node it talks to owns the source: 400
exactly if a parameter cannot be read, 200 exactly if the node serves the request, 500
exactly if the request is one no node serves, and 503 if the node breaks. Missing: the
requests no node serves blame the service, not the request (below); reads of other nodes. -/
theorem C148_gateway_partial (compile : Str → Option (Str → Bool)) (now : Int) (st : Store) (lookup : Str → List Nat)
    (localIdx rnd : Nat) (ask : Nat → ReadRequest → GrpcAns (List Envelope)) (msg id : Str) (q : Values)
    (hown : localIdx ∈ lookup id) :
    let status := gatewayReadStatus (nodeRead compile now st lookup localIdx rnd ask msg) id q
    (status = 400 ↔ gatewayRead id q = none) ∧
    (status = 200 ↔ ∃ req es, gatewayRead id q = some req ∧ localRead compile now st req = some (.ok es)) ∧
    (status = 500 ↔ ∃ req, gatewayRead id q = some req ∧ Unservable compile req) ∧
    (status = 503 ↔ ∃ req, gatewayRead id q = some req ∧ localRead compile now st req = none) := by
  dsimp only
  unfold gatewayReadStatus
  cases hg : gatewayRead id q with
  | none => simp [httpStatusFromCode]
  | some req =>
    have hown' : localIdx ∈ lookup req.sourceId := by rw [gatewayRead_id hg]; exact hown
    have hu := unservable_iff compile now st req
    dsimp only
    rw [nodeRead_local hown']
    cases hl : localRead compile now st req with
    | none =>
      rw [hl] at hu
      simp [httpStatusFromCode, ← hu, hl]
    | some r =>
      cases r with
      | error e =>
        rw [hl] at hu
        have : Unservable compile req := hu.1 ⟨e, rfl⟩
        simp [httpStatusFromCode, this, hl]
      | ok es =>
        rw [hl] at hu
        have : ¬ Unservable compile req := fun h => by obtain ⟨_, h⟩ := hu.2 h; cases h
        simp [httpStatusFromCode, this, hl]

example : ∃ ops st, Run (newStore { maxPerSource := 5 }) ops st ∧
    let node := nodeRead (fun _ => none) 9 st (fun _ => [0]) 0 0 (fun _ _ => .error 14 []) []
    gatewayReadStatus node "a".toList [] = 200 ∧
    gatewayReadStatus node "a".toList [("limit".toList, ["x".toList])] = 400 ∧
    gatewayReadStatus node "a".toList [("limit".toList, ["1001".toList])] = 500 :=
  ⟨_, _, run_after (cfg := { maxPerSource := 5 }) (l := [("a", logAt 1), ("a", logAt 9)])
    (by decide), by decide +kernel, by decide +kernel, by decide +kernel⟩

/-- Without a node that owns the source, every readable request is answered by 503, and so
blames the service. -/
theorem C148_no_route (compile : Str → Option (Str → Bool)) (now : Int) (st : Store) (lookup : Str → List Nat)
    (localIdx rnd : Nat) (ask : Nat → ReadRequest → GrpcAns (List Envelope)) (msg id : Str) (q : Values)
    (req : ReadRequest) (hq : gatewayRead id q = some req) (hno : lookup id = []) :
    gatewayReadStatus (nodeRead compile now st lookup localIdx rnd ask msg) id q = 503 ∧ BlamesService 503 := by
  refine ⟨?_, by unfold BlamesService; decide⟩
  unfold gatewayReadStatus
  rw [hq]
  dsimp only
  unfold nodeRead egressRoute
  rw [gatewayRead_id hq, hno]
  rfl

example : gatewayReadStatus (nodeRead (fun _ => none) 9 (newStore { maxPerSource := 3 }) (fun _ => []) 0 0
    (fun _ _ => .ok []) []) "a".toList [("limit".toList, ["7".toList])] = 503 := by decide +kernel

/-- Reads the node hands on to another one get the status that node's answer has there. -/
theorem C148_forwarded (compile : Str → Option (Str → Bool)) (now : Int) (st : Store) (lookup : Str → List Nat)
    (localIdx rnd owner : Nat) (ask : Nat → ReadRequest → GrpcAns (List Envelope)) (msg id : Str) (q : Values)
    (hother : localIdx ∉ lookup id) (howner : (lookup id)[rnd]? = some owner) :
    gatewayReadStatus (nodeRead compile now st lookup localIdx rnd ask msg) id q =
      gatewayReadStatus (ask owner) id q := by
  unfold gatewayReadStatus
  cases hg : gatewayRead id q with
  | none => rfl
  | some req =>
    dsimp only
    have hr : nodeRead compile now st lookup localIdx rnd ask msg req = ask owner req := by
      unfold nodeRead egressRoute
      rw [gatewayRead_id hg]
      have hne : (lookup id).isEmpty = false := by
        cases hl : lookup id with
        | nil => rw [hl] at howner; simp at howner
        | cons a b => rfl
      have hn : owner ≠ localIdx := by
        rintro rfl
        exact hother (List.mem_of_getElem? howner)
      simp only [hne, if_neg hother, Bool.false_eq_true, if_false, howner, if_neg hn]
    rw [hr]

example : gatewayReadStatus (nodeRead (fun _ => none) 9 (newStore { maxPerSource := 3 }) (fun _ => [0, 2]) 1 1
    (fun i _ => if i = 2 then .ok [logAt 4] else .error 14 []) []) "a".toList [] = 200 := by decide +kernel

/-- No request that is refused for what it asks blames the request: all of them are answered
as faults of the service. -/
theorem C148_blame_false (compile : Str → Option (Str → Bool)) (now : Int) (st : Store) (lookup : Str → List Nat)
    (localIdx rnd : Nat) (ask : Nat → ReadRequest → GrpcAns (List Envelope)) (msg id : Str) (q : Values)
    (req : ReadRequest) (hown : localIdx ∈ lookup id) (hq : gatewayRead id q = some req)
    (hu : Unservable compile req) :
    BlamesService (gatewayReadStatus (nodeRead compile now st lookup localIdx rnd ask msg) id q) := by
  rw [(C148_gateway_partial compile now st lookup localIdx rnd ask msg id q hown).2.2.1.2 ⟨req, hq, hu⟩]
  unfold BlamesService
  decide

example : ∃ req, gatewayRead "a".toList [("start_time".toList, ["9".toList]), ("end_time".toList, ["5".toList])] = some req ∧
    Unservable (fun _ => none) req :=
  ⟨{ sourceId := "a".toList, start := 9, stop := 5 }, by decide +kernel, .inl (by decide)⟩

/-- Through the auth proxy, users who may read the source get the status of the gateway, and
all others 404, whatever they ask for. -/
theorem C148_proxy (oauth : Str → Option UserCtx) (auth : Str → Str → Bool)
    (node : ReadRequest → GrpcAns (List Envelope)) (token id : Str) (q : Values) :
    (MayRead oauth auth token id → proxyReadStatus oauth auth node token id q = gatewayReadStatus node id q) ∧
    (¬ MayRead oauth auth token id → proxyReadStatus oauth auth node token id q = 404) := by
  have h := C61_read oauth auth token id
  refine ⟨fun hm => ?_, fun hm => ?_⟩
  · unfold proxyReadStatus
    rw [h.1.2 hm]
  · unfold proxyReadStatus
    rcases h.2 with h2 | h2
    · exact absurd (h.1.1 h2) hm
    · rw [h2]

example : let oauth : Str → Option UserCtx := fun t => if t = "t".toList then some ⟨false, t, 0⟩ else none
    let auth : Str → Str → Bool := fun id _ => decide (id = "a".toList)
    proxyReadStatus oauth auth (fun _ => .ok []) "t".toList "a".toList [] = 200 ∧
    proxyReadStatus oauth auth (fun _ => .ok []) "t".toList "b".toList [] = 404 := by decide

/-- While tokens cannot be looked up, every read blames the request, even those of users who
may read the source whenever they can. -/
theorem C148_outage_false (auth : Str → Str → Bool) (node : ReadRequest → GrpcAns (List Envelope))
    (token id : Str) (q : Values) :
    BlamesRequest (proxyReadStatus (fun _ => none) auth node token id q) := by
  rw [(C148_proxy _ auth node token id q).2 (by rintro ⟨_, _, h, _⟩; cases h)]
  unfold BlamesRequest
  decide

/-- A query that cannot be parsed blames the request at the auth proxy and the service at
the gateway. -/
theorem C148_query_false {F : Type} (fl : FloatLib F) (rfc dur : Str → Option Int)
    (select : Str → Option (List Matcher)) (num : PVal → F) (read : Nat → ReadRequest → Option (List Envelope))
    (ord : Nat → List Matcher → List Str) (now : Int) (msg : Str) (oauth : Str → Option UserCtx)
    (auth : Str → Str → Bool) (related : List Str → Str → Option Expansions) (order : List Str → List Str)
    (parse : Str → Option PExpr) (print : PExpr → Str) (token text : Str) (htoken : token ≠ [])
    (hp : parse text = none) (hs : select text = none) :
    let node := promNode fl rfc dur select num read ord now msg
    let q : Values := [("query".toList, [text])]
    BlamesService (gatewayQueryStatus fl node q) ∧
    BlamesRequest (proxyQueryStatus fl node oauth auth related order parse print token q) := by
  have hq : Values.first [("query".toList, [text])] "query".toList = some text := rfl
  dsimp only
  constructor
  · have : gatewayQueryStatus fl (promNode fl rfc dur select num read ord now msg) [("query".toList, [text])] = 500 := by
      unfold gatewayQueryStatus gatewayInstant promNode instantQuery
      rw [hq]
      dsimp only
      cases requestTime rfc now (((Values.first [("query".toList, [text])] "time".toList)).getD []) with
      | none => rfl
      | some t =>
        simp only [Option.getD_some, hs]
        rfl
    rw [this]; unfold BlamesService; decide
  · have : proxyQueryStatus fl (promNode fl rfc dur select num read ord now msg) oauth auth related order parse print
        token [("query".toList, [text])] = 400 := by
      unfold proxyQueryStatus queryHandler
      rw [hq]
      simp only [Option.getD, hp, if_neg htoken]
    rw [this]; unfold BlamesRequest; decide

/-- A query that the auth proxy lets pass has the status that the gateway gives to the rewritten
query at the same time; one that it does not let pass has the proxy's own status. -/
theorem C148_query_passed {F : Type} (fl : FloatLib F) (s : PromServer F) (oauth : Str → Option UserCtx)
    (auth : Str → Str → Bool) (related : List Str → Str → Option Expansions) (order : List Str → List Str)
    (parse : Str → Option PExpr) (print : PExpr → Str) (token text time : Str) :
    proxyQueryStatus fl s oauth auth related order parse print token [("query".toList, [text]), ("time".toList, [time])] =
      match queryHandler oauth (fun c _ id => auth id c.token) related order parse token text with
      | .status n => n
      | .forward e => gatewayQueryStatus fl s [("query".toList, [print e]), ("time".toList, [time])] := by
  have hq : Values.first [("query".toList, [text]), ("time".toList, [time])] "query".toList = some text := rfl
  unfold proxyQueryStatus
  rw [hq, Option.getD_some]
  cases queryHandler oauth (fun c _ id => auth id c.token) related order parse token text with
  | status n => rfl
  | forward e =>
    unfold gatewayQueryStatus
    have : gatewayInstant (Values.set [("query".toList, [text]), ("time".toList, [time])] "query".toList (print e)) =
        gatewayInstant [("query".toList, [print e]), ("time".toList, [time])] := rfl
    dsimp only
    rw [this]

/-- A query that is let pass. -/
example : ∃ e, queryHandler (fun _ => some ⟨true, "t".toList, 0⟩) (fun _ _ _ => true)
    (fun _ _ => some (fun _ => none)) id
    (fun _ => some (.vector [⟨.equal, "source_id".toList, "a".toList⟩])) "t".toList "q".toList = .forward e :=
  ⟨_, rfl⟩

end LogCache
