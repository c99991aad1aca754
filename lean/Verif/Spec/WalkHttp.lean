import Verif.Spec.WalkGrpc
import Verif.Model.WalkHttp

/-! # Walks by way of the auth proxy and the gateway -/

namespace LogCache.Spec

/-- A request over HTTP and what the client returns: it is answered (`ReadThrough`), or the proxy
or the gateway turns it down, or it comes to no node, or the node turns it down. -/
def HttpRead (methodOk : Str → Bool) (oauth : Str → Option UserCtx) (auth : Str → Str → Bool)
    (related : List Str → Str → Option Expansions) (order : List Str → List Str)
    (parse : Str → Option PExpr) (print : PExpr → Str) (compile : Str → Option (Str → Bool)) (now : Int)
    (c : Cluster) (j : Nat) (r : WebReq) (out : Option (List WireEnvelope)) : Prop :=
  ReadThrough methodOk oauth auth related order parse print compile now c j r out ∨
  out = none ∧ ((∀ q, door false methodOk oauth auth related order parse print r ≠ some (.read q)) ∨
    ∃ q hops, door false methodOk oauth auth related order parse print r = some (.read q) ∧
      (ReadAt c.lk q.sourceId j hops none ∨
        ∃ i, ReadAt c.lk q.sourceId j hops (some i) ∧ NodeFails compile now (c.store i) (readReqProto.encode q)))

/-- One read of the walk `w` over the source `id` that has come to `start`: a GET with the token
of the user, as the server sees its bytes. -/
def HttpPage (methodOk : Str → Bool) (oauth : Str → Option UserCtx) (auth : Str → Str → Bool)
    (related : List Str → Str → Option Expansions) (order : List Str → List Str)
    (parse : Str → Option PExpr) (print : PExpr → Str) (compile : Str → Option (Str → Bool))
    (c : Cluster) (j : Nat) (token : Str) (w : WalkCfg) (id : Str) (start : Int)
    (out : Option (List WireEnvelope)) : Prop :=
  (∃ now path params,
    seenRequest ("/api/v1/read/".toList ++ id) (httpReadParams start (walkOpts w)) = some (path, params) ∧
    HttpRead methodOk oauth auth related order parse print compile now c j
      { method := "GET".toList, path := path, params := params, authorization := token } out) ∨
  out = none ∧ seenRequest ("/api/v1/read/".toList ++ id) (httpReadParams start (walkOpts w)) = none

/-- A reader of a cluster that does not change, over HTTP, as `GrpcReader`; each page may enter
the cluster at another node. -/
def HttpReader (methodOk : Str → Bool) (oauth : Str → Option UserCtx) (auth : Str → Str → Bool)
    (related : List Str → Str → Option Expansions) (order : List Str → List Str)
    (parse : Str → Option PExpr) (print : PExpr → Str) (compile : Str → Option (Str → Bool))
    (c : Cluster) (token : Str) (w : WalkCfg) (id : Str) (log : List WireEnvelope)
    (req : ReadRequest) : WalkIn → Prop
  | .failed ctxDone => ctxDone = false ∧
      ∃ j, HttpPage methodOk oauth auth related order parse print compile c j token w id req.start none
  | .got es now more => more = true ∧ (∀ e ∈ log, e.timestamp ≤ now - w.delay) ∧
      ∃ j ws, HttpPage methodOk oauth auth related order parse print compile c j token w id req.start (some ws) ∧
        es = ws.map envelopeCode

/-- The walk asks for what may be asked for, the user may read the source, and its id is one that
the routers let through. -/
structure FairHttpWalk (methodOk : Str → Bool) (oauth : Str → Option UserCtx) (auth : Str → Str → Bool)
    (compile : Str → Option (Str → Bool)) (token : Str) (w : WalkCfg) (id : Str) (stop : Int) : Prop where
  walk : FairWalk compile w id stop
  clean : CleanId id ∧ '\n' ∉ id ∧ ':' ∉ id
  method : methodOk "GET".toList = true
  may : MayRead oauth auth token id

end LogCache.Spec
