import Verif.Spec.WalkHttp
import Verif.Spec.UserCrash

/-! # Walks while nodes crash -/

namespace LogCache.Spec

/-- A reader, over HTTP, of a cluster to which anything may happen, also between two reads: a read
fails for whatever reason, or it is answered, at some node, by the cluster after some history in
which clients had sent the first of the requests `posts`. -/
def HttpCrashReader (methodOk : Str → Bool) (oauth : Str → Option UserCtx) (auth : Str → Str → Bool)
    (related : List Str → Str → Option Expansions) (order : List Str → List Str)
    (parse : Str → Option PExpr) (print : PExpr → Str) (compile : Str → Option (Str → Bool))
    (cfg : Config) (n : Nat) (L : Str → List Nat) (posts : List SendReq) (token : Str) (w : WalkCfg) (id : Str)
    (req : ReadRequest) : WalkIn → Prop
  | .failed _ => True
  | .got es _ _ => ∃ evs c early, AnyHistory cfg n L evs c early ∧ early <+: posts ∧ ∃ j ws,
      HttpPage methodOk oauth auth related order parse print compile c j token w id req.start (some ws) ∧
      es = ws.map envelopeCode

/-- A reader, over HTTP, of a cluster to which nothing happens any more: a read fails for whatever
reason, or it is answered at some node, later than all that was sent by the delay of the walk. -/
def RecoveredReader (methodOk : Str → Bool) (oauth : Str → Option UserCtx) (auth : Str → Str → Bool)
    (related : List Str → Str → Option Expansions) (order : List Str → List Str)
    (parse : Str → Option PExpr) (print : PExpr → Str) (compile : Str → Option (Str → Bool))
    (c : Cluster) (n : Nat) (posts : List SendReq) (token : Str) (w : WalkCfg) (id : Str) (req : ReadRequest) : WalkIn → Prop
  | .failed _ => True
  | .got es now _ => (∀ e ∈ postedFor posts id, e.timestamp ≤ now - w.delay) ∧ ∃ j ws, j < n ∧
      HttpPage methodOk oauth auth related order parse print compile c j token w id req.start (some ws) ∧
      es = ws.map envelopeCode

/-- A walk, with or without an end, with numbers of 64 bits and types there are, over a source that
the user may read and whose id is one that the routers let through. -/
structure UserWalk (methodOk : Str → Bool) (oauth : Str → Option UserCtx) (auth : Str → Str → Bool)
    (token : Str) (w : WalkCfg) (id : Str) : Prop where
  start : FitsInt64 w.start
  stop : ∀ t, w.stop = some t → FitsInt64 t
  limit : ∀ k, w.limit = some k → FitsInt64 k
  known : ∀ ts, w.types = some ts → ∀ k, EType.other k ∉ ts
  clean : CleanId id ∧ '\n' ∉ id ∧ ':' ∉ id
  method : methodOk "GET".toList = true
  may : MayRead oauth auth token id

/-- What a walk shows of an envelope: what its name filter leaves of it, if it is of a type asked
for. -/
def walkShows (compile : Str → Option (Str → Bool)) (w : WalkCfg) (e : WireEnvelope) : Option WireEnvelope :=
  (wireProject (if w.nameFilter = [] then none else compile w.nameFilter) e).filter fun e =>
    decide (∀ t ∈ w.types.getD [], t = .any) || decide (∃ t ∈ w.types.getD [], wireKind e = some t)

/-- The time is one the walk is about. -/
def InWalk (w : WalkCfg) (t : Int) : Prop := w.start ≤ t ∧ ∀ stop, w.stop = some stop → t < stop

end LogCache.Spec
