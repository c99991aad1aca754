import Verif.Model.Routing
import Verif.Model.Reader
/-!
# Reverse proxies and node setup

Models `/repo/internal/routing/ingress_reverse_proxy.go`,
`/repo/internal/routing/egress_reverse_proxy.go`,
`/repo/internal/routing/batched_ingress_client.go` and the client setup of
`/repo/internal/cache/log_cache.go:165-252`.
-/
namespace LogCache

/-- `logcache_v1.SendRequest`; `envelopes = none` is a nil `EnvelopeBatch`.
`ingress.proto:14-17`. -/
structure SendRequest where
  envelopes : Option (List Envelope)
  localOnly : Bool := false
deriving DecidableEq, Repr

/-- `m[idx] = append(m[idx], e)` (ingress_reverse_proxy.go:50). -/
def appendAt (m : List (Nat × List Envelope)) (idx : Nat) (e : Envelope) :
    List (Nat × List Envelope) :=
  match m with
  | [] => [(idx, [e])]
  | (i, es) :: rest => if i = idx then (i, es ++ [e]) :: rest else (i, es) :: appendAt rest idx e

/-- Grouping by node (ingress_reverse_proxy.go:46-52). -/
def groupByNode (lookup : Str → List Nat) (batch : List Envelope) : List (Nat × List Envelope) :=
  batch.foldl (fun m e => (lookup e.sourceId).foldl (fun m idx => appendAt m idx e) m) []

/-- Result of a `Send`: the requests handed to clients (client index, request) in
order, and whether the call returned without error. Models `ingress_reverse_proxy.go:41-69`. -/
structure SendResult where
  sends : List (Nat × SendRequest)
  ok : Bool
deriving DecidableEq, Repr

/-- `IngressReverseProxy.Send` (ingress_reverse_proxy.go:41-69) as a relation:
the map of groups may be iterated in any order `it`.  `nClients` is
`len(p.clients)`, `clientOk i` says whether client `i` returns nil error.  Result
`none` is a panic (nil batch at line 48, client index out of range at 43 and
55; requests already sent before that panic are not recorded). -/
inductive IngressSend (lookup : Str → List Nat) (nClients localIdx : Nat) (clientOk : Nat → Bool) :
    SendRequest → Option SendResult → Prop
  | localOnly (req : SendRequest) (h : req.localOnly = true) :
      IngressSend lookup nClients localIdx clientOk req
        (if localIdx < nClients then some ⟨[(localIdx, req)], clientOk localIdx⟩ else none)
  | nilBatch (req : SendRequest) (h : req.localOnly = false) (hn : req.envelopes = none) :
      IngressSend lookup nClients localIdx clientOk req none
  | proxied (req : SendRequest) (h : req.localOnly = false) (batch : List Envelope)
      (hb : req.envelopes = some batch) (it : List (Nat × List Envelope))
      (hit : it.Perm (groupByNode lookup batch)) :
      IngressSend lookup nClients localIdx clientOk req
        (if it.all (fun p => decide (p.1 < nClients)) then
          some ⟨it.map (fun p => (p.1, { envelopes := some p.2, localOnly := true })), true⟩
        else none)

/-- The local ingress client (log_cache.go:220-226): the envelopes it puts, each
under its own source id. -/
def localPuts (req : SendRequest) : List (Str × Envelope) :=
  (req.envelopes.getD []).map (fun e => (e.sourceId, e))

/-- `BatchedIngressClient.write` (batched_ingress_client.go:74-89): the request
sent for a batch. -/
def batchedWrite (batch : List Envelope) : SendRequest :=
  { envelopes := some batch, localOnly := true }

/-- Where `EgressReverseProxy.Read` (egress_reverse_proxy.go:54-65) sends a read:
a client index, or `none` for the Unavailable error.  `rnd` is the value of
`rand.Intn(len(idx))`. -/
def egressRoute (lookup : Str → List Nat) (localIdx : Nat) (id : Str) (rnd : Nat) : Option Nat :=
  let idx := lookup id
  if idx.isEmpty then none
  else if localIdx ∈ idx then some localIdx
  else idx[rnd]?

/-- The client slices built by `setupRouting` (log_cache.go:194-228): entry = the
node the client talks to; a failed dial is skipped (line 200) without keeping its
place.  Second component: `localIdx` (0 if the node index never comes up). -/
def setupClients (nodeIndex : Nat) (dialOk : Nat → Bool) : Nat → Nat → List Nat × Nat
  | 0, _ => ([], 0)
  | k + 1, i =>
    let (cs, li) := setupClients nodeIndex dialOk k (i + 1)
    if i ≠ nodeIndex then (if dialOk i then (i :: cs, li) else (cs, li))
    else (i :: cs, i)

/-! ## Meta -/

/-- The merge loop of `remoteMeta` (egress_reverse_proxy.go:110-127); `answers`
are the clients' responses (`none`: error).  `none`: all clients failed. -/
def mergeMeta {μ : Type} (answers : List (Option (List (Str × μ)))) : Option (List (Str × μ)) :=
  let (result, errs) := answers.foldl
    (fun acc a => match a with
      | none => (acc.1, acc.2 + 1)
      | some m => (m.foldl (fun r p => mapSet r p.1 p.2) acc.1, acc.2))
    (([] : List (Str × μ)), 0)
  if errs = answers.length then none else some result

/-- `metaCache` (egress_reverse_proxy.go:148-152), `none` is the nil pointer. -/
structure MetaCache (ρ : Type) where
  duration : Int
  timestamp : Int
  resp : ρ

/-- `expired` (egress_reverse_proxy.go:154-160) at time `now`. -/
def metaExpired {ρ : Type} (c : Option (MetaCache ρ)) (now : Int) : Bool :=
  match c with
  | none => true
  | some c => decide (now > c.timestamp + c.duration)

/-- The two caches of a proxy (egress_reverse_proxy.go:24-26). -/
structure MetaState (ρ : Type) where
  remoteCache : Option (MetaCache ρ) := none
  localCache : Option (MetaCache ρ) := none

/-- First half of `localMeta`/`remoteMeta` (egress_reverse_proxy.go:76-79, 96-99):
the cached answer, or `none` when the call goes on to fetch. -/
def metaLoad {ρ : Type} (s : MetaState ρ) (isLocal : Bool) (now : Int) : Option ρ :=
  let c := if isLocal then s.localCache else s.remoteCache
  if metaExpired c now then none else c.map (·.resp)

/-- Second half (egress_reverse_proxy.go:81-92, 125-135): the fetch has ended with
`fetched` (`none`: error); at time `now` the result is cached and returned.
Simplification: `time.Now()` is taken at the moment the fetch ends. -/
def metaFinish {ρ : Type} (dur : Int) (s : MetaState ρ) (isLocal : Bool) (now : Int)
    (fetched : Option ρ) : MetaState ρ × Option ρ :=
  match fetched with
  | none => (s, none)
  | some r =>
    let c : MetaCache ρ := { duration := dur, timestamp := now, resp := r }
    (if isLocal then { s with localCache := some c } else { s with remoteCache := some c }, some r)

end LogCache
