import Verif.Model.Auth
import Verif.Spec.Promql

/-!
# Histories of the CAPI and UAA clients
-/

namespace LogCache.Spec

/-! ## Concurrent histories of the token cache -/

/-- What happens at the token cache.  `answered`: an `IsAuthorized` call is answered
from the cache.  `asked`: a call finds nothing useful and asks CAPI.  `fetched`: such
a call gets CAPI's list `ids`, stores it and answers `b`.  `sawExpired`: the prune
loop finds a token expired.  `dropped`: it deletes it. -/
inductive CapiEvent where
  | answered (now : Int) (sid tok : Str) (b : Bool)
  | asked (now : Int) (sid tok : Str)
  | fetched (now : Int) (sid tok : Str) (ids : List Str) (b : Bool)
  | sawExpired (now : Int) (tok : Str)
  | dropped (tok : Str)
deriving DecidableEq, Repr

/-- The token cache with the calls waiting for CAPI (source id, token, retry count)
and the tokens the prune loop is about to delete. -/
structure CapiState where
  cache : TokenCache := []
  waiting : List (Str × Str × Nat) := []
  dropping : List Str := []

/-- One atomic step of some goroutine (`capi_client.go:89-128`, `283-297`); any
number of calls and the prune loop interleave freely. -/
inductive CapiStep (interval : Int) : CapiState → CapiEvent → CapiState → Prop where
  | answered {s now sid tok b} : authLoad s.cache now sid tok = .inl b →
      CapiStep interval s (.answered now sid tok b) s
  | asked {s now sid tok r} : authLoad s.cache now sid tok = .inr r →
      CapiStep interval s (.asked now sid tok) { s with waiting := (sid, tok, r) :: s.waiting }
  | fetched {s now sid tok r ids} : (sid, tok, r) ∈ s.waiting →
      CapiStep interval s (.fetched now sid tok ids (decide (sid ∈ ids)))
        { s with cache := authStore interval s.cache now tok ids r,
                 waiting := s.waiting.erase (sid, tok, r) }
  | sawExpired {s now tok e} : s.cache.lookup tok = some e → now > e.expires →
      CapiStep interval s (.sawExpired now tok) { s with dropping := tok :: s.dropping }
  | dropped {s tok} : tok ∈ s.dropping →
      CapiStep interval s (.dropped tok) { s with cache := cacheDelete s.cache tok }

/-- A history, oldest event first, from the empty cache. -/
inductive CapiRun (interval : Int) : List CapiEvent → CapiState → Prop where
  | nil : CapiRun interval [] {}
  | snoc {evs s ev s'} : CapiRun interval evs s → CapiStep interval s ev s' →
      CapiRun interval (evs ++ [ev]) s'

/-! ## Sequential histories -/

/-- A call of `IsAuthorized` with its two clock readings and the list CAPI would
answer, or a round of the prune loop. -/
inductive CapiOp where
  | check (now now' : Int) (sid tok : Str) (capi : List Str)
  | prune (now : Int)
deriving DecidableEq, Repr

/-- The answer and whether CAPI was asked, for every call of a sequential history;
and the final cache. -/
def capiRun (interval : Int) : TokenCache → List CapiOp → List (Bool × Bool) × TokenCache
  | c, [] => ([], c)
  | c, .check now now' sid tok capi :: ops =>
    let r := isAuthorized interval c now now' sid tok capi
    let rest := capiRun interval r.2.2 ops
    ((r.1, r.2.1) :: rest.1, rest.2)
  | c, .prune now :: ops => capiRun interval (pruneTokens c now) ops

/-- The times (start and end) of the fetches made for `tok`. -/
def fetchTimes (interval : Int) (tok : Str) : TokenCache → List CapiOp → List (Int × Int)
  | _, [] => []
  | c, .check now now' sid t capi :: ops =>
    let r := isAuthorized interval c now now' sid t capi
    if t = tok ∧ r.2.1 = true then (now, now') :: fetchTimes interval tok r.2.2 ops
    else fetchTimes interval tok r.2.2 ops
  | c, .prune now :: ops => fetchTimes interval tok (pruneTokens c now) ops

/-- Clock readings never go back, starting at `t`. -/
def Clocked : Int → List CapiOp → Prop
  | _, [] => True
  | t, .check now now' _ _ _ :: ops => t ≤ now ∧ now ≤ now' ∧ Clocked now' ops
  | t, .prune now :: ops => t ≤ now ∧ Clocked now ops

/-- Is this a call? -/
def CapiOp.isCheck : CapiOp → Bool
  | .check .. => true
  | .prune _ => false

/-! ## UAA refreshes -/

/-- The fetch times (throttle check, recorded time) of sequential `RefreshTokenKeys`
calls; a call is its two clock readings and UAA's answer. -/
def refreshTimes {κ : Type} (minInterval : Int) : Uaa κ →
    List (Int × Int × Option (List (Str × Option κ))) → List (Int × Int)
  | _, [] => []
  | s, (now, now', resp) :: calls =>
    let r := refreshTokenKeys minInterval s now now' resp
    if r.2 then (now, now') :: refreshTimes minInterval r.1 calls
    else refreshTimes minInterval r.1 calls

/-- Concurrent `RefreshTokenKeys` (`uaa_client.go:79-90`): a caller loads the last
query time and passes the throttle, later it tries the compare-and-swap (whose
result is ignored) and asks UAA. -/
inductive RefreshStep (minInterval : Int) : Int × List Int → Option Int → Int × List Int → Prop where
  | pass {last ps now} : refreshAllowed minInterval last now = true →
      RefreshStep minInterval (last, ps) none (last, last :: ps)
  | fetch {last ps old now} : old ∈ ps →
      RefreshStep minInterval (last, ps) (some now) (if last = old then now else last, ps.erase old)

/-- The fetch times of a concurrent history. -/
inductive RefreshRun (minInterval : Int) : List Int → Int × List Int → Prop where
  | nil : RefreshRun minInterval [] (0, [])
  | quiet {fs s s'} : RefreshRun minInterval fs s → RefreshStep minInterval s none s' →
      RefreshRun minInterval fs s'
  | fetch {fs s now s'} : RefreshRun minInterval fs s → RefreshStep minInterval s (some now) s' →
      RefreshRun minInterval (fs ++ [now]) s'

end LogCache.Spec
