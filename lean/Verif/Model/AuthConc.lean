import Verif.Model.Auth

/-!
# The clients of UAA and CAPI under concurrency

Requests are handled by many goroutines at once, and `sync.Map` and the atomics make each
of the steps below atomic. What UAA publishes and what CAPI grants changes with time:
`published τ` and `rights token τ` are what they would answer at the time `τ`.
-/

namespace LogCache

/-! ## Token keys -/

/-- Where a call of `RefreshTokenKeys` (`internal/auth/uaa_client.go:78-157`) is.
`passed`: it was let through by the throttle and remembers the last query time (79-88);
`asking`: its request is on the way (89-98); `got`: it has the answer (98-111); `ranging`:
it collects the known ids, `todo` are still to be visited, `cur` is `currentKeyIds`
(113-118); `storing`: it goes through the answer (120-150); `deleting`: it deletes what
remained (152-154); `ended`: it has returned, with or without an error. -/
inductive RefPhase (κ : Type) where
  | passed (old : Int)
  | asking (since : Int)
  | got (tks : List (Str × Option κ))
  | ranging (tks : List (Str × Option κ)) (todo cur : List Str)
  | storing (rest : List (Str × Option κ)) (cur : List Str)
  | deleting (cur : List Str)
  | ended (ok : Bool)

/-- The client (`uaa_client.go:32-39`) with all calls of `RefreshTokenKeys` so far. -/
structure UaaConc (κ : Type) where
  keys : List (Str × κ) := []
  lastQuery : Int := 0
  calls : List (RefPhase κ) := []

/-- What happens. `used`: `loadOrFetchPublicKey` finds a key, with which a token is then
checked. Models `uaa_client.go:78-157, 233-247`. -/
inductive UaaAct (κ : Type) where
  | began (i : Nat)
  | asked (i : Nat)
  | answered (i : Nat) (at_ : Int)
  | failed (i : Nat)
  | ranged (i : Nat)
  | visited (i : Nat) (kid : Str)
  | collected (i : Nat)
  | stored (i : Nat) (kid : Str) (k : κ)
  | bad (i : Nat)
  | kept (i : Nat)
  | deleted (i : Nat) (kid : Str)
  | finished (i : Nat)
  | used (kid : Str) (k : κ)

/-- One atomic step at the time `now`. `Range` (standard library, from recollection) visits
the ids that are in the map when it begins, in any order, unless they are deleted before
their turn. Models `uaa_client.go:78-157, 233-247`. -/
inductive UaaMove {κ : Type} (minInterval : Int) (published : Int → List (Str × Option κ)) (now : Int) :
    UaaConc κ → UaaAct κ → UaaConc κ → Prop where
  | began {s} : refreshAllowed minInterval s.lastQuery now = true →
      UaaMove minInterval published now s (.began s.calls.length)
        { s with calls := s.calls ++ [.passed s.lastQuery] }
  | asked {s i old} : s.calls[i]? = some (.passed old) →
      UaaMove minInterval published now s (.asked i)
        { s with lastQuery := if s.lastQuery = old then now else s.lastQuery,
                 calls := s.calls.set i (.asking now) }
  | answered {s i since τ} : s.calls[i]? = some (.asking since) → since ≤ τ → τ ≤ now →
      UaaMove minInterval published now s (.answered i τ)
        { s with calls := s.calls.set i (.got (published τ)) }
  | failed {s i since} : s.calls[i]? = some (.asking since) →
      UaaMove minInterval published now s (.failed i) { s with calls := s.calls.set i (.ended false) }
  | ranged {s i tks} : s.calls[i]? = some (.got tks) →
      UaaMove minInterval published now s (.ranged i)
        { s with calls := s.calls.set i (.ranging tks (s.keys.map Prod.fst) []) }
  | visited {s i tks todo cur kid} : s.calls[i]? = some (.ranging tks todo cur) → kid ∈ todo →
      UaaMove minInterval published now s (.visited i kid)
        { s with calls := s.calls.set i (.ranging tks (todo.filter fun x => !decide (x = kid))
            (if (s.keys.lookup kid).isSome then kid :: cur else cur)) }
  | collected {s i tks cur} : s.calls[i]? = some (.ranging tks [] cur) →
      UaaMove minInterval published now s (.collected i) { s with calls := s.calls.set i (.storing tks cur) }
  | stored {s i kid k rest cur} : s.calls[i]? = some (.storing ((kid, some k) :: rest) cur) →
      UaaMove minInterval published now s (.stored i kid k)
        { s with keys := mapSet s.keys kid k,
                 calls := s.calls.set i (.storing rest (cur.filter fun x => !decide (x = kid))) }
  | bad {s i kid rest cur} : s.calls[i]? = some (.storing ((kid, none) :: rest) cur) →
      UaaMove minInterval published now s (.bad i) { s with calls := s.calls.set i (.ended false) }
  | kept {s i cur} : s.calls[i]? = some (.storing [] cur) →
      UaaMove minInterval published now s (.kept i) { s with calls := s.calls.set i (.deleting cur) }
  | deleted {s i kid cur} : s.calls[i]? = some (.deleting cur) → kid ∈ cur →
      UaaMove minInterval published now s (.deleted i kid)
        { s with keys := s.keys.filter fun p => !decide (p.1 = kid),
                 calls := s.calls.set i (.deleting (cur.filter fun x => !decide (x = kid))) }
  | finished {s i} : s.calls[i]? = some (.deleting []) →
      UaaMove minInterval published now s (.finished i) { s with calls := s.calls.set i (.ended true) }
  | used {s kid k} : s.keys.lookup kid = some k → UaaMove minInterval published now s (.used kid k) s

/-- A history with the times of its events, oldest first, up to the time `clock`.
Models `uaa_client.go:78-157, 233-247`. -/
inductive UaaRun {κ : Type} (minInterval : Int) (published : Int → List (Str × Option κ)) :
    List (Int × UaaAct κ) → Int → UaaConc κ → Prop where
  | nil : UaaRun minInterval published [] 0 {}
  | snoc {evs clock s now act s'} : UaaRun minInterval published evs clock s → clock ≤ now →
      UaaMove minInterval published now s act s' → UaaRun minInterval published (evs ++ [(now, act)]) now s'

/-! ## Rights -/

/-- A call of `IsAuthorized` that waits for CAPI (`internal/auth/capi_client.go:119-127`). -/
structure RightsCall where
  sid : Str
  token : Str
  retry : Nat
  since : Int
deriving DecidableEq, Repr

/-- The token cache, the calls that wait for CAPI and the tokens `pruneTokens` is about to
delete. Models `capi_client.go:89-128, 283-297`. -/
structure RightsState where
  cache : TokenCache := []
  waiting : List RightsCall := []
  dropping : List Str := []

/-- What happens: a call is answered from the cache; a call asks CAPI; CAPI's answer to a
call is stored and used; `pruneTokens` sees an outdated entry, and later deletes it.
Models `capi_client.go:89-128, 283-297`. -/
inductive RightsAct where
  | answered (sid token : Str) (b : Bool)
  | asked (call : RightsCall)
  | fetched (call : RightsCall) (ids : List Str) (b : Bool)
  | sawExpired (token : Str)
  | dropped (token : Str)

/-- One atomic step at the time `now` (`capi_client.go:89-128`, `283-297`). The lists of
CAPI are put together from several requests; every id in them was granted at some time
since the call asked. -/
inductive RightsMove (interval : Int) (rights : Str → Int → List Str) (now : Int) :
    RightsState → RightsAct → RightsState → Prop where
  | answered {s sid token b} : authLoad s.cache now sid token = .inl b →
      RightsMove interval rights now s (.answered sid token b) s
  | asked {s sid token r} : authLoad s.cache now sid token = .inr r →
      RightsMove interval rights now s (.asked ⟨sid, token, r, now⟩)
        { s with waiting := ⟨sid, token, r, now⟩ :: s.waiting }
  | fetched {s} {c : RightsCall} {ids} : c ∈ s.waiting →
      (∀ x ∈ ids, ∃ τ, c.since ≤ τ ∧ τ ≤ now ∧ x ∈ rights c.token τ) →
      RightsMove interval rights now s (.fetched c ids (decide (c.sid ∈ ids)))
        { s with cache := authStore interval s.cache now c.token ids c.retry, waiting := s.waiting.erase c }
  | sawExpired {s token e} : s.cache.lookup token = some e → now > e.expires →
      RightsMove interval rights now s (.sawExpired token) { s with dropping := token :: s.dropping }
  | dropped {s token} : token ∈ s.dropping →
      RightsMove interval rights now s (.dropped token)
        { s with cache := cacheDelete s.cache token, dropping := s.dropping.erase token }

/-- A history with the times of its events, oldest first, up to the time `clock`.
Models `capi_client.go:89-128, 283-297`. -/
inductive RightsRun (interval : Int) (rights : Str → Int → List Str) :
    List (Int × RightsAct) → Int → RightsState → Prop where
  | nil : RightsRun interval rights [] 0 {}
  | snoc {evs clock s now act s'} : RightsRun interval rights evs clock s → clock ≤ now →
      RightsMove interval rights now s act s' → RightsRun interval rights (evs ++ [(now, act)]) now s'

end LogCache
