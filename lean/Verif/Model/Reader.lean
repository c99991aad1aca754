import Verif.Model.Store
/-!
# `/repo/internal/routing/local_store_reader.go` and
# `/repo/internal/cache/store/prune_consultant.go`
-/
namespace LogCache

/-- `logcache_v1.ReadRequest` (`/repo/pkg/rpc/logcache_v1/egress.pb.go`). -/
structure ReadRequest where
  sourceId : Str
  start : Int := 0
  stop : Int := 0
  limit : Int := 0
  types : List EType := []
  descending : Bool := false
  nameFilter : Str := []
deriving DecidableEq, Repr

/-- The error returns of `Read` (local_store_reader.go:48, 52, 56, 72). -/
inductive ReadError where
  | startAfterEnd | limitTooLarge | limitNegative | badNameFilter
deriving DecidableEq, Repr

/-- Filtering out `ANY` (local_store_reader.go:76-81): `append` onto a nil slice,
so no remaining type gives the nil slice (`none`). -/
def requestedTypes (ts : List EType) : Option (List EType) :=
  let ts := ts.filter (fun t => t ≠ .any)
  if ts.isEmpty then none else some ts

/-- What `Read` passes to the store (local_store_reader.go:46-90).  `compile` is
`regexp.Compile`, `now` is `time.Now().UnixNano()`.  Simplification: the
conversion to `time.Time` and back (local_store_reader.go:84-85, store.go) is the
identity on int64 nanoseconds and is left out. -/
def readArgs (compile : Str → Option (Str → Bool)) (now : Int) (req : ReadRequest) :
    Except ReadError GetArgs :=
  if req.stop ≠ 0 ∧ req.start > req.stop then .error .startAfterEnd
  else if req.limit > 1000 then .error .limitTooLarge
  else if req.limit < 0 then .error .limitNegative
  else
    let stop := if req.stop = 0 then now else req.stop
    let limit := if req.limit = 0 then 100 else req.limit
    if req.nameFilter ≠ [] then
      match compile req.nameFilter with
      | none => .error .badNameFilter
      | some m => .ok { start := req.start, stop := stop, types := requestedTypes req.types,
                        nameFilter := some m, limit := limit, descending := req.descending }
    else .ok { start := req.start, stop := stop, types := requestedTypes req.types,
               nameFilter := none, limit := limit, descending := req.descending }

/-- `Read` (local_store_reader.go:46-98); outer `none` is a panic of the store. -/
def localRead (compile : Str → Option (Str → Bool)) (now : Int) (st : Store) (req : ReadRequest) :
    Option (Except ReadError (List Envelope)) :=
  match readArgs compile now req with
  | .error e => some (.error e)
  | .ok a =>
    match get st req.sourceId a with
    | none => none
    | some res => some (.ok res)

/-- `GetQuantityToPrune` (prune_consultant.go:35-50).  Simplification: exact
rational arithmetic instead of `float64`; `heap*100` wraps around as `uint64`
arithmetic does.  Only meaningful for `total > 0` (`float64` division by 0 gives
Inf or NaN; Lean's gives 0). -/
def quantityToPrune (percentToFill : Rat) (heap total : Nat) (storeCount : Int) : Int :=
  let heapPercentage : Rat := ((heap * 100 % 2 ^ 64 : Nat) : Rat) / (total : Rat)
  if heapPercentage > percentToFill then
    ((storeCount : Rat) * ((heapPercentage - percentToFill) / heapPercentage)).floor
  else 0

end LogCache
