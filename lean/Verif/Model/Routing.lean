import Verif.Model.Avl
/-!
# Routing

Models `/repo/internal/routing/routing_table.go`,
`/repo/internal/routing/static_lookup.go`,
`/repo/internal/routing/orchestrator.go` and the range and table handling of
`/repo/internal/scheduler/scheduler.go`.

`uint64` values are natural numbers; arithmetic that can wrap is taken modulo
`2^64`.  Hash functions are parameters.
-/
namespace LogCache

/-- `2^64 - 1`, the literal 18446744073709551615 at static_lookup.go:26 and
scheduler.go:121. -/
def maxHash : Nat := 18446744073709551615

/-- `routing.Range` (routing_table.go:111-114) and `rpc.Range`; the conversions
routing_table.go:116-126 copy both fields and are the identity here. -/
structure HRange where
  start : Nat
  stop : Nat
deriving DecidableEq, Repr

/-- `RoutingTable` (routing_table.go:12-19); `latestTerm` is never used.  A table
entry is a `rangeInfo` (routing_table.go:128-131).  The map `addrs` is a partial
function.  The mutex makes every method atomic. -/
structure RTable where
  addrs : Str → Option Nat
  h : Str → Nat
  table : List (HRange × Nat) := []

/-- The loop at routing_table.go:24-26, from index `i`. -/
def addrLoop : List Str → Nat → (Str → Option Nat) → (Str → Option Nat)
  | [], _, m => m
  | a :: as, i, m => addrLoop as (i + 1) (fun x => if x = a then some i else m x)

/-- `NewRoutingTable` (routing_table.go:22-32). -/
def newRTable (addrs : List Str) (h : Str → Nat) : RTable :=
  { addrs := addrLoop addrs 0 (fun _ => none), h := h }

/-- The out-of-range test of routing_table.go:43 and :101. -/
def outside (h : Nat) (r : HRange) : Bool := h < r.start || h > r.stop

/-- The loop of `Lookup` (routing_table.go:42-48). -/
def lookupLoop (h : Nat) : List (HRange × Nat) → List Nat
  | [] => []
  | (r, i) :: rest => if outside h r then lookupLoop h rest else i :: lookupLoop h rest

/-- `Lookup` (routing_table.go:36-51). -/
def RTable.lookup (t : RTable) (item : Str) : List Nat := lookupLoop (t.h item) t.table

/-- `findRange` (routing_table.go:99-109); `none` is -1. -/
def findRange (h : Nat) : List (HRange × Nat) → Nat → Option Nat
  | [], _ => none
  | (r, _) :: rest, i => if outside h r then findRange h rest (i + 1) else some i

/-- The loop of `LookupAll` (routing_table.go:64-71).  The Go loop has no bound;
each turn shortens `ranges`, so `ranges.length + 1` turns of fuel are enough.
`none` is an index out of range. -/
def lookupAllLoop (h : Nat) : Nat → List (HRange × Nat) → Option (List Nat)
  | 0, _ => none
  | n + 1, ranges =>
    match findRange h ranges 0 with
    | none => some []
    | some i =>
      match ranges[i]? with
      | none => none
      | some x => (lookupAllLoop h n (ranges.drop (i + 1))).map (x.2 :: ·)

/-- `LookupAll` (routing_table.go:55-74). -/
def RTable.lookupAll (t : RTable) (item : Str) : Option (List Nat) :=
  lookupAllLoop (t.h item) (t.table.length + 1) t.table

/-- `rangeInfos.Less` (routing_table.go:139-145). -/
def rangeLess (x y : HRange × Nat) : Bool :=
  if x.1.start = y.1.start then decide (x.2 > y.2) else decide (x.1.start < y.1.start)

/-- The entries appended at routing_table.go:82-92 when the request map is
iterated in the order of the list `it`; a missing address reads as index 0
(`t.addrs[addr]`, routing_table.go:88). -/
def collectRanges (t : RTable) (it : List (Str × List HRange)) : List (HRange × Nat) :=
  it.flatMap (fun p => p.2.map (fun r => (r, (t.addrs p.1).getD 0)))

/-- `SetRanges` (routing_table.go:77-97) as a relation: map iteration may follow
any order `it`, and `sort.Sort` (not stable) may produce any permutation that is
sorted with respect to `Less`. -/
structure SetRanges (t : RTable) (req : List (Str × List HRange)) (t' : RTable) : Prop where
  addrs : t'.addrs = t.addrs
  h : t'.h = t.h
  table : ∃ it, it.Perm req ∧ t'.table.Perm (collectRanges t it)
  sorted : t'.table.Pairwise (fun x y => rangeLess y x = false)

/-! ## Static lookup -/

/-- The loop of static_lookup.go:27-29 from `i` with `k` turns left. -/
def staticLoop (x : Nat) : Nat → Nat → Tree Nat → Tree Nat
  | 0, _, t => t
  | k + 1, i, t => staticLoop x k (i + 1) (t.put (((i * x) % 2 ^ 64 : Nat) : Int) i)

/-- `NewStaticLookup` (static_lookup.go:17-35); `none` is the panic for
`numOfRoutes <= 0`. -/
def newStaticLookup (n : Int) : Option (Tree Nat) :=
  if n ≤ 0 then none else some (staticLoop (maxHash / n.toNat) n.toNat 0 .nil)

/-- `Lookup` (static_lookup.go:39-43) of an id with hash `h`; `none` is the nil
dereference when there is no floor. -/
def staticLookup (t : Tree Nat) (h : Nat) : Option Nat :=
  (t.floor (h : Int) none).map Prod.snd

/-! ## Scheduler -/

/-- The loop of scheduler.go:125-141 from `start` with `k` non-final ranges left. -/
def schedLoop (x : Nat) : Nat → Nat → List HRange
  | 0, start => [⟨start, maxHash⟩]
  | k + 1, start =>
    ⟨start, (start + x) % 2 ^ 64⟩ :: schedLoop x k ((start + (x + 1)) % 2 ^ 64)

/-- The ranges `Start` (scheduler.go:116-141) adds as tasks; `none` is the
division by zero.  A negative count converts to a huge `uint64` and the loop does
not run. -/
def schedRanges (count : Int) : Option (List HRange) :=
  if count = 0 then none
  else if count < 0 then some [⟨0, maxHash⟩]
  else some (schedLoop (maxHash / count.toNat) (count.toNat - 1) 0)

/-- `m[k] = v` on a Go map as an association list. Models `routing_table.go:24-26`. -/
def mapSet {β : Type} (m : List (Str × β)) (k : Str) (v : β) : List (Str × β) :=
  match m with
  | [] => [(k, v)]
  | (k', v') :: rest => if k' = k then (k, v) :: rest else (k', v') :: mapSet rest k v

/-- `convertWorkerState` (scheduler.go:176-191); a worker state is the worker's
address and its tasks. -/
def convertWorkerState (ws : List (Str × List HRange)) : List (Str × List HRange) :=
  ws.foldl (fun m w => mapSet m w.1 w.2) []

/-- Requests the scheduler sends to a node (`rpc.OrchestrationClient`).
`orchestration.proto:24-48`. -/
inductive OrchReq where
  | addRange (r : HRange)
  | removeRange (r : HRange)
  | listRanges
  | setRanges (m : List (Str × List HRange))
deriving DecidableEq, Repr

/-- `comm.Add` (scheduler.go:229-251): requests sent as (address, request), and
whether it returned nil.  `ok` says whether the remote call succeeds. -/
def commAdd (isLeader : Bool) (worker : Str) (task : HRange) (ok : Bool) :
    List (Str × OrchReq) × Bool :=
  if !isLeader then ([], true) else ([(worker, .addRange task)], ok)

/-- `comm.Remove` (scheduler.go:254-276). -/
def commRemove (isLeader : Bool) (worker : Str) (task : HRange) (ok : Bool) :
    List (Str × OrchReq) × Bool :=
  if !isLeader then ([], true) else ([(worker, .removeRange task)], ok)

/-- `setRemoteTables` (scheduler.go:162-174): failures are logged and skipped. -/
def setRemoteTables (clients : List Str) (m : List (Str × List HRange)) : List (Str × OrchReq) :=
  clients.map (fun c => (c, .setRanges m))

/-- The table part of a term (scheduler.go:154-156). -/
def pushTables (isLeader : Bool) (clients : List Str) (ws : List (Str × List HRange)) :
    List (Str × OrchReq) :=
  if isLeader then setRemoteTables clients (convertWorkerState ws) else []

/-! ## Orchestrator agent -/

/-- `OrchestratorAgent` (orchestrator.go:11-16) with Go's memory: `mem` are the
backing arrays ever allocated (all of fixed size), `o.ranges` is the slice of the
first `len` cells of array `addr`.  Cells are `*rpc.Range`, `none` is nil.  The
pointed-to ranges are never written, so they are values here. -/
structure Orch where
  mem : List (List (Option HRange)) := [[]]
  addr : Nat := 0
  len : Nat := 0
deriving DecidableEq, Repr

/-- A slice: array and length (the slices here all start at cell 0).
Models the slices of `orchestrator.go:11-65`. -/
structure Slice where
  addr : Nat
  len : Nat
deriving DecidableEq, Repr

/-- What a slice shows in a given memory. Models the slices of `orchestrator.go:11-65`. -/
def Slice.view (mem : List (List (Option HRange))) (s : Slice) : List (Option HRange) :=
  (mem.getD s.addr []).take s.len

/-- `AddRange` (orchestrator.go:32-39).  `append` writes in place if there is
room, else copies to a new array whose size is up to the runtime: `grow` says how
much larger than needed. -/
def Orch.add (grow : Nat) (o : Orch) (r : Option HRange) : Orch :=
  let arr := o.mem.getD o.addr []
  if o.len < arr.length then
    { o with mem := o.mem.set o.addr (arr.set o.len r), len := o.len + 1 }
  else
    { mem := o.mem ++ [arr.take o.len ++ r :: List.replicate grow none],
      addr := o.mem.length, len := o.len + 1 }

/-- The search loop of orchestrator.go:47-52 from index `i`; outer `none` is a nil
dereference of `r` or `req.Range`. -/
def findEq (req : Option HRange) : List (Option HRange) → Nat → Option (Option Nat)
  | [], _ => some none
  | r :: rs, i =>
    match r, req with
    | some r, some q =>
      if r.start = q.start ∧ r.stop = q.stop then some (some i) else findEq req rs (i + 1)
    | _, _ => none

/-- `RemoveRange` (orchestrator.go:43-55); `none` is a panic.  The `append` at
line 49 always has room and moves the tail down inside the same array. -/
def Orch.remove (o : Orch) (req : Option HRange) : Option Orch :=
  let arr := o.mem.getD o.addr []
  match findEq req (arr.take o.len) 0 with
  | none => none
  | some none => some o
  | some (some i) =>
    some { o with
      mem := o.mem.set o.addr (arr.take i ++ (arr.take o.len).drop (i + 1) ++ arr.drop (o.len - 1)),
      len := o.len - 1 }

/-- `ListRanges` (orchestrator.go:58-65): the slice itself, not a copy. -/
def Orch.list (o : Orch) : Slice := ⟨o.addr, o.len⟩

end LogCache
