import Verif.Model.Avl
import Verif.Model.Heap
/-!
# The store: `/repo/internal/cache/store/store.go`

Operations are atomic here; `Verif/Model/Conc.lean` splits them into the
lock-protected steps of the code.  `none` results are panics.
-/
namespace LogCache

/-- `logcache_v1.MetaInfo` as kept in `storage.meta` (store.go:507-513). -/
structure MetaInfo where
  count : Int := 0
  expired : Int := 0
  oldest : Int := 0
  newest : Int := 0
deriving DecidableEq, Repr

/-- `type storage` (store.go:507-513) without its lock. -/
structure Storage where
  sourceId : Str
  info : MetaInfo := {}
  tree : Tree Envelope := .nil
deriving DecidableEq, Repr

/-- Configuration: `Store.maxPerSource` and `Store.maxTimestampFudge`
(store.go:44-45); `NewStore` (store.go:63-66) fixes the latter to 4000. -/
structure Config where
  maxPerSource : Int
  maxFudge : Nat := 4000
deriving DecidableEq, Repr

/-- The atomics `count`, `oldestTimestamp` (store.go:41-42) and the metrics
(store.go:53-61) that the code updates. -/
structure Globals where
  count : Int := 0
  oldest : Int := maxInt64
  ingress : Nat := 0
  egress : Nat := 0
  expired : Nat := 0
  storeSize : Int := 0
  cachePeriod : Int := 0
deriving DecidableEq, Repr

/-- `type Store` (store.go:35-51); `index` is the `sync.Map`. -/
structure Store where
  cfg : Config
  index : List (Str × Storage) := []
  g : Globals := {}
deriving DecidableEq, Repr

/-! ## sync.Map -/

/-- `storageIndex.Load` (store.go:96, 293, 497). -/
def idxLoad (idx : List (Str × Storage)) (src : Str) : Option Storage :=
  match idx with
  | [] => none
  | (k, s) :: rest => if k = src then some s else idxLoad rest src

/-- `storageIndex.Store` (store.go:103); also used to write back a storage that
the Go code mutates through its pointer. -/
def idxStore (idx : List (Str × Storage)) (src : Str) (s : Storage) : List (Str × Storage) :=
  match idx with
  | [] => [(src, s)]
  | (k, s') :: rest => if k = src then (k, s) :: rest else (k, s') :: idxStore rest src s

/-- `storageIndex.Delete` (store.go:269). -/
def idxDelete (idx : List (Str × Storage)) (src : Str) : List (Str × Storage) :=
  idx.filter (fun p => p.1 ≠ src)

/-! ## Put -/

/-- `calculateCachePeriod` (store.go:540-542); Go division truncates. -/
def calculateCachePeriod (now oldest : Int) : Int := (now - oldest).tdiv 1000000

/-- The fudge loop (store.go:125-132): the first free key at or after `ts`,
looking at `fuel` candidates starting from offset `f`; if all are taken the
result is one past the last candidate. -/
def fudgeFrom (t : Tree Envelope) (ts : Int) : Nat → Nat → Nat
  | 0, f => f
  | fuel + 1, f => if (t.get (ts + f)).isSome then fudgeFrom t ts fuel (f + 1) else f

/-- `insertOrSwap` (store.go:110-151). -/
def insertOrSwap (cfg : Config) (now : Int) (g : Globals) (s : Storage) (e : Envelope) :
    Option (Globals × Storage) :=
  -- store.go:115-123
  let evicted : Option (Globals × Storage) :=
    if (s.tree.size : Int) ≥ cfg.maxPerSource then
      match s.tree.left with
      | none => none                                    -- nil dereference
      | some (k, _) =>
        some ({ g with expired := g.expired + 1 },
              { s with tree := s.tree.remove k,
                       info := { s.info with expired := s.info.expired + 1 } })
    else
      some ({ g with count := g.count + 1, storeSize := g.count + 1 }, s)
  match evicted with
  | none => none
  | some (g, s) =>
    -- store.go:125-134
    let fudge := fudgeFrom s.tree e.timestamp cfg.maxFudge 0
    let tree := s.tree.put (e.timestamp + fudge) e
    -- store.go:136-138
    let newest := if e.timestamp > s.info.newest then e.timestamp else s.info.newest
    -- store.go:140-150
    match tree.left with
    | none => none
    | some (oldest, _) =>
      let info := { s.info with newest := newest, oldest := oldest }
      let storeOldest := if oldest < g.oldest then oldest else g.oldest
      some ({ g with oldest := storeOldest, cachePeriod := calculateCachePeriod now storeOldest },
            { s with tree := tree, info := info })

/-- `getOrInitializeStorage` (store.go:90-108). -/
def getOrInit (idx : List (Str × Storage)) (src : Str) : Storage :=
  match idxLoad idx src with
  | some s => s
  | none => { sourceId := src }

/-- `Put` (store.go:181-186). -/
def put (now : Int) (st : Store) (src : Str) (e : Envelope) : Option Store :=
  let g := { st.g with ingress := st.g.ingress + 1 }
  match insertOrSwap st.cfg now g (getOrInit st.index src) e with
  | none => none
  | some (g, s) => some { st with index := idxStore st.index src s, g := g }

/-! ## Pruning -/

/-- `BuildExpirationHeap` (store.go:188-202) for the iteration order `order` of
the map; `none` is the nil dereference on an empty tree. -/
def buildHeap : List (Str × Storage) → ExpHeap → Option ExpHeap
  | [], h => some h
  | (src, s) :: rest, h =>
    match s.tree.left with
    | none => none
    | some (k, _) => buildHeap rest (h.push ⟨k, src⟩)

/-- `removeOldestEnvelope` (store.go:253-280). -/
def removeOldestEnvelope (g : Globals) (idx : List (Str × Storage)) (src : Str) :
    Globals × List (Str × Storage) × Option Int :=
  match idxLoad idx src with
  | none => (g, idx, none)
  | some s =>
    match s.tree.left with
    | none => (g, idx, none)                            -- Size() == 0
    | some (k, _) =>
      let g := { g with count := g.count - 1, expired := g.expired + 1 }
      let tree := s.tree.remove k
      match tree.left with
      | none => (g, idxDelete idx src, none)            -- Size() == 0
      | some (k', _) =>
        let s' := { s with tree := tree,
                           info := { s.info with expired := s.info.expired + 1, oldest := k' } }
        (g, idxStore idx src s', some k')

/-- The prune loop (store.go:223-229); `none` is `heap.Pop` on an empty heap. -/
def pruneLoop : Nat → Globals → List (Str × Storage) → ExpHeap →
    Option (Globals × List (Str × Storage) × ExpHeap)
  | 0, g, idx, h => some (g, idx, h)
  | n + 1, g, idx, h =>
    match h.pop with
    | none => none
    | some (x, h) =>
      match removeOldestEnvelope g idx x.sourceId with
      | (g, idx, none) => pruneLoop n g idx h
      | (g, idx, some ts) => pruneLoop n g idx (h.push ⟨ts, x.sourceId⟩)

/-- `truncate` (store.go:205-251).  `mc` is `GetQuantityToPrune`, `order` the
iteration order of the map. -/
def truncate (mc : Int → Int) (order : List (Str × Storage)) (now : Int) (st : Store) :
    Option Store :=
  let storeCount := st.g.count
  let n := mc storeCount
  if n = 0 then some st
  else
    let n := if n > storeCount then storeCount else n
    match buildHeap order [] with
    | none => none
    | some h =>
      match pruneLoop n.toNat st.g st.index h with
      | none => none
      | some (g, idx, h) =>
        let g :=
          match h.popLast with
          | none => { g with oldest := maxInt64, cachePeriod := 0 }
          | some (x, _) =>                              -- store.go:246: Pop, not heap.Pop
            { g with oldest := x.timestamp, cachePeriod := calculateCachePeriod now x.timestamp }
        some { st with index := idx, g := { g with storeSize := g.count } }

/-! ## Get -/

/-- `filterByName` (store.go:325-370); the regular expression is a predicate,
`none` the nil pointer. -/
def filterByName (nf : Option (Str → Bool)) (e : Envelope) : Option Envelope :=
  match nf with
  | none => some e
  | some m =>
    match e.message with
    | some (.counter name _ _) => if m name then some e else none
    | some (.gauge metrics) =>
      let filtered := metrics.filter (fun p => m p.1)
      if filtered.length > 0 then
        some { timestamp := e.timestamp, sourceId := e.sourceId, instanceId := e.instanceId,
               deprecatedTags := e.deprecatedTags, tags := e.tags,
               message := some (.gauge filtered) }
      else none
    | some (.timer name _ _) => if m name then some e else none
    | _ => none

/-- `checkEnvelopeType` (store.go:459-480); `none` is `panic("unknown type")`. -/
def checkEnvelopeType (e : Envelope) (t : EType) : Option Bool :=
  match t with
  | .any => some true
  | .log => some (match e.message with | some (.log ..) => true | _ => false)
  | .counter => some (match e.message with | some (.counter ..) => true | _ => false)
  | .gauge => some (match e.message with | some (.gauge ..) => true | _ => false)
  | .timer => some (match e.message with | some (.timer ..) => true | _ => false)
  | .event => some (match e.message with | some (.event ..) => true | _ => false)
  | .other _ => none

/-- The loop of `validEnvelopeType` (store.go:376-381). -/
def anyType (e : Envelope) : List EType → Option Bool
  | [] => some false
  | t :: ts =>
    match checkEnvelopeType e t with
    | none => none
    | some true => some true
    | some false => anyType e ts

/-- `validEnvelopeType` (store.go:372-382); `none` types is the nil slice. -/
def validEnvelopeType (e : Envelope) (types : Option (List EType)) : Option Bool :=
  match types with
  | none => some true
  | some ts => anyType e ts

/-- `isNodeAFudgeSequenceMember` (store.go:410-431) for a node with key `k` and
envelope `v` whose child on the requested side is `child`. -/
def isFudgeMember (k : Int) (v : Envelope) (child : Tree Envelope) : Bool :=
  if v.timestamp ≠ k then true
  else
    match child with
    | .nil => false
    | .node _ k' v' _ _ => decide (v'.timestamp ≠ k')

/-- `treeAscTraverse` (store.go:384-408).  `f` is the callback, threading the
captured variables `σ`; the flag is the Go return value (true = stop). -/
def ascTraverse {σ : Type} (start stop : Int) (f : σ → Envelope → σ × Bool) :
    Tree Envelope → σ → σ × Bool
  | .nil, s => (s, false)
  | .node l k v _ r, s =>
    if v.timestamp ≥ start then
      match ascTraverse start stop f l s with
      | (s, true) => (s, true)
      | (s, false) =>
        let c := if v.timestamp ≥ stop then (s, true) else f s v
        if c.2 && !isFudgeMember k v r then (c.1, true)
        else ascTraverse start stop f r c.1
    else ascTraverse start stop f r s

/-- `treeDescTraverse` (store.go:433-457). -/
def descTraverse {σ : Type} (start stop : Int) (f : σ → Envelope → σ × Bool) :
    Tree Envelope → σ → σ × Bool
  | .nil, s => (s, false)
  | .node l k v _ r, s =>
    if v.timestamp < stop then
      match descTraverse start stop f r s with
      | (s, true) => (s, true)
      | (s, false) =>
        let c := if v.timestamp < start then (s, true) else f s v
        if c.2 && !isFudgeMember k v l then (c.1, true)
        else descTraverse start stop f l c.1
    else descTraverse start stop f l s

/-- The arguments of `Get` (store.go:284-292) except the source id. -/
structure GetArgs where
  start : Int
  stop : Int
  types : Option (List EType) := none
  nameFilter : Option (Str → Bool) := none
  limit : Int
  descending : Bool := false

/-- The callback of `Get` (store.go:306-318).  State `none` = panicked. -/
def getCallback (a : GetArgs) : Option (List Envelope) → Envelope → Option (List Envelope) × Bool
  | none, _ => (none, true)
  | some res, e =>
    match filterByName a.nameFilter e with
    | none => (some res, false)
    | some e =>
      match validEnvelopeType e a.types with
      | none => (none, true)
      | some true => (some (res ++ [e]), decide (((res ++ [e]).length : Int) ≥ a.limit))
      | some false => (some res, decide ((res.length : Int) ≥ a.limit))

/-- The traversal started by `Get` (store.go:299-318) on one tree. -/
def getTree (t : Tree Envelope) (a : GetArgs) : Option (List Envelope) :=
  if a.descending then (descTraverse a.start a.stop (getCallback a) t (some [])).1
  else (ascTraverse a.start a.stop (getCallback a) t (some [])).1

/-- `Get` (store.go:284-323): the result, or `none` on panic. -/
def get (st : Store) (src : Str) (a : GetArgs) : Option (List Envelope) :=
  match idxLoad st.index src with
  | none => some []
  | some s => getTree s.tree a

/-- The state after `Get` (store.go:321: only the egress metric changes). -/
def getState (st : Store) (src : Str) (a : GetArgs) : Store :=
  match idxLoad st.index src with
  | none => st
  | some s =>
    match getTree s.tree a with
    | none => st
    | some res => { st with g := { st.g with egress := st.g.egress + res.length } }

/-- `Meta` (store.go:483-505), atomically. -/
def metaOf (st : Store) : List (Str × MetaInfo) :=
  st.index.map (fun p => (p.1, { p.2.info with count := p.2.tree.size }))

/-- `NewStore` (store.go:63-88). -/
def newStore (cfg : Config) : Store := { cfg := cfg }

/-! ## Histories -/

/-- One call. Models the calls of `store.go:181, 205, 284, 483`. -/
inductive Op where
  | put (now : Int) (src : Str) (e : Envelope)
  | truncate (now : Int) (mc : Int → Int) (order : List (Str × Storage))
  | get (src : Str) (a : GetArgs)

/-- Effect of a call; `none` is a panic. Models the calls of `store.go:181, 205, 284, 483`. -/
def Op.exec (st : Store) : Op → Option Store
  | .put now src e => LogCache.put now st src e
  | .truncate now mc order => LogCache.truncate mc order now st
  | .get src a => some (getState st src a)

/-- A prune may see the map in any order, but it sees exactly its entries.
Models the calls of `store.go:181, 205, 284, 483`. -/
def Op.valid (st : Store) : Op → Prop
  | .truncate _ _ order => order.Perm st.index
  | _ => True

/-- `Run st ops st'`: the calls `ops` executed from `st` lead to `st'` without a panic.
Models the calls of `store.go:181, 205, 284, 483`. -/
inductive Run : Store → List Op → Store → Prop where
  | nil (st : Store) : Run st [] st
  | snoc {st st' st'' : Store} {ops : List Op} {op : Op} :
      Run st ops st' → op.valid st' → op.exec st' = some st'' → Run st (ops ++ [op]) st''

end LogCache
