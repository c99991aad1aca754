import Verif.Model.Store
/-!
# The store under concurrency: `/repo/internal/cache/store/store.go`

Every call is a thread that advances in the lock-protected steps of the code; any
thread may take the next step.  Storages are heap objects; the index maps source
ids to their addresses (Go: `*storage`), so a thread can hold the pointer of a
storage that is no longer in the index.

Simplifications: loads and stores of an atomic directly next to a lock-protected
step are part of that step, except those of `oldestTimestamp` in `insertOrSwap`;
the metrics are exact.
-/
namespace LogCache

/-- `*storage` (store.go:507-513): the storage and whether its write lock is held
by a thread between two steps. -/
structure Obj where
  storage : Storage
  locked : Bool := false

/-- A call. Models `store.go:181, 205, 284, 483`. -/
inductive Call where
  | put (src : Str) (e : Envelope)
  | get (src : Str) (a : GetArgs)
  | metaAll
  | prune

/-- Where a call is.
`put1`: before `getOrInitializeStorage` (store.go:184); `put2`: it has the storage
but not its lock (store.go:185); `put3`: the envelope is in, `oldestTimestamp` was
loaded (store.go:142), the lock is held.
`get1`: before `Load` (store.go:293); `get2`: before `RLock` (store.go:298).
`meta0`, `meta1`, `meta2`: before, in the first, in the second loop of `Meta`
(store.go:486-503); `start` is the index when `Range` was called.
`prune0`, `prune1`, `prune2`: before `truncate`, in `BuildExpirationHeap`
(store.go:188-202), in the loop (store.go:223-229); `ptrs` are the tree pointers
held in the heap entries. -/
inductive Thread where
  | put1 (src : Str) (e : Envelope)
  | put2 (src : Str) (a : Nat) (e : Envelope)
  | put3 (a : Nat) (oldest loaded now : Int)
  | get1 (src : Str) (args : GetArgs)
  | get2 (src : Str) (a : Nat) (args : GetArgs)
  | meta0
  | meta1 (seen : List (Str × MetaInfo)) (start : List (Str × Nat))
  | meta2 (todo acc : List (Str × MetaInfo))
  | prune0
  | prune1 (n : Nat) (heap : ExpHeap) (ptrs : List (Str × Nat)) (start : List (Str × Nat))
  | prune2 (n : Nat) (heap : ExpHeap) (ptrs : List (Str × Nat))
  | done

/-- The first state of a call. Models `store.go:181, 205, 284, 483`. -/
def Call.start : Call → Thread
  | .put src e => .put1 src e
  | .get src a => .get1 src a
  | .metaAll => .meta0
  | .prune => .prune0

/-- Why the process panics. The lines are at its constructors (`store.go:116-499`). -/
inductive Panic where
  /-- `Left()` of a source without envelopes is nil (store.go:194). -/
  | emptySource (src : Str)
  /-- `heap.Pop` of an empty heap (store.go:224). -/
  | emptyHeap
  /-- `Load` finds nothing, `tree.(*storage)` fails (store.go:497-499). -/
  | goneSource (src : Str)
  /-- `panic("unknown type")` (store.go:478). -/
  | unknownType
  /-- `Left()` of an empty tree in `insertOrSwap` (store.go:116, 140). -/
  | noRoom
deriving DecidableEq

/-- What happens in a run.  `commit`: the envelope of a Put is inserted (at clock
value `now`).  `read`: a Get takes its answer.  `pruning`: a prune has found
something to remove.  `dropped`: a prune takes a source out of the index.
Models `store.go:110-505`. -/
inductive Ev where
  | call (i : Nat) (c : Call)
  | commit (i : Nat) (src : Str) (e : Envelope) (now : Int)
  | read (i : Nat) (src : Str) (a : GetArgs) (res : List Envelope)
  | metaRes (i : Nat) (r : List (Str × MetaInfo))
  | pruning (i n : Nat)
  | dropped (i : Nat) (src : Str)
  | ret (i : Nat)
  | panic (i : Nat) (why : Panic)

/-- The process. Models `store.go:35-51`. -/
structure Conc where
  cfg : Config
  heap : List Obj := []
  index : List (Str × Nat) := []
  g : Globals := {}
  threads : List Thread := []
  crashed : Bool := false

/-- Thread `i` goes on at `t`. Models `store.go:110-505`. -/
def Conc.goto (s : Conc) (i : Nat) (t : Thread) : Conc := { s with threads := s.threads.set i t }

/-- `getOrInitializeStorage` (store.go:90-108), under `initializationMutex`. -/
def Conc.getOrInit (s : Conc) (src : Str) : Conc × Nat :=
  match s.index.lookup src with
  | some a => (s, a)
  | none => ({ s with heap := s.heap ++ [{ storage := { sourceId := src } }],
                      index := s.index ++ [(src, s.heap.length)] }, s.heap.length)

/-- Is a prune running?  There is one prune loop (store.go:85, 166-179). -/
def Thread.isPrune : Thread → Bool
  | .prune0 => true
  | .prune1 .. => true
  | .prune2 .. => true
  | _ => false

/-- The end of `truncate` (store.go:231-251). -/
def Conc.pruneEnd (s : Conc) (i : Nat) (h : ExpHeap) (now : Int) : Conc :=
  let g := match h.popLast with
    | none => { s.g with oldest := maxInt64, cachePeriod := 0 }
    | some (x, _) => { s.g with oldest := x.timestamp, cachePeriod := calculateCachePeriod now x.timestamp }
  { s with g := { g with storeSize := s.g.count } }.goto i .done

/-- One step of one thread.  `locked = false` in a premise: the thread waits for the
lock.  Nothing happens after a crash. The lines are at its constructors (`store.go:90-505`). -/
inductive CStep : Conc → List Ev → Conc → Prop where
  /-- A call arrives. -/
  | call {s : Conc} (c : Call) (hp : c = .prune → ∀ t ∈ s.threads, t.isPrune = false)
      (hc : s.crashed = false) :
      CStep s [.call s.threads.length c] { s with threads := s.threads ++ [c.start] }
  /-- store.go:182-184. -/
  | putLookup {s : Conc} {i : Nat} {src : Str} {e : Envelope} (h : s.threads[i]? = some (.put1 src e))
      (hc : s.crashed = false) :
      CStep s [] ({ (s.getOrInit src).1 with g := { s.g with ingress := s.g.ingress + 1 } }.goto i
        (.put2 src (s.getOrInit src).2 e))
  /-- store.go:111-142. -/
  | putInsert {s : Conc} {i : Nat} {src : Str} {a : Nat} {e : Envelope} {st st' : Storage} {g' : Globals} (now : Int)
      (h : s.threads[i]? = some (.put2 src a e)) (ho : s.heap[a]? = some { storage := st })
      (hi : insertOrSwap s.cfg now s.g st e = some (g', st')) (hc : s.crashed = false) :
      CStep s [.commit i src e now]
        ({ s with heap := s.heap.set a { storage := st', locked := true },
                  g := { g' with oldest := s.g.oldest, cachePeriod := s.g.cachePeriod } }.goto i
          (.put3 a st'.info.oldest s.g.oldest now))
  | putCrash {s : Conc} {i : Nat} {src : Str} {a : Nat} {e : Envelope} {st : Storage} (now : Int)
      (h : s.threads[i]? = some (.put2 src a e)) (ho : s.heap[a]? = some { storage := st })
      (hi : insertOrSwap s.cfg now s.g st e = none) (hc : s.crashed = false) :
      CStep s [.panic i .noRoom] { s with crashed := true }
  /-- store.go:144-151. -/
  | putFinish {s : Conc} {i a : Nat} {oldest loaded now : Int} {o : Obj}
      (h : s.threads[i]? = some (.put3 a oldest loaded now)) (ho : s.heap[a]? = some o) (hc : s.crashed = false) :
      CStep s [.ret i]
        ({ s with heap := s.heap.set a { o with locked := false },
                  g := { s.g with oldest := if oldest < loaded then oldest else s.g.oldest,
                                  cachePeriod := calculateCachePeriod now
                                    (if oldest < loaded then oldest else loaded) } }.goto i .done)
  /-- store.go:293-296. -/
  | getMiss {s : Conc} {i : Nat} {src : Str} {args : GetArgs} (h : s.threads[i]? = some (.get1 src args))
      (hx : s.index.lookup src = none) (hc : s.crashed = false) :
      CStep s [.read i src args [], .ret i] (s.goto i .done)
  | getHit {s : Conc} {i : Nat} {src : Str} {args : GetArgs} {a : Nat} (h : s.threads[i]? = some (.get1 src args))
      (hx : s.index.lookup src = some a) (hc : s.crashed = false) :
      CStep s [] (s.goto i (.get2 src a args))
  /-- store.go:298-322. -/
  | getRead {s : Conc} {i : Nat} {src : Str} {args : GetArgs} {a : Nat} {st : Storage} {res : List Envelope}
      (h : s.threads[i]? = some (.get2 src a args)) (ho : s.heap[a]? = some { storage := st })
      (hr : getTree st.tree args = some res) (hc : s.crashed = false) :
      CStep s [.read i src args res, .ret i]
        ({ s with g := { s.g with egress := s.g.egress + res.length } }.goto i .done)
  | getCrash {s : Conc} {i : Nat} {src : Str} {args : GetArgs} {a : Nat} {st : Storage}
      (h : s.threads[i]? = some (.get2 src a args)) (ho : s.heap[a]? = some { storage := st })
      (hr : getTree st.tree args = none) (hc : s.crashed = false) :
      CStep s [.panic i .unknownType] { s with crashed := true }
  /-- store.go:484-486. -/
  | metaStart {s : Conc} {i : Nat} (h : s.threads[i]? = some .meta0) (hc : s.crashed = false) :
      CStep s [] (s.goto i (.meta1 [] s.index))
  /-- store.go:487-491: `Range` comes to an entry of the index it has not visited. -/
  | metaVisit {s : Conc} {i : Nat} {seen : List (Str × MetaInfo)} {start : List (Str × Nat)} {k : Str} {a : Nat}
      {st : Storage} (h : s.threads[i]? = some (.meta1 seen start)) (hk : (k, a) ∈ s.index)
      (hn : k ∉ seen.map Prod.fst) (ho : s.heap[a]? = some { storage := st }) (hc : s.crashed = false) :
      CStep s [] (s.goto i (.meta1 (seen ++ [(k, st.info)]) start))
  /-- `Range` ends when it has visited all entries that were there all the time; the
  second loop takes the copy in any order (store.go:496). -/
  | metaRangeEnd {s : Conc} {i : Nat} {seen : List (Str × MetaInfo)} {start : List (Str × Nat)}
      {todo : List (Str × MetaInfo)} (h : s.threads[i]? = some (.meta1 seen start))
      (hall : ∀ k a, (k, a) ∈ start → (k, a) ∈ s.index → k ∈ seen.map Prod.fst) (hp : todo.Perm seen)
      (hc : s.crashed = false) :
      CStep s [] (s.goto i (.meta2 todo []))
  /-- store.go:497-502. -/
  | metaCount {s : Conc} {i : Nat} {todo acc : List (Str × MetaInfo)} {k : Str} {info : MetaInfo} {a : Nat} {st : Storage}
      (h : s.threads[i]? = some (.meta2 ((k, info) :: todo) acc)) (hx : s.index.lookup k = some a)
      (ho : s.heap[a]? = some { storage := st }) (hc : s.crashed = false) :
      CStep s [] (s.goto i (.meta2 todo (acc ++ [(k, { info with count := st.tree.size })])))
  /-- store.go:497-499: `Load` finds nothing, `tree.(*storage)` panics. -/
  | metaCrash {s : Conc} {i : Nat} {todo acc : List (Str × MetaInfo)} {k : Str} {info : MetaInfo}
      (h : s.threads[i]? = some (.meta2 ((k, info) :: todo) acc)) (hx : s.index.lookup k = none)
      (hc : s.crashed = false) :
      CStep s [.panic i (.goneSource k)] { s with crashed := true }
  | metaEnd {s : Conc} {i : Nat} {acc : List (Str × MetaInfo)}
      (h : s.threads[i]? = some (.meta2 [] acc)) (hc : s.crashed = false) :
      CStep s [.metaRes i acc, .ret i] (s.goto i .done)
  /-- store.go:206-213. -/
  | pruneNothing {s : Conc} {i : Nat} (mc : Int → Int) (h : s.threads[i]? = some .prune0)
      (hn : mc s.g.count = 0) (hc : s.crashed = false) : CStep s [.ret i] (s.goto i .done)
  /-- store.go:206-220. -/
  | pruneStart {s : Conc} {i : Nat} (mc : Int → Int) (h : s.threads[i]? = some .prune0)
      (hn : mc s.g.count ≠ 0) (hc : s.crashed = false) :
      CStep s [.pruning i (if mc s.g.count > s.g.count then s.g.count else mc s.g.count).toNat]
        (s.goto i (.prune1 (if mc s.g.count > s.g.count then s.g.count else mc s.g.count).toNat [] [] s.index))
  /-- store.go:192-198. -/
  | pruneVisit {s : Conc} {i n : Nat} {h : ExpHeap} {ptrs start : List (Str × Nat)} {k : Str} {a : Nat}
      {st : Storage} {ts : Int} {v : Envelope} (ht : s.threads[i]? = some (.prune1 n h ptrs start))
      (hk : (k, a) ∈ s.index) (hn : k ∉ ptrs.map Prod.fst) (ho : s.heap[a]? = some { storage := st })
      (hl : st.tree.left = some (ts, v)) (hc : s.crashed = false) :
      CStep s [] (s.goto i (.prune1 n (h.push ⟨ts, k⟩) (ptrs ++ [(k, a)]) start))
  /-- store.go:194: `Left()` of an empty tree is nil. -/
  | pruneVisitCrash {s : Conc} {i n : Nat} {h : ExpHeap} {ptrs start : List (Str × Nat)} {k : Str} {a : Nat}
      {st : Storage} (ht : s.threads[i]? = some (.prune1 n h ptrs start))
      (hk : (k, a) ∈ s.index) (hn : k ∉ ptrs.map Prod.fst) (ho : s.heap[a]? = some { storage := st })
      (hl : st.tree.left = none) (hc : s.crashed = false) :
      CStep s [.panic i (.emptySource k)] { s with crashed := true }
  | pruneRangeEnd {s : Conc} {i n : Nat} {h : ExpHeap} {ptrs start : List (Str × Nat)}
      (ht : s.threads[i]? = some (.prune1 n h ptrs start))
      (hall : ∀ k a, (k, a) ∈ start → (k, a) ∈ s.index → k ∈ ptrs.map Prod.fst) (hc : s.crashed = false) :
      CStep s [] (s.goto i (.prune2 n h ptrs))
  /-- store.go:224-225, 257-259: the storage is empty. -/
  | prunePopNone {s : Conc} {i n : Nat} {h h' : ExpHeap} {ptrs : List (Str × Nat)} {x : Expiration} {a : Nat} {st : Storage}
      (ht : s.threads[i]? = some (.prune2 (n + 1) h ptrs)) (hpop : h.pop = some (x, h'))
      (ha : ptrs.lookup x.sourceId = some a) (ho : s.heap[a]? = some { storage := st })
      (hl : st.tree.left = none) (hc : s.crashed = false) :
      CStep s [] (s.goto i (.prune2 n h' ptrs))
  /-- store.go:224-225, 261-271: the last envelope of the storage is removed. -/
  | prunePopLast {s : Conc} {i n : Nat} {h h' : ExpHeap} {ptrs : List (Str × Nat)} {x : Expiration} {a : Nat} {st : Storage}
      {k : Int} {v : Envelope}
      (ht : s.threads[i]? = some (.prune2 (n + 1) h ptrs)) (hpop : h.pop = some (x, h'))
      (ha : ptrs.lookup x.sourceId = some a) (ho : s.heap[a]? = some { storage := st })
      (hl : st.tree.left = some (k, v)) (hl' : (st.tree.remove k).left = none) (hc : s.crashed = false) :
      CStep s [.dropped i x.sourceId]
        ({ s with g := { s.g with count := s.g.count - 1, expired := s.g.expired + 1 },
                  heap := s.heap.set a { storage := { st with tree := st.tree.remove k } },
                  index := s.index.filter (fun p => p.1 ≠ x.sourceId) }.goto i (.prune2 n h' ptrs))
  /-- store.go:224-228, 261-279. -/
  | prunePopMore {s : Conc} {i n : Nat} {h h' : ExpHeap} {ptrs : List (Str × Nat)} {x : Expiration} {a : Nat} {st : Storage}
      {k k' : Int} {v v' : Envelope}
      (ht : s.threads[i]? = some (.prune2 (n + 1) h ptrs)) (hpop : h.pop = some (x, h'))
      (ha : ptrs.lookup x.sourceId = some a) (ho : s.heap[a]? = some { storage := st })
      (hl : st.tree.left = some (k, v)) (hl' : (st.tree.remove k).left = some (k', v')) (hc : s.crashed = false) :
      CStep s []
        ({ s with g := { s.g with count := s.g.count - 1, expired := s.g.expired + 1 },
                  heap := s.heap.set a { storage := { st with tree := st.tree.remove k, info :=
                    { st.info with expired := st.info.expired + 1, oldest := k' } } } }.goto i
          (.prune2 n (h'.push ⟨k', x.sourceId⟩) ptrs))
  /-- store.go:224: `heap.Pop` of an empty heap. -/
  | prunePopCrash {s : Conc} {i n : Nat} {h : ExpHeap} {ptrs : List (Str × Nat)}
      (ht : s.threads[i]? = some (.prune2 (n + 1) h ptrs)) (hpop : h.pop = none) (hc : s.crashed = false) :
      CStep s [.panic i .emptyHeap] { s with crashed := true }
  /-- store.go:231-251. -/
  | pruneEnd {s : Conc} {i : Nat} {h : ExpHeap} {ptrs : List (Str × Nat)} (now : Int)
      (ht : s.threads[i]? = some (.prune2 0 h ptrs)) (hc : s.crashed = false) :
      CStep s [.ret i] (s.pruneEnd i h now)

/-- `CRun cfg evs s`: some schedule leads from a new store (store.go:63-88) to `s`
with the events `evs`. -/
inductive CRun (cfg : Config) : List Ev → Conc → Prop where
  | nil : CRun cfg [] { cfg := cfg }
  | step {evs evs' : List Ev} {s s' : Conc} : CRun cfg evs s → CStep s evs' s' → CRun cfg (evs ++ evs') s'

end LogCache
