import Verif.Model.Store
/-!
# The store with the arithmetic of `int64`

`Store` computes with unbounded integers.  The two places of
`/repo/internal/cache/store/store.go` that add or subtract timestamps are modelled here as
they are, with wrap-around: the fudge of keys (125-134) and the cache period (540-542).
-/
namespace LogCache

/-- `calculateCachePeriod` (store.go:540-542). -/
def cachePeriod64 (now oldest : Int) : Int := (wrap64 (now - oldest)).tdiv 1000000

/-- The fudge loop (store.go:125-132). -/
def fudgeFrom64 (t : Tree Envelope) (ts : Int) : Nat → Nat → Nat
  | 0, f => f
  | fuel + 1, f => if (t.get (wrap64 (ts + f))).isSome then fudgeFrom64 t ts fuel (f + 1) else f

/-- `insertOrSwap` (store.go:110-151). -/
def insertOrSwap64 (cfg : Config) (now : Int) (g : Globals) (s : Storage) (e : Envelope) :
    Option (Globals × Storage) :=
  let evicted : Option (Globals × Storage) :=
    if (s.tree.size : Int) ≥ cfg.maxPerSource then
      match s.tree.left with
      | none => none
      | some (k, _) =>
        some ({ g with expired := g.expired + 1 },
              { s with tree := s.tree.remove k,
                       info := { s.info with expired := s.info.expired + 1 } })
    else
      some ({ g with count := g.count + 1, storeSize := g.count + 1 }, s)
  match evicted with
  | none => none
  | some (g, s) =>
    let fudge := fudgeFrom64 s.tree e.timestamp cfg.maxFudge 0
    let tree := s.tree.put (wrap64 (e.timestamp + fudge)) e
    let newest := if e.timestamp > s.info.newest then e.timestamp else s.info.newest
    match tree.left with
    | none => none
    | some (oldest, _) =>
      let info := { s.info with newest := newest, oldest := oldest }
      let storeOldest := if oldest < g.oldest then oldest else g.oldest
      some ({ g with oldest := storeOldest, cachePeriod := cachePeriod64 now storeOldest },
            { s with tree := tree, info := info })

/-- `Put` (store.go:181-186). -/
def put64 (now : Int) (st : Store) (src : Str) (e : Envelope) : Option Store :=
  let g := { st.g with ingress := st.g.ingress + 1 }
  match insertOrSwap64 st.cfg now g (getOrInit st.index src) e with
  | none => none
  | some (g, s) => some { st with index := idxStore st.index src s, g := g }

/-- `truncate` (store.go:205-251). -/
def truncate64 (mc : Int → Int) (order : List (Str × Storage)) (now : Int) (st : Store) :
    Option Store :=
  let storeCount := st.g.count
  let n := mc storeCount
  if n = 0 then some st
  else
    let n := if n > storeCount then storeCount else n
    match buildHeap order [] with
    | none => none
    | some h =>
      match pruneLoop n.toNat st.g st.index h with
      | none => none
      | some (g, idx, h) =>
        let g :=
          match h.popLast with
          | none => { g with oldest := maxInt64, cachePeriod := 0 }
          | some (x, _) =>
            { g with oldest := x.timestamp, cachePeriod := cachePeriod64 now x.timestamp }
        some { st with index := idx, g := { g with storeSize := g.count } }

/-- Effect of a call; `none` is a panic. Models the calls of `store.go:181, 205, 284, 483`. -/
def Op.exec64 (st : Store) : Op → Option Store
  | .put now src e => put64 now st src e
  | .truncate now mc order => truncate64 mc order now st
  | .get src a => some (getState st src a)

/-- `Run64 st ops st'`: the calls `ops` executed from `st` lead to `st'` without a panic.
Models the calls of `store.go:181, 205, 284, 483`. -/
inductive Run64 : Store → List Op → Store → Prop where
  | nil (st : Store) : Run64 st [] st
  | snoc {st st' st'' : Store} {ops : List Op} {op : Op} :
      Run64 st ops st' → op.valid st' → op.exec64 st' = some st'' → Run64 st (ops ++ [op]) st''

end LogCache
