import Verif.Model.Config
import Verif.Model.Hash
import Verif.Model.Float
/-!
# The options of a node, and the node they make

Models `/repo/internal/cache/log_cache.go:55-152`, `:165-236` and
`/repo/cmd/log-cache/main.go:46-61`. Options of grpc are opaque names.
-/
namespace LogCache

/-- `LogCacheOption` (log_cache.go:80-152): the options `New` takes. -/
inductive NodeOpt where
  | maxPerSource (size : Int)
  | addr (a : Str)
  | serverOpts (os : List Str)
  | memoryLimit (percent : F64)
  | queryTimeout (d : Int)
  | clustered (index : Int) (addrs : List Str) (dial : List Str)
  | externalAddr (a : Str)
deriving DecidableEq

/-- The fields of `LogCache` that options set (log_cache.go:36-52), with what `New` puts there
first (log_cache.go:57-66). Durations are in nanoseconds. -/
structure NodeParams where
  maxPerSource : Int := 100000
  memoryLimit : F64 := f64OfInt 50
  queryTimeout : Int := 10 * 1000000000
  addr : Str := ":8080".toList
  dialOpts : List Str := ["insecure".toList]
  serverOpts : List Str := []
  extAddr : Str := []
  nodeAddrs : List Str := []
  nodeIndex : Int := 0
deriving DecidableEq

/-- What an option does (log_cache.go:86-90, 94-98, 102-106, 110-114, 119-123, 131-137,
143-147). -/
def NodeOpt.apply (c : NodeParams) : NodeOpt → NodeParams
  | .maxPerSource size => { c with maxPerSource := size }
  | .addr a => { c with addr := a }
  | .serverOpts os => { c with serverOpts := os }
  | .memoryLimit p => { c with memoryLimit := p }
  | .queryTimeout d => { c with queryTimeout := d }
  | .clustered i as d => { c with nodeIndex := i, nodeAddrs := as, dialOpts := d }
  | .externalAddr a => { c with extAddr := a }

/-- `New` (log_cache.go:56-78). -/
def newNode (opts : List NodeOpt) : NodeParams :=
  let c := opts.foldl NodeOpt.apply {}
  if c.nodeAddrs.length = 0 then { c with nodeAddrs := [c.addr] } else c

/-- The options of the command (`cmd/log-cache/main.go:49-60`). -/
def commandOpts (addr : Str) (memoryLimit maxPerSource queryTimeout nodeIndex : Int)
    (nodeAddrs : List Str) : List NodeOpt :=
  [.addr addr, .memoryLimit (f64OfInt memoryLimit), .maxPerSource maxPerSource,
    .queryTimeout queryTimeout, .clustered nodeIndex nodeAddrs ["tls".toList],
    .serverOpts ["tls".toList]]

/-- A running node: its store and its routing table. Models `log_cache.go:150-154`, `:182`. -/
structure NodeState where
  store : Store
  table : RTable

/-- `Start` (log_cache.go:151-155, 165-183): a new store of the configured capacity and a
routing table for the addresses, without ranges. -/
def NodeParams.boot (p : NodeParams) : NodeState :=
  { store := newStore { maxPerSource := p.maxPerSource }, table := newRTable p.nodeAddrs sourceHash }

/-- The clients of the node and its local index (log_cache.go:194-228). -/
def NodeParams.clients (p : NodeParams) : List Nat × Nat := setupNode p.nodeIndex p.nodeAddrs.length

/-- Is the client at place `k` the one that puts envelopes into the node's own store
(log_cache.go:196, 219-226)? The others forward to another address. -/
def NodeParams.ownClient (p : NodeParams) (k : Nat) : Bool :=
  match p.clients.1[k]? with
  | some i => decide ((i : Int) = p.nodeIndex)
  | none => false

end LogCache
