import Verif.Spec.Standalone
import Verif.Props.Cluster
import Verif.Props.Routing
import Verif.Props.Reader
/-!
# C152: a node on its own
-/
namespace LogCache
open Spec

/-! ## Options -/

theorem newNode_field {α : Type} (f : NodeOpt → Option α) (get : NodeParams → α)
    (hf : ∀ c o, get (o.apply c) = (f o).getD (get c)) (opts : List NodeOpt) :
    get (opts.foldl NodeOpt.apply {}) = optGiven f opts (get {}) := by
  suffices h : ∀ c, get (opts.foldl NodeOpt.apply c) = optGiven f opts (get c) from h {}
  intro c
  induction opts generalizing c with
  | nil => rfl
  | cons o os ih =>
    rw [List.foldl_cons, ih, hf]
    unfold optGiven
    cases ho : f o with
    | none => simp [ho]
    | some v =>
      rw [List.filterMap_cons_some ho, List.getLast?_cons]
      cases hl : (List.filterMap f os).getLast? <;> simp

/-- An option given last is the one that counts, whatever other options there are and in
whatever order; what no option sets is as documented: 100000 envelopes per source, half of
the memory, ten seconds for a query, the address `:8080`, no server options. Without addresses
the node's own, however it is set, is the only one. -/
theorem C152_options (opts : List NodeOpt) :
    (newNode opts).maxPerSource = optGiven (fun | .maxPerSource n => some n | _ => none) opts 100000 ∧
    (newNode opts).memoryLimit = optGiven (fun | .memoryLimit p => some p | _ => none) opts (f64OfInt 50) ∧
    (newNode opts).queryTimeout = optGiven (fun | .queryTimeout d => some d | _ => none) opts 10000000000 ∧
    (newNode opts).addr = optGiven (fun | .addr a => some a | _ => none) opts ":8080".toList ∧
    (newNode opts).serverOpts = optGiven (fun | .serverOpts o => some o | _ => none) opts [] ∧
    (newNode opts).extAddr = optGiven (fun | .externalAddr a => some a | _ => none) opts [] ∧
    (newNode opts).nodeIndex = optGiven (fun | .clustered i _ _ => some i | _ => none) opts 0 ∧
    (newNode opts).dialOpts = optGiven (fun | .clustered _ _ d => some d | _ => none) opts ["insecure".toList] ∧
    (newNode opts).nodeAddrs =
      match optGiven (fun | .clustered _ as _ => some as | _ => none) opts [] with
      | [] => [(newNode opts).addr]
      | as => as := by
  have hsplit : ∀ {β : Type} (g : NodeParams → β), (∀ c : NodeParams, g { c with nodeAddrs := [c.addr] } = g c) →
      g (newNode opts) = g (opts.foldl NodeOpt.apply {}) := by
    intro β g hg
    unfold newNode
    simp only
    split
    · exact hg _
    · rfl
  refine ⟨?_, ?_, ?_, ?_, ?_, ?_, ?_, ?_, ?_⟩
  · rw [hsplit (fun c => c.maxPerSource) (fun _ => rfl)]
    exact newNode_field _ _ (fun c o => by cases o <;> rfl) opts
  · rw [hsplit (fun c => c.memoryLimit) (fun _ => rfl)]
    exact newNode_field _ _ (fun c o => by cases o <;> rfl) opts
  · rw [hsplit (fun c => c.queryTimeout) (fun _ => rfl)]
    exact newNode_field _ _ (fun c o => by cases o <;> rfl) opts
  · rw [hsplit (fun c => c.addr) (fun _ => rfl)]
    exact newNode_field _ _ (fun c o => by cases o <;> rfl) opts
  · rw [hsplit (fun c => c.serverOpts) (fun _ => rfl)]
    exact newNode_field _ _ (fun c o => by cases o <;> rfl) opts
  · rw [hsplit (fun c => c.extAddr) (fun _ => rfl)]
    exact newNode_field _ _ (fun c o => by cases o <;> rfl) opts
  · rw [hsplit (fun c => c.nodeIndex) (fun _ => rfl)]
    exact newNode_field _ _ (fun c o => by cases o <;> rfl) opts
  · rw [hsplit (fun c => c.dialOpts) (fun _ => rfl)]
    exact newNode_field _ _ (fun c o => by cases o <;> rfl) opts
  · have h := newNode_field (fun | .clustered _ as _ => some as | _ => none)
      (fun c => c.nodeAddrs) (fun c o => by cases o <;> rfl) opts
    rw [← h, hsplit (fun c => c.addr) (fun _ => rfl)]
    unfold newNode
    simp only
    cases hn : (opts.foldl NodeOpt.apply {}).nodeAddrs with
    | nil => rfl
    | cons a as => rw [if_neg (by simp)]; exact hn

/-- An address set after the other options still becomes the node's only one. -/
example : (newNode [.maxPerSource 7, .addr "a:1".toList, .maxPerSource 9, .addr "b:2".toList]).nodeAddrs =
    ["b:2".toList] ∧
    (newNode [.maxPerSource 7, .addr "a:1".toList, .maxPerSource 9, .addr "b:2".toList]).maxPerSource = 9 := by
  decide

/-- What the command makes of its settings. -/
theorem C152_command (addr : Str) (mem max timeout index : Int) (addrs : List Str) :
    newNode (commandOpts addr mem max timeout index addrs) =
      { maxPerSource := max, memoryLimit := f64OfInt mem, queryTimeout := timeout, addr := addr,
        dialOpts := ["tls".toList], serverOpts := ["tls".toList], nodeIndex := index,
        nodeAddrs := if addrs = [] then [addr] else addrs } := by
  cases addrs <;> rfl

/-! ## The node on its own -/

theorem own_params {opts : List NodeOpt} (h : OnItsOwn opts) :
    (newNode opts).nodeIndex = 0 ∧ ∃ a, (newNode opts).nodeAddrs = [a] := by
  obtain ⟨-, -, -, -, -, -, h1, -, h2⟩ := C152_options opts
  have hm : ∀ {α : Type} (f : NodeOpt → Option α) (d : α) (P : α → Prop), (∀ o ∈ opts, ∀ w, f o = some w → P w) → P d →
      P (optGiven f opts d) := by
    intro α f d P hv hd
    unfold optGiven
    cases hl : (opts.filterMap f).getLast? with
    | none => exact hd
    | some w =>
      obtain ⟨o, ho, hw⟩ := List.mem_filterMap.1 (List.mem_of_getLast? hl)
      exact hv o ho w hw
  refine ⟨?_, ?_⟩
  · rw [h1]
    exact hm _ 0 (· = 0) (fun o ho w hw => by
      cases o <;> simp at hw
      exact hw ▸ (h _ _ _ ho).1) rfl
  · have hl := hm (fun | .clustered _ as _ => some as | _ => none) [] (fun as => as.length ≤ 1) (fun o ho w hw => by
      cases o <;> simp at hw
      exact hw ▸ (h _ _ _ ho).2) (Nat.zero_le _)
    rw [h2]
    split
    · exact ⟨_, rfl⟩
    · rename_i as hne
      match hx : optGiven (fun | .clustered _ as _ => some as | _ => none) opts [], hl with
      | [], _ => exact absurd hx hne
      | [a], _ => exact ⟨a, rfl⟩
      | _ :: _ :: _, hl => simp at hl

theorem own_clients {opts : List NodeOpt} (h : OnItsOwn opts) :
    (newNode opts).clients = ([0], 0) ∧ ∀ k, (newNode opts).ownClient k = decide (k = 0) := by
  obtain ⟨h1, a, h2⟩ := own_params h
  have hc : (newNode opts).clients = ([0], 0) := by
    unfold NodeParams.clients
    rw [h1, h2]
    rfl
  refine ⟨hc, fun k => ?_⟩
  unfold NodeParams.ownClient
  rw [hc, h1]
  cases k <;> simp

/-- A node of a cluster, started with `WithClustered` for its own place among the addresses and
any other options: it has a client for every address, in their order, the one at its own
place is its own store and the others forward, and what must stay local goes to its own. -/
theorem C152_clustered {opts : List NodeOpt} {i : Nat} {as : List Str}
    (hi : optGiven (fun | .clustered i _ _ => some i | _ => none) opts 0 = (i : Int))
    (ha : optGiven (fun | .clustered _ as _ => some as | _ => none) opts [] = as) (h : i < as.length) :
    (newNode opts).nodeAddrs = as ∧ (newNode opts).clients = (List.range as.length, i) ∧
      ∀ k, (newNode opts).ownClient k = true ↔ k = i := by
  obtain ⟨-, -, -, -, -, -, h1, -, h2⟩ := C152_options opts
  rw [hi] at h1
  rw [ha] at h2
  have h2 : (newNode opts).nodeAddrs = as := by
    cases as with
    | nil => exact absurd h (Nat.not_lt_zero _)
    | cons a as => exact h2
  have hc : (newNode opts).clients = (List.range as.length, i) := by
    unfold NodeParams.clients setupNode
    rw [h1, h2, if_neg (by omega), Int.toNat_natCast]
    exact C83_clients_partial h (fun _ _ _ => rfl)
  refine ⟨h2, hc, fun k => ?_⟩
  unfold NodeParams.ownClient
  rw [hc, h1]
  by_cases hk : k < as.length
  · rw [List.getElem?_range hk]
    simp only [decide_eq_true_eq]
    omega
  · rw [List.getElem?_eq_none (by simpa using hk)]
    constructor
    · intro hf
      exact nomatch hf
    · intro he
      omega

/-- The second of three nodes. -/
example : (newNode [.maxPerSource 7, .clustered 1 ["a:1".toList, "b:1".toList, "c:1".toList] []]).clients =
      ([0, 1, 2], 1) ∧
    (newNode [.maxPerSource 7, .clustered 1 ["a:1".toList, "b:1".toList, "c:1".toList] []]).ownClient 1 = true := by
  decide

theorem assignedLast_snoc (evs : List NodeEvent) (ev : NodeEvent) :
    assignedLast (evs ++ [ev]) =
      match ev with | .setRanges req => req.flatMap Prod.snd | _ => assignedLast evs := by
  unfold assignedLast
  rw [List.foldl_append]
  cases ev <;> rfl

theorem keptBy_append (evs1 evs2 : List NodeEvent) : ∀ ranges, keptBy ranges (evs1 ++ evs2) =
    keptBy ranges evs1 ++ keptBy (evs1.foldl (fun r ev => match ev with
      | .setRanges req => req.flatMap Prod.snd | _ => r) ranges) evs2 := by
  induction evs1 with
  | nil => intro ranges; rfl
  | cons ev evs ih =>
    intro ranges
    cases ev <;> simp [keptBy, ih]

theorem own_lookup {opts : List NodeOpt} (h : OnItsOwn opts) {evs : List NodeEvent}
    {fwd : List SendRequest} {s : NodeState} (hr : NodeRun (newNode opts) evs fwd s) :
    s.table.addrs = (newRTable (newNode opts).nodeAddrs sourceHash).addrs ∧ s.table.h = sourceHash ∧
      ∀ id, s.table.lookup id = List.replicate (timesCovered (assignedLast evs) id) 0 := by
  induction hr with
  | nil =>
    exact ⟨rfl, rfl, fun _ => rfl⟩
  | @snoc evs ev fwd more s s' _ hs ih =>
    rw [assignedLast_snoc]
    cases hs with
    | send => exact ih
    | prune => exact ih
    | @setRanges req t' hset =>
      obtain ⟨ha, hh, -⟩ := ih
      have hh' : t'.h = sourceHash := hset.h.trans hh
      refine ⟨hset.addrs.trans ha, hh', fun id => ?_⟩
      have hz : ∀ a, (s.table.addrs a).getD 0 = 0 := by
        intro a
        obtain ⟨x, hx⟩ := (own_params h).2
        rw [ha, hx]
        simp only [newRTable, addrLoop]
        split <;> rfl
      have hcol : collectRanges s.table req = (req.flatMap Prod.snd).map (fun r => (r, 0)) := by
        unfold collectRanges
        rw [List.map_flatMap]
        congr 1
        funext p
        rw [hz]
      have hp : (t'.table).Perm ((req.flatMap Prod.snd).map (fun r => (r, 0))) := hcol ▸ setRanges_perm hset
      have hl : (t'.lookup id).Perm (List.replicate (timesCovered (req.flatMap Prod.snd) id) 0) := by
        unfold RTable.lookup
        rw [hh', lookupLoop_eq]
        refine ((hp.filter _).map _).trans ?_
        rw [List.filter_map, List.map_map]
        unfold timesCovered
        rw [show (Prod.snd ∘ fun r : HRange => (r, 0)) = Function.const _ 0 from rfl, List.map_const]
        exact List.Perm.refl _
      exact List.perm_replicate.1 hl

theorem own_send {opts : List NodeOpt} (h : OnItsOwn opts) {s : NodeState} {ranges : List HRange}
    (hl : ∀ id, s.table.lookup id = List.replicate (timesCovered ranges id) 0) {req : SendRequest}
    {ok : Nat → Bool} {res : SendResult}
    (hi : IngressSend s.table.lookup (newNode opts).clients.1.length (newNode opts).clients.2 ok req (some res)) :
    res.sends.filter (fun x => !(newNode opts).ownClient x.1) = [] ∧
    (res.sends.filter (fun x => (newNode opts).ownClient x.1)).flatMap (fun x => localPuts x.2) =
      (keptBy ranges [.send req]).map (fun e => (e.sourceId, e)) := by
  obtain ⟨hc, ho⟩ := own_clients h
  rw [hc] at hi
  have hall : ∀ x ∈ res.sends, x.1 = 0 := by
    generalize hres : some res = r at hi
    cases hi with
    | localOnly => simp at hres; rw [hres]; simp
    | nilBatch => cases hres
    | proxied _ batch _ it =>
      split at hres
      · rename_i hit
        rw [Option.some.inj hres]
        intro x hx
        obtain ⟨p, hp, rfl⟩ := List.mem_map.1 hx
        have := List.all_eq_true.1 hit p hp
        simpa using this
      · cases hres
  have hf : res.sends.filter (fun x => (newNode opts).ownClient x.1) = res.sends := by
    rw [List.filter_eq_self]
    intro x hx
    rw [ho, hall x hx]; rfl
  refine ⟨?_, ?_⟩
  · rw [List.filter_eq_nil_iff]
    intro x hx
    rw [ho, hall x hx]; simp
  rw [hf]
  cases hlo : req.localOnly with
  | true =>
    obtain ⟨hr1, -⟩ := C33_local_only hlo (by decide) hi
    rw [Option.some.inj hr1]
    simp [keptBy, hlo, localPuts]
  | false =>
    cases he : req.envelopes with
    | none =>
      have : req = { envelopes := none } := by cases req; simp_all
      rw [this] at hi
      have := (C82_empty_send_false s.table.lookup [0].length 0 ok).2 _ hi
      cases this
    | some batch =>
      have hq : req = { envelopes := some batch } := by cases req; simp_all
      rw [hq] at hi
      obtain ⟨sends, h1, -, -, h4⟩ := C32_delivery hi (by
        intro e _ i hi'
        rw [hl] at hi'
        rw [List.eq_of_mem_replicate hi']; decide)
      have h5 := h4 0
      rw [Option.some.inj h1] at hall ⊢
      unfold sentTo at h5
      rw [List.filter_eq_self.2 (by intro x hx; simp [hall x hx])] at h5
      have : sends.flatMap (fun x => localPuts x.2) =
          (sends.flatMap (fun x => x.2.envelopes.getD [])).map (fun e => (e.sourceId, e)) := by
        rw [List.map_flatMap]; rfl
      rw [this, h5]
      simp [keptBy, hq, hl, List.count_replicate_self]

/-- A node without other nodes passes nothing on, whatever is sent to it and whatever the
scheduler tells it. -/
theorem C152_forwards_none {opts : List NodeOpt} (h : OnItsOwn opts) {evs : List NodeEvent}
    {fwd : List SendRequest} {s : NodeState} (hr : NodeRun (newNode opts) evs fwd s) : fwd = [] := by
  induction hr with
  | nil => rfl
  | @snoc evs ev fwd more s s' hrun hs ih =>
    rw [ih]
    cases hs with
    | send hi _ => simp [(own_send h (own_lookup h hrun).2.2 hi).1]
    | setRanges => rfl
    | prune => rfl

/-- What such a node keeps, exactly: its store went through the Puts, in order, of every
local-only Send and of every envelope of other Sends as often as its source was covered by the
ranges the scheduler had assigned last; and a Read is answered from that store if the source is
covered now, and otherwise refused. -/
theorem C152_kept {opts : List NodeOpt} (h : OnItsOwn opts) {evs : List NodeEvent}
    {fwd : List SendRequest} {s : NodeState} (hr : NodeRun (newNode opts) evs fwd s) :
    (∃ ops, Run (newStore { maxPerSource := (newNode opts).maxPerSource }) ops s.store ∧
      (∀ src, putsOf ops src = (keptBy [] evs).filter (fun e => e.sourceId = src)) ∧
      (Unpruned evs → NoPrune ops)) ∧
    ∀ id rnd, egressRoute s.table.lookup (newNode opts).clients.2 id rnd =
      if timesCovered (assignedLast evs) id = 0 then none else some 0 := by
  constructor
  · induction hr with
    | nil => exact ⟨[], Run.nil _, fun _ => rfl, fun _ _ h => by cases h⟩
    | @snoc evs ev fwd more s s' hrun hs ih =>
      obtain ⟨ops, h1, h2, h3⟩ := ih
      have hun : Unpruned (evs ++ [ev]) → Unpruned evs :=
        fun hu now mc order hm => hu now mc order (List.mem_append_left _ hm)
      cases hs with
      | @send req ok res st' hi hp =>
        rw [(own_send h (own_lookup h hrun).2.2 hi).2] at hp
        obtain ⟨ops', g1, g2, g3⟩ := putAll_run h1 hp
        refine ⟨ops ++ ops', g1, fun src => ?_, fun hu op hop => ?_⟩
        · rw [putsOf_append, h2, g2, keptBy_append, List.filter_append]
          congr 1
          rw [List.filter_map, List.map_map]
          exact List.map_id _
        · rcases List.mem_append.1 hop with hop | hop
          · exact h3 (hun hu) op hop
          · exact g3 op hop
      | setRanges => exact ⟨ops, h1, fun src => by rw [h2, keptBy_append]; simp [keptBy], fun hu => h3 (hun hu)⟩
      | @prune now mc order st' hperm ht =>
        refine ⟨ops ++ [.truncate now mc order], h1.snoc (op := .truncate now mc order) hperm ht, fun src => ?_, fun hu => ?_⟩
        · rw [putsOf_append, h2, keptBy_append]; simp [keptBy, putsOf]
        · exact absurd (by simp) (hu now mc order)
  · intro id rnd
    rw [(own_clients h).1]
    unfold egressRoute
    rw [(own_lookup h hr).2.2 id]
    cases timesCovered (assignedLast evs) id with
    | zero => rfl
    | succ n => simp [List.replicate_succ]

/-- Standalone, the documentation says, a node stores all the data. But until a scheduler has
assigned ranges it stores none of it: every Send succeeds, and what it carries is gone, and
every Read is refused. -/
theorem C152_standalone_false {opts : List NodeOpt} (h : OnItsOwn opts) :
    (∀ ok batch res, IngressSend (newNode opts).boot.table.lookup (newNode opts).clients.1.length
      (newNode opts).clients.2 ok { envelopes := some batch } res → res = some ⟨[], true⟩) ∧
    ∀ id rnd, egressRoute (newNode opts).boot.table.lookup (newNode opts).clients.2 id rnd = none := by
  constructor
  · intro ok batch res hi
    have hl : ∀ s, (newNode opts).boot.table.lookup s = [] := fun _ => rfl
    obtain ⟨sends, h1, -, -, h4⟩ := C32_delivery hi (by intro e _ i hi'; rw [hl] at hi'; cases hi')
    rw [h1] at hi
    have hno := (C32_no_owner hi).2
    cases sends with
    | nil => exact h1
    | cons x xs => exact absurd (by simp) (hno x.1 (by intro e _; rw [hl]; simp))
  · intro id rnd
    rfl

theorem sourceHash_le (s : Str) : sourceHash s ≤ maxHash := by
  unfold sourceHash bytesHash
  have := (crcChecksum (utf8Bytes s) (makeTable ecma)).isLt
  unfold maxHash
  omega

theorem keptBy_covered {evs : List NodeEvent}
    (hc : ∀ req, NodeEvent.setRanges req ∈ evs → CoverOnce (req.flatMap Prod.snd)) :
    ∀ ranges, CoverOnce ranges → keptBy ranges evs = sentToNode evs := by
  induction evs with
  | nil => intro ranges _; rfl
  | cons ev evs ih =>
    intro ranges hr
    have ih' := ih (fun req hm => hc req (List.mem_cons_of_mem _ hm))
    cases ev with
    | send req =>
      have h1 : ∀ src, timesCovered ranges src = 1 := fun src => hr _ (sourceHash_le src)
      simp only [keptBy, sentToNode, List.flatMap_cons, h1]
      rw [ih' _ hr]
      simp [sentToNode]
    | setRanges req =>
      simp only [keptBy, sentToNode, List.flatMap_cons]
      rw [ih' _ (hc req (List.mem_cons_self ..))]
      rfl
    | prune =>
      simp only [keptBy, sentToNode, List.flatMap_cons]
      rw [ih' _ hr]; rfl

theorem covered_now {evs : List NodeEvent} (h : Scheduled evs) : CoverOnce (assignedLast evs) := by
  obtain ⟨⟨req, rest, rfl⟩, hc⟩ := h
  unfold assignedLast
  rw [List.foldl_cons]
  suffices hs : ∀ (l : List NodeEvent), (∀ req, NodeEvent.setRanges req ∈ l → CoverOnce (req.flatMap Prod.snd)) →
      ∀ r, CoverOnce r → CoverOnce (l.foldl (fun r ev => match ev with
        | .setRanges req => req.flatMap Prod.snd | _ => r) r) from
    hs rest (fun req hm => hc req (List.mem_cons_of_mem _ hm)) _ (hc req (List.mem_cons_self ..))
  intro l
  induction l with
  | nil => intro _ r hr; exact hr
  | cons ev l ih =>
    intro hl r hr
    rw [List.foldl_cons]
    refine ih (fun req hm => hl req (List.mem_cons_of_mem _ hm)) _ ?_
    cases ev with
    | setRanges req => exact hl req (List.mem_cons_self ..)
    | send => exact hr
    | prune => exact hr

/-- With a scheduler that comes first and whose ranges contain every hash once (C30), to
whatever address it assigns them, such a node stores all the data and every Read is answered
from its store; without prunes, within the capacity of the source and with distinct timestamps
it is answered with the requested part of all that was sent. Missing for the full property: see
`C152_standalone_false`. -/
theorem C152_stores_all_partial {opts : List NodeOpt} (h : OnItsOwn opts)
    (hcap : 1 ≤ (newNode opts).maxPerSource) {evs : List NodeEvent}
    {fwd : List SendRequest} {s : NodeState} (hr : NodeRun (newNode opts) evs fwd s)
    (hs : Scheduled evs) (hu : Unpruned evs)
    (hd : ∀ src, (((sentToNode evs).filter (fun e => e.sourceId = src)).map Envelope.timestamp).Nodup)
    (src : Str)
    (hroom : (((sentToNode evs).filter (fun e => e.sourceId = src)).length : Int) ≤ (newNode opts).maxPerSource) :
    (∀ rnd, egressRoute s.table.lookup (newNode opts).clients.2 src rnd = some 0) ∧
    (newNode opts).ownClient 0 = true ∧
    ∃ log : List Envelope, log.Perm ((sentToNode evs).filter (fun e => e.sourceId = src)) ∧
      log.Pairwise (fun x y => x.timestamp ≤ y.timestamp) ∧
      ∀ compile now (req : ReadRequest), req.sourceId = src → (∀ k, EType.other k ∉ req.types) →
        (∃ err, localRead compile now s.store req = some (.error err)) ∨
        localRead compile now s.store req = some (.ok
          ((((((if req.descending then log.reverse else log).filter
              (inWindow req.start (if req.stop = 0 then now else req.stop))).filterMap
              (project (if req.nameFilter = [] then none else compile req.nameFilter))).filter
              (fun e => decide (∀ t ∈ req.types, t = .any) ||
                decide (∃ t ∈ req.types, kind e = some t)))).take
            (if req.limit = 0 then 100 else req.limit).toNat)) := by
  obtain ⟨⟨ops, hrun, hputs, hnp⟩, hroute⟩ := C152_kept h hr
  have hk : keptBy [] evs = sentToNode evs := by
    obtain ⟨⟨req, rest, rfl⟩, hc⟩ := hs
    have := keptBy_covered (evs := rest) (fun req hm => hc req (List.mem_cons_of_mem _ hm)) _
      (hc req (List.mem_cons_self ..))
    simp only [keptBy, this]
    rfl
  rw [hk] at hputs
  refine ⟨fun rnd => ?_, ?_, ?_⟩
  · have h1 : timesCovered (assignedLast evs) src = 1 := covered_now hs _ (sourceHash_le src)
    rw [hroute, h1]; rfl
  · rw [(own_clients h).2]; rfl
  · have hdist : DistinctTs ops := fun src => by rw [hputs]; exact hd src
    obtain ⟨A, hA, hans⟩ := C26_read_api (cfg := { maxPerSource := (newNode opts).maxPerSource }) hcap hrun hdist
    refine ⟨A src, ?_, logRun_sorted hA src, ?_⟩
    · rw [← hputs]
      exact logRun_keeps hA (hnp hu) src (by rw [hputs]; exact hroom)
    · intro compile now req hsrc hk
      subst hsrc
      exact hans compile now req hk

/-- A node on its own, told of one range by a scheduler that calls it by another name, and sent
an envelope. -/
def sampleNodeEvents : List NodeEvent :=
  [.setRanges [("other:1".toList, [⟨0, maxHash⟩])]] ++ [.send { envelopes := some [logAt 3] }]

/-- Its table then. -/
def sampleNodeTable : RTable :=
  { newRTable [":8080".toList] sourceHash with table := [(⟨0, maxHash⟩, 0)] }

example : OnItsOwn (commandOpts "a:1".toList 50 5 1000000000 0 ["b:2".toList]) := by
  intro i as d hm
  simp [commandOpts] at hm
  simp [hm]

example : OnItsOwn [.maxPerSource 5] ∧ Scheduled sampleNodeEvents ∧ Unpruned sampleNodeEvents ∧
    sentToNode sampleNodeEvents = [logAt 3] ∧
    ∃ s, NodeRun (newNode [.maxPerSource 5]) sampleNodeEvents [] s ∧
      localRead (fun _ => none) 9 s.store { sourceId := [] } = some (.ok [logAt 3]) := by
  refine ⟨by intro i as d hm; simp at hm, ⟨⟨_, _, rfl⟩, ?_⟩, by intro _ _ _ hm; simp [sampleNodeEvents] at hm,
    by decide, ?_⟩
  · intro req hm h hh
    simp [sampleNodeEvents] at hm
    subst hm
    simp [covers, hh]
  · have hset : SetRanges (newRTable [":8080".toList] sourceHash) [("other:1".toList, [⟨0, maxHash⟩])]
        sampleNodeTable := by
      refine ⟨rfl, rfl, ⟨_, List.Perm.refl _, ?_⟩, List.pairwise_singleton ..⟩
      rw [show collectRanges (newRTable [":8080".toList] sourceHash) [("other:1".toList, [⟨0, maxHash⟩])] =
        [(⟨0, maxHash⟩, 0)] from rfl]
      exact List.Perm.refl _
    have hlk : ∀ id, RTable.lookup sampleNodeTable id = [0] := by
      intro id
      have := sourceHash_le id
      simp [RTable.lookup, lookupLoop, outside, newRTable, sampleNodeTable]
      omega
    have hi : IngressSend (RTable.lookup sampleNodeTable)
        1 0 (fun _ => true) { envelopes := some [logAt 3] }
        (some ⟨[(0, { envelopes := some [logAt 3], localOnly := true })], true⟩) :=
      .proxied _ rfl [logAt 3] rfl [(0, [logAt 3])] (by
        simp [groupByNode, hlk, appendAt])
    have h1 : NodeRun (newNode [.maxPerSource 5]) [.setRanges [("other:1".toList, [⟨0, maxHash⟩])]] []
        { (newNode [.maxPerSource 5]).boot with table := sampleNodeTable } :=
      NodeRun.snoc (evs := []) (fwd := []) NodeRun.nil (.setRanges hset)
    exact ⟨_, NodeRun.snoc (fwd := []) (more := []) h1 (NodeStep.send (p := newNode [.maxPerSource 5])
      (res := ⟨[(0, { envelopes := some [logAt 3], localOnly := true })], true⟩)
      (s := { (newNode [.maxPerSource 5]).boot with table := sampleNodeTable }) hi (.cons 0 rfl (.nil _))), rfl⟩

end LogCache
