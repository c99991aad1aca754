import Verif.Spec.Options
import Verif.Props.Client
import Verif.Props.Routing
/-! # Options mean what they say, in whatever order they are given -/
namespace LogCache
open Spec

theorem foldl_given {ο σ α : Type} (step : σ → ο → σ) (f : ο → Option α) (get : σ → α)
    (hf : ∀ c o, get (step c o) = (f o).getD (get c)) (opts : List ο) (c : σ) :
    get (opts.foldl step c) = givenLast f opts (get c) := by
  induction opts generalizing c with
  | nil => rfl
  | cons o os ih =>
    rw [List.foldl_cons, ih, hf]
    unfold givenLast
    cases ho : f o with
    | none => simp [ho]
    | some v =>
      rw [List.filterMap_cons_some ho, List.getLast?_cons]
      cases hl : (List.filterMap f os).getLast? <;> simp

/-- Of each kind the option given last is the one that counts, in whatever order; a walk
without options starts in 1970, has no end, no limit, no filter, waits a second for late
envelopes and stops at the first error or empty answer. -/
theorem C153_walk (opts : List WalkOpt) :
    (walkParams opts).cfg.start = givenLast (fun | .start t => some (unixNano t) | _ => none) opts 0 ∧
    (walkParams opts).cfg.stop = givenLast (fun | .stop t => some t | _ => none) opts none ∧
    (walkParams opts).cfg.limit = givenLast (fun | .limit n => some (some n) | _ => none) opts none ∧
    (walkParams opts).cfg.types.getD [] = givenLast (fun | .types ts => some ts | _ => none) opts [] ∧
    (walkParams opts).cfg.nameFilter = givenLast (fun | .nameFilter s => some s | _ => none) opts [] ∧
    (walkParams opts).cfg.delay = givenLast (fun | .delay d => some d | _ => none) opts 1000000000 ∧
    (walkParams opts).backoff = givenLast (fun | .backoff b => some b | _ => none) opts .done := by
  refine ⟨?_, ?_, ?_, ?_, ?_, ?_, ?_⟩
  · exact foldl_given _ _ (fun p : WalkParams => p.cfg.start) (fun c o => by cases o <;> rfl) opts {}
  · exact foldl_given _ _ (fun p : WalkParams => p.cfg.stop) (fun c o => by cases o <;> rfl) opts {}
  · exact foldl_given _ _ (fun p : WalkParams => p.cfg.limit) (fun c o => by cases o <;> rfl) opts {}
  · refine foldl_given _ _ (fun p : WalkParams => p.cfg.types.getD []) (fun c o => ?_) opts {}
    cases o with
    | types ts => by_cases h : ts = [] <;> simp [WalkOpt.apply, h]
    | _ => rfl
  · exact foldl_given _ _ (fun p : WalkParams => p.cfg.nameFilter) (fun c o => by cases o <;> rfl) opts {}
  · exact foldl_given _ _ (fun p : WalkParams => p.cfg.delay) (fun c o => by cases o <;> rfl) opts {}
  · exact foldl_given _ _ (fun p : WalkParams => p.backoff) (fun c o => by cases o <;> rfl) opts {}

/-- A walk told to start at the zero time starts, in nanoseconds since 1970, at the number of 64
bits that the first of January of the year 1 wraps around to, which is in 1754. -/
theorem C153_zero_start (opts : List WalkOpt) :
    ∃ k : Int, (walkParams (opts ++ [.start none])).cfg.start + k * 2 ^ 64 = -62135596800 * 1000000000 ∧
      -2 ^ 63 ≤ (walkParams (opts ++ [.start none])).cfg.start ∧ (walkParams (opts ++ [.start none])).cfg.start < 2 ^ 63 := by
  have h : (walkParams (opts ++ [.start none])).cfg.start = unixNano none := by
    rw [(C153_walk _).1, givenLast, List.filterMap_append]
    simp
  rw [h]
  exact ⟨-3, by decide, by decide, by decide⟩

example : (walkParams [.start none]).cfg.start ≠ (walkParams []).cfg.start := by decide

theorem asked_walk (sourceId : Str) (start : Int) (c : WalkCfg) :
    asked sourceId start (walkReadOpts c) = walkRequest c sourceId start := by
  obtain ⟨s, e, l, t, n, d⟩ := c
  cases e <;> cases l <;> cases t <;> by_cases h : n = [] <;>
    simp [walkReadOpts, asked, walkRequest, h, lastSome, endOf, limitOf, nameOf, typesOf, isDesc]

theorem givenLast_all {ο α : Type} {f : ο → Option α} {opts : List ο} {d : α} {P : α → Prop} (hd : P d)
    (h : ∀ o ∈ opts, ∀ v, f o = some v → P v) : P (givenLast f opts d) := by
  unfold givenLast
  cases hl : (opts.filterMap f).getLast? with
  | none => exact hd
  | some v =>
    obtain ⟨o, ho, hv⟩ := List.mem_filterMap.mp (List.mem_of_getLast? hl)
    exact h o ho v hv

theorem walkRequest_asks (sourceId : Str) (start : Int) (opts : List WalkOpt) :
    walkRequest (walkParams opts).cfg sourceId start = walkAsks sourceId start opts := by
  obtain ⟨-, h2, -, h4, h5, -, -⟩ := C153_walk opts
  have h3 : (walkParams opts).cfg.limit.getD 0 = givenLast (fun | .limit n => some n | _ => none) opts 0 :=
    foldl_given _ _ (fun p : WalkParams => p.cfg.limit.getD 0) (fun c o => by cases o <;> rfl) opts {}
  unfold walkRequest walkAsks
  rw [h2, h3, h4, h5]
  rfl

/-- Every read of a walk, over HTTP and over gRPC, reaches the server as the request that the
walk's options mean: with the end, limit, types and name filter given last, from where the walk
has got to, oldest first. -/
theorem C153_walk_reads (sourceId : Str) (start : Int) (opts : List WalkOpt) (hs : FitsInt64 start)
    (hf : ∀ o ∈ opts, WalkOptFits o) :
    gatewayRead sourceId (httpReadParams start (walkReadOpts (walkParams opts).cfg)) =
      some (walkAsks sourceId start opts) ∧
    grpcRead sourceId start (walkReadOpts (walkParams opts).cfg) = walkAsks sourceId start opts := by
  obtain ⟨-, h2, h3, h4, h5, -, -⟩ := C153_walk opts
  have hstop : ∀ t, (walkParams opts).cfg.stop = some t → FitsInt64 t := by
    rw [h2]
    refine givenLast_all (P := fun v => ∀ t, v = some t → FitsInt64 t) (fun t h => by cases h) ?_
    intro o ho v hv t ht
    cases o <;> simp at hv
    subst hv; subst ht
    exact hf _ ho
  have hlim : ∀ n, (walkParams opts).cfg.limit = some n → FitsInt64 n := by
    rw [h3]
    refine givenLast_all (P := fun v => ∀ n, v = some n → FitsInt64 n) (fun t h => by cases h) ?_
    intro o ho v hv t ht
    cases o <;> simp at hv
    subst hv; cases ht
    exact hf _ ho
  have htyp : ∀ ts, (walkParams opts).cfg.types = some ts → ∀ n, EType.other n ∉ ts := by
    intro ts hts
    have : ts = givenLast (fun | .types ts => some ts | _ => none) opts [] := by rw [← h4, hts]; rfl
    rw [this]
    refine givenLast_all (P := fun v : List EType => ∀ n, EType.other n ∉ v) (fun n => by simp) ?_
    intro o ho v hv
    cases o <;> simp at hv
    subst hv
    exact hf _ ho
  have hr : ∀ o ∈ walkReadOpts (walkParams opts).cfg, OptInRange o ∧ OptKnown o := by
    intro o ho
    unfold walkReadOpts at ho
    simp only [List.mem_append] at ho
    rcases ho with ((ho | ho) | ho) | ho
    · cases he : (walkParams opts).cfg.stop with
      | none => rw [he] at ho; cases ho
      | some t =>
        rw [he] at ho
        rw [List.mem_singleton.mp ho]
        exact ⟨hstop t he, trivial⟩
    · cases he : (walkParams opts).cfg.limit with
      | none => rw [he] at ho; cases ho
      | some t =>
        rw [he] at ho
        rw [List.mem_singleton.mp ho]
        exact ⟨hlim t he, trivial⟩
    · cases he : (walkParams opts).cfg.types with
      | none => rw [he] at ho; cases ho
      | some t =>
        rw [he] at ho
        rw [List.mem_singleton.mp ho]
        exact ⟨trivial, htyp t he⟩
    · split at ho
      · rw [List.mem_singleton.mp ho]; exact ⟨trivial, trivial⟩
      · cases ho
  rw [C52_http sourceId start _ hs (fun o ho => (hr o ho).1) (fun o ho => (hr o ho).2),
    C52_grpc_partial sourceId start _ (fun o ho => (hr o ho).1) (fun o ho => (hr o ho).2), asked_walk,
    walkRequest_asks]
  exact ⟨rfl, rfl⟩

/-- The walks of PromQL queries and of Windows are the walks of these options. -/
theorem C153_library_walks (req : ReadRequest) (start stop : Int) :
    (walkParams (dataReaderOpts req)).cfg = dataReaderCfg req ∧
    (walkParams (dataReaderOpts req)).backoff = .limited 1000000000 5 true ∧
    (walkParams (walkerOpts start stop)).cfg = windowWalk start stop ∧
    (walkParams (walkerOpts start stop)).backoff = .done := by
  exact ⟨rfl, rfl, rfl, rfl⟩

/-- A Window's options count as given last; it starts where it is told to, and otherwise as long
ago as its windows are wide, also when the width is given after another option; a Window without
options has windows of an hour and moves by a minute. -/
theorem C153_window (opts : List WindowOpt) (now : Int) :
    (windowParams opts).width = givenLast (fun | .width w => some w | _ => none) opts 3600000000000 ∧
    (windowParams opts).interval = givenLast (fun | .interval i => some i | _ => none) opts 60000000000 ∧
    windowBegin (windowParams opts) now =
      match givenLast (fun | .start t => some t | _ => none) opts none with
      | some t => t
      | none => now - givenLast (fun | .width w => some w | _ => none) opts 3600000000000 := by
  have h1 := foldl_given WindowOpt.apply (fun | .width w => some w | _ => none) (fun p : WindowCfg => p.width)
    (fun c o => by cases o <;> rfl) opts {}
  have h2 := foldl_given WindowOpt.apply (fun | .interval i => some i | _ => none) (fun p : WindowCfg => p.interval)
    (fun c o => by cases o <;> rfl) opts {}
  have h3 := foldl_given WindowOpt.apply (fun | .start t => some t | _ => none) (fun p : WindowCfg => p.start)
    (fun c o => by cases o <;> rfl) opts {}
  refine ⟨h1, h2, ?_⟩
  unfold windowBegin windowParams
  simp only at h1 h3
  rw [h1, h3]
  cases givenLast (fun | .start t => some t | _ => none) opts none <;> rfl

/-- A client reads over gRPC if that option is among the given, in whatever place, and
otherwise over HTTP with the HTTP client given last or the library's own. -/
theorem C153_client (opts : List ClientOpt) :
    ((∃ dial, ClientOpt.viaGrpc dial ∈ opts) → (newClient opts).readsWith = none) ∧
    ((¬ ∃ dial, ClientOpt.viaGrpc dial ∈ opts) → (newClient opts).readsWith =
      some (givenLast (fun | .httpClient n => some (some n) | _ => none) opts none)) := by
  have h1 := foldl_given ClientOpt.apply (fun | .httpClient n => some (some n) | _ => none)
    (fun p : ClientParams => p.http) (fun c o => by cases o <;> rfl) opts {}
  have h2 := foldl_given ClientOpt.apply (fun | .viaGrpc d => some (some d) | _ => none)
    (fun p : ClientParams => p.grpc) (fun c o => by cases o <;> rfl) opts {}
  simp only at h1 h2
  unfold ClientParams.readsWith newClient
  rw [h1, h2]
  refine ⟨fun h => ?_, fun h => ?_⟩
  · obtain ⟨d, hd⟩ := h
    unfold givenLast
    cases hl : (opts.filterMap (fun | ClientOpt.viaGrpc d => some (some d) | _ => none)).getLast? with
    | none =>
      rw [List.getLast?_eq_none_iff, List.filterMap_eq_nil_iff] at hl
      have := hl _ hd
      simp at this
    | some v =>
      obtain ⟨o, ho, hv⟩ := List.mem_filterMap.mp (List.mem_of_getLast? hl)
      cases o <;> simp at hv
      subst hv; rfl
  · have : opts.filterMap (fun | ClientOpt.viaGrpc d => some (some d) | _ => none) = ([] : List (Option (List Str))) := by
      rw [List.filterMap_eq_nil_iff]
      intro o ho
      cases o with
      | httpClient n => rfl
      | viaGrpc d => exact absurd ⟨d, ho⟩ h
    unfold givenLast
    rw [this]
    rfl

/-- A scheduler's options count as given last; without options it has 100 ranges, one copy of
each, a term each minute and is always leader. -/
theorem C153_scheduler (opts : List SchedOpt) :
    newScheduler opts =
      { interval := givenLast (fun | .interval d => some d | _ => none) opts 60000000000
        count := givenLast (fun | .count n => some n | _ => none) opts 100
        replication := givenLast (fun | .replication n => some n | _ => none) opts 1
        dial := givenLast (fun | .dial os => some os | _ => none) opts ["insecure".toList]
        leadership := givenLast (fun | .leadership f => some f | _ => none) opts "always".toList } := by
  have h1 := foldl_given SchedOpt.apply (fun | .interval d => some d | _ => none) (fun p : SchedParams => p.interval)
    (fun c o => by cases o <;> rfl) opts {}
  have h2 := foldl_given SchedOpt.apply (fun | .count d => some d | _ => none) (fun p : SchedParams => p.count)
    (fun c o => by cases o <;> rfl) opts {}
  have h3 := foldl_given SchedOpt.apply (fun | .replication d => some d | _ => none)
    (fun p : SchedParams => p.replication) (fun c o => by cases o <;> rfl) opts {}
  have h4 := foldl_given SchedOpt.apply (fun | .dial d => some d | _ => none) (fun p : SchedParams => p.dial)
    (fun c o => by cases o <;> rfl) opts {}
  have h5 := foldl_given SchedOpt.apply (fun | .leadership d => some d | _ => none)
    (fun p : SchedParams => p.leadership) (fun c o => by cases o <;> rfl) opts {}
  simp only at h1 h2 h3 h4 h5
  rw [← h1, ← h2, ← h3, ← h4, ← h5]
  rfl

/-- With a count between 1 and 2^32, given by an option or not, every 64-bit hash lies in
exactly one task of the scheduler, and every task has as many instances as the replication
factor says. -/
theorem C153_tasks {opts : List SchedOpt}
    (h1 : 1 ≤ givenLast (fun | .count n => some n | _ => none) opts 100)
    (h2 : givenLast (fun | .count n => some n | _ => none) opts 100 ≤ 2 ^ 32) :
    ∃ ts, (newScheduler opts).tasks = some ts ∧
      (∀ h, h ≤ maxHash → (ts.filter (fun t => decide (t.1.start ≤ h ∧ h ≤ t.1.stop))).length = 1) ∧
      ∀ t ∈ ts, t.2 = givenLast (fun | .replication n => some n | _ => none) opts 1 := by
  obtain ⟨rs, hrs, -, hp, -⟩ := C30_partition h1 h2
  rw [C153_scheduler]
  refine ⟨rs.map fun r => (r, givenLast (fun | .replication n => some n | _ => none) opts 1), ?_, ?_, ?_⟩
  · simp only [SchedParams.tasks, hrs, Option.map_some]
  · intro h hh
    rw [List.filter_map, List.length_map]
    exact hp h hh
  · intro t ht
    obtain ⟨r, -, rfl⟩ := List.mem_map.mp ht
    rfl

/-- What the command makes of its settings; without an endpoint it is always leader. -/
theorem C153_scheduler_command (interval count replication : Int) (endpoint : Str) :
    newScheduler (schedCommandOpts interval count replication endpoint) =
      { interval := interval, count := count, replication := replication, dial := ["tls".toList],
        leadership := if endpoint = [] then "always".toList else endpoint } := by
  by_cases h : endpoint = [] <;> simp [newScheduler, schedCommandOpts, h, SchedOpt.apply]

/-- A nozzle asks for the kinds given last, a syslog server listens on the port given last and
waits for as long as given last, or two minutes. -/
theorem C153_senders (nopts : List NozzleOpt) (sopts : List SyslogOpt) :
    buildSelectors (newNozzle nopts).selectors =
      (givenLast (fun | .selectors ns => some ns | _ => none) nopts []).map selectorTypes ∧
    (newNozzle nopts).dial = givenLast (fun | .dial os => some os | _ => none) nopts ["insecure".toList] ∧
    (newSyslogServer sopts).port = givenLast (fun | .port p => some p | _ => none) sopts 0 ∧
    (newSyslogServer sopts).idle = givenLast (fun | .idle d => some d | _ => none) sopts 120000000000 := by
  refine ⟨?_, ?_, ?_, ?_⟩
  · have := foldl_given NozzleOpt.apply (fun | .selectors ns => some ns | _ => none)
      (fun p : NozzleParams => p.selectors) (fun c o => by cases o <;> rfl) nopts {}
    unfold buildSelectors newNozzle
    exact congrArg (List.map selectorTypes) this
  · exact foldl_given _ _ (fun p : NozzleParams => p.dial) (fun c o => by cases o <;> rfl) nopts {}
  · exact foldl_given _ _ (fun p : SyslogParams => p.port) (fun c o => by cases o <;> rfl) sopts {}
  · exact foldl_given _ _ (fun p : SyslogParams => p.idle) (fun c o => by cases o <;> rfl) sopts {}

/-- At the beginning of 1970 exactly an end is the same to the server as no end; only the walk
itself then keeps to it (C44). -/
theorem C153_epoch (sourceId : Str) (start : Int) :
    walkAsks sourceId start [.stop (some 0)] = walkAsks sourceId start [] := rfl

/-- Options of a walk in which both ends, a limit, types and a filter are given, the limit
twice. -/
def sampleWalkOpts : List WalkOpt :=
  [.limit 7, .stop (some 900), .types [.log, .gauge], .start (some 5), .nameFilter "cpu.*".toList, .limit 9,
    .backoff (.limited 1000 3 false)]

example : (∀ o ∈ sampleWalkOpts, WalkOptFits o) ∧
    walkAsks "s".toList 5 sampleWalkOpts =
      { sourceId := "s".toList, start := 5, stop := 900, limit := 9, types := [.log, .gauge],
        descending := false, nameFilter := "cpu.*".toList } := by
  refine ⟨?_, rfl⟩
  intro o ho
  simp only [sampleWalkOpts, List.mem_cons, List.not_mem_nil, or_false] at ho
  rcases ho with rfl | rfl | rfl | rfl | rfl | rfl | rfl <;> simp [WalkOptFits, FitsInt64]

example : (newClient [.viaGrpc [], .httpClient "h".toList]).readsWith = none := rfl

example : windowBegin (windowParams [.start none, .interval 5, .width 40]) 100 = 60 := rfl

example : (newScheduler [.replication 2, .count 4]).tasks.map List.length = some 4 := by decide

end LogCache
