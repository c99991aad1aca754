import Verif.Props.UserCrash
/-!
# What a user does not get, or gets without the right to it (C126)
-/
namespace LogCache
open Spec

/-- What the server sees of a Read of `a`. -/
theorem fairRead_any (start : Int) (opts : List ReadOpt) (hs : FitsInt64 start) (ho : ∀ o ∈ opts, OptInRange o)
    (hk : ∀ o ∈ opts, OptKnown o)
    (hw : (asked "a".toList start opts).stop = 0 ∨ start ≤ (asked "a".toList start opts).stop)
    (hl : 0 ≤ (asked "a".toList start opts).limit ∧ (asked "a".toList start opts).limit ≤ 1000)
    (hf : (asked "a".toList start opts).nameFilter = [])
    (hsize : (readReqProto.encode (asked "a".toList start opts)).length ≤ grpcMaxMessage) :
    ∃ r, FairRead (fun _ => true) doorUser (fun i _ => decide (i = "a".toList)) (fun _ => none) "a".toList start opts r := by
  obtain ⟨q, h, _⟩ := C132_read "a".toList start opts hs ho hk
  exact ⟨{ method := "GET".toList, path := _, params := q, authorization := "t".toList },
    hs, ho, hk, hw, hl, .inl hf, hsize, h, ⟨by unfold CleanId; decide +kernel, by decide, by decide⟩, rfl,
    ⟨show "t".toList ≠ [] by decide, ⟨false, "t".toList, 0⟩, show doorUser "t".toList = _ by decide, .inr (by decide)⟩⟩

/-- One Send with four logs, the last two of the same time. -/
def fourPosts : List SendReq :=
  [{ envelopes := some [appLog 3 [1], appLog 2 [2], appLog 1 [3], appLog 1 [4]] }]

/-- The four logs as the store has them. -/
def fourStored : List Envelope :=
  [envelopeCode (appLog 3 [1]), envelopeCode (appLog 2 [2]), envelopeCode (appLog 1 [3]), envelopeCode (appLog 1 [4])]

/-- A store after some Puts. -/
def putAll? (st : Store) : List Envelope → Option Store
  | [] => some st
  | e :: es => (put 0 st e.sourceId e).bind fun st' => putAll? st' es

theorem putAll?_putAll {st st' : Store} {es : List Envelope} (h : putAll? st es = some st') :
    PutAll st (es.map fun e => (e.sourceId, e)) st' := by
  induction es generalizing st with
  | nil => cases h; exact .nil _
  | cons e es ih =>
    rw [putAll?] at h
    cases hp : put 0 st e.sourceId e with
    | none => rw [hp] at h; cases h
    | some st1 => rw [hp] at h; exact .cons 0 hp (ih h)

theorem four_get : ((putAll? (newStore { maxPerSource := 5 }) fourStored).bind fun st =>
    get st "a".toList { start := 1, stop := 2, types := requestedTypes [], limit := 100 }) =
      some [envelopeCode (appLog 1 [3])] := by
  decide +kernel

theorem four_puts : ∃ c,
    CRun (newCluster { maxPerSource := 5 } 1 (fun _ _ => [0])) ([] ++ [.client 0 { envelopes := some fourStored }]) c ∧
    (∀ j i, c.queue j i = []) ∧ c.lk = (fun _ _ => [0]) ∧
    ∀ now, localRead (fun _ => none) now (c.store 0) (asked "a".toList 1 [.endTime 2]) =
      some (.ok [envelopeCode (appLog 1 [3])]) := by
  obtain ⟨st, hst, hget⟩ := Option.bind_eq_some_iff.1 four_get
  have hput := putAll?_putAll hst
  refine ⟨_, CRun.snoc (CRun.nil _) (.client Nat.zero_lt_one
      ⟨fun _ => true, _, st, .proxied _ rfl fourStored rfl [(0, fourStored)] (List.Perm.refl _), ?_, rfl⟩), ?_, rfl, ?_⟩
  · exact hput
  · intro j i
    simp only [newCluster]
    by_cases h1 : j = 0 <;> by_cases h2 : i = 0 <;> simp_all [sentTo]
    intro h; exact absurd h.symm h2
  · intro now
    show localRead (fun _ => none) now st _ = _
    have ha : readArgs (fun _ => none) now (asked "a".toList 1 [.endTime 2]) =
        .ok { start := 1, stop := 2, types := requestedTypes [], limit := 100 } := rfl
    have hsrc : (asked "a".toList 1 [.endTime 2]).sourceId = "a".toList := rfl
    unfold localRead
    rw [ha]
    dsimp only
    rw [hsrc, hget]

/-- Without room between the times of a source a user can miss a log, though the store holds it:
four logs are sent, two of them at time 1; a user who reads from 1 to 2 with a limit of 100 gets
only one of the two. -/
theorem C126_equal_times_false : ∃ (evs : List CEvent) (c : Cluster) (r : WebReq),
    CRun (newCluster { maxPerSource := 5 } 1 (fun _ _ => [0])) evs c ∧ Reliable evs ∧ Posted evs fourPosts ∧
    (∀ p ∈ fourPosts, p.localOnly = false) ∧ (∀ p ∈ fourPosts, ∀ e ∈ p.envelopes.getD [], Arrived e) ∧
    (∀ j i, c.queue j i = []) ∧
    FairRead (fun _ => true) doorUser (fun i _ => decide (i = "a".toList)) (fun _ => none) "a".toList 1 [.endTime 2] r ∧
    appLog 1 [4] ∈ postedFor fourPosts "a".toList ∧
    ∀ now j, j < 1 →
      (∃ out, ReadThrough (fun _ => true) doorUser (fun i _ => decide (i = "a".toList)) (fun _ _ => none) id
        (fun _ => none) (fun _ => []) (fun _ => none) now c j r out) ∧
      ∀ out, ReadThrough (fun _ => true) doorUser (fun i _ => decide (i = "a".toList)) (fun _ _ => none) id
        (fun _ => none) (fun _ => []) (fun _ => none) now c j r out → out = some [appLog 1 [3]] := by
  have a1 := appLog_arrived 3 (by unfold FitsInt64; norm_num) [1] (by decide)
  have a2 := appLog_arrived 2 (by unfold FitsInt64; norm_num) [2] (by decide)
  have a3 := appLog_arrived 1 (by unfold FitsInt64; norm_num) [3] (by decide)
  have a4 := appLog_arrived 1 (by unfold FitsInt64; norm_num) [4] (by decide)
  have hall : ∀ e ∈ [appLog 3 [1], appLog 2 [2], appLog 1 [3], appLog 1 [4]], Arrived e := by
    intro e he
    simp only [List.mem_cons, List.not_mem_nil, or_false] at he
    rcases he with rfl | rfl | rfl | rfl
    · exact a1
    · exact a2
    · exact a3
    · exact a4
  obtain ⟨c, hrun, hq, hlk, hread⟩ := four_puts
  obtain ⟨r, hfair⟩ := fairRead_any 1 [.endTime 2] (by unfold FitsInt64; norm_num)
    (by intro o ho; rw [List.mem_singleton] at ho; subst ho; show FitsInt64 2; unfold FitsInt64; norm_num)
    (by intro o ho; rw [List.mem_singleton] at ho; subst ho; trivial) (.inr (by decide)) (by decide) rfl (by
      have h : (readReqProto.encode (asked "a".toList 1 [.endTime 2])).length ≤ 100 := by decide +kernel
      exact le_trans h (by unfold grpcMaxMessage; norm_num))
  refine ⟨_, c, r, hrun, ?_, ?_, ?_, ?_, hq, hfair, ?_, fun now j hj => ?_⟩
  · intro ev hev
    simp at hev
    subst hev
    trivial
  · have h : ∀ p ∈ fourPosts, (sendReqProto.encode p).length ≤ 200 := by decide +kernel
    have h := h _ List.mem_cons_self
    refine List.Forall₂.cons (posted_one rfl hall ?_) List.Forall₂.nil
    exact le_trans h (by unfold grpcMaxMessage; norm_num)
  · intro p hp
    rw [fourPosts, List.mem_singleton] at hp
    rw [hp]
  · intro p hp e he
    rw [fourPosts, List.mem_singleton] at hp
    rw [hp] at he
    exact hall e he
  · simp [fourPosts, postedFor, appLog]
  · have htab : ∀ k, k < 1 → c.lk k "a".toList = [0] := fun k _ => by rw [hlk]
    obtain ⟨⟨hops, res, hex⟩, hown⟩ := readAt_owners htab (by simp) (by simp) hj
    have key := fair_through (fun _ => true) doorUser (fun i _ => decide (i = "a".toList)) (fun _ _ => none) id
      (fun _ => none) (fun _ => []) (fun _ => none) now (c := c) hfair (j := j) (P := fun ws => ws = [appLog 1 [3]]) (by
        intro hops i hat
        obtain ⟨-, k, hk, he⟩ := hown hops _ hat
        injection he with he
        subst he
        rw [List.mem_singleton] at hk
        subst hk
        exact ⟨[appLog 1 [3]], by simpa using a3, rfl, hread now⟩)
    constructor
    · obtain ⟨-, k, -, rfl⟩ := hown hops res hex
      exact key.1 hops k hex
    · intro out hout
      obtain ⟨ws, rfl, h3⟩ := key.2 out hout
      refine h3.elim (fun h => h) fun h => ?_
      have hb : (readRespProto.encode (some [appLog 1 [3]])).length ≤ 200 := by decide +kernel
      exact absurd h.2 (not_lt.2 (le_trans hb (by unfold grpcMaxMessage; norm_num)))

/-- A source whose id has a colon followed by more cannot be read by anybody over HTTP, whatever
the cluster holds of it and whatever rights the user has. -/
theorem C126_colon_false (methodOk : Str → Bool) (oauth : Str → Option UserCtx) (auth : Str → Str → Bool)
    (related : List Str → Str → Option Expansions) (order : List Str → List Str)
    (parse : Str → Option PExpr) (print : PExpr → Str) (compile : Str → Option (Str → Bool)) (now : Int)
    (c : Cluster) (j : Nat) (a b : Str) (hb : '/' ∉ b) (hb' : ':' ∉ b) (hne : b ≠ [])
    (start : Int) (opts : List ReadOpt) (hs : FitsInt64 start) (ho : ∀ o ∈ opts, OptInRange o)
    (hk : ∀ o ∈ opts, OptKnown o) (r : WebReq)
    (htarget : seenRequest ("/api/v1/read/".toList ++ (a ++ ':' :: b)) (httpReadParams start opts) = some (r.path, r.params))
    (out : Option (List WireEnvelope)) :
    ¬ ReadThrough methodOk oauth auth related order parse print compile now c j r out := by
  rintro ⟨q, hops, i, resp, hdoor, -⟩
  obtain ⟨q', hseen, -⟩ := C132_read (a ++ ':' :: b) start opts hs ho hk
  have hsame := Option.some.inj (htarget.symm.trans hseen)
  have hpath : r.path = _ := congrArg Prod.fst hsame
  clear hsame hseen htarget
  rw [C75_unreadable_false methodOk oauth auth related order parse print r a b hb hb' hne hpath] at hdoor
  cases hdoor

/-- The hypotheses are met: a read of `a:b`. -/
example : '/' ∉ "b".toList ∧ ':' ∉ "b".toList ∧ "b".toList ≠ [] ∧ ∃ r : WebReq,
    seenRequest ("/api/v1/read/".toList ++ ("a".toList ++ ':' :: "b".toList)) (httpReadParams 0 []) =
      some (r.path, r.params) := by
  obtain ⟨q, h, _⟩ := C132_read ("a".toList ++ ':' :: "b".toList) 0 [] (by unfold FitsInt64; norm_num) (by simp) (by simp)
  exact ⟨by decide, by decide, by decide, { method := [], path := _, params := q, authorization := [] }, h⟩

/-- The door lets a user who may read `a:` through to `a`. -/
theorem colon_door : door false (fun _ => true) doorUser (fun i _ => decide (i = "a:".toList)) (fun _ _ => none) id
    (fun _ => none) (fun _ => []) { method := "GET".toList, path := "/api/v1/read/a:".toList, authorization := "t".toList } =
      some (.read { sourceId := "a".toList }) := by
  decide

/-- A user without the right to read a source gets what was sent for it, if they may read the
source whose id is followed by a colon. -/
theorem C126_stranger_false : ∃ (evs : List CEvent) (c : Cluster) (r : WebReq),
    AtRest { maxPerSource := 5 } 1 (fun _ => [0]) evs c (twoPosts [104, 105] [33]) "a".toList ∧
    ¬ MayRead doorUser (fun i _ => decide (i = "a:".toList)) r.authorization "a".toList ∧
    ∀ now, 2 < now → ∀ j,
      (∃ out, ReadThrough (fun _ => true) doorUser (fun i _ => decide (i = "a:".toList)) (fun _ _ => none) id
        (fun _ => none) (fun _ => []) (fun _ => none) now c j r out) ∧
      ∀ out, ReadThrough (fun _ => true) doorUser (fun i _ => decide (i = "a:".toList)) (fun _ _ => none) id
        (fun _ => none) (fun _ => []) (fun _ => none) now c j r out →
        out = some [appLog 1 [104, 105], appLog 2 [33]] := by
  have hmax : grpcMaxMessage = 4194304 := rfl
  have b1 := oneLog_bytes.1
  have b2 := oneLog_bytes.2
  have a1 := appLog_arrived 1 (by unfold FitsInt64; norm_num) [104, 105] (by decide)
  have a2 := appLog_arrived 2 (by unfold FitsInt64; norm_num) [33] (by decide)
  obtain ⟨evs, c, h⟩ := atRest_two [104, 105] [33] (by decide) (by decide) (by
    intro r hr
    simp only [twoPosts, List.mem_cons, List.not_mem_nil, or_false] at hr
    rcases hr with rfl | rfl
    · exact answer_bound (ws := [appLog 1 [104, 105]]) (B := 22) (by simpa using b1) (by rw [hmax]; decide)
    · exact answer_bound (ws := [appLog 2 [33]]) (B := 22) (by simpa using b2) (by rw [hmax]; decide))
  have hreads : ∀ now, 2 < now → ∀ j, (∃ hops i, ReadAt c.lk "a".toList j hops (some i)) ∧
      ∀ hops i, ReadAt c.lk "a".toList j hops (some i) →
        localRead (fun _ => none) now (c.store i) (asked "a".toList 0 []) =
          some (.ok ([appLog 1 [104, 105], appLog 2 [33]].map envelopeCode)) := by
    intro now hn j
    obtain ⟨-, h2, h3⟩ := node_reads (fun _ => none) now h j (inOrder_two _ _) (q := asked "a".toList 0 []) rfl
      (by intro k hk; cases hk) (.inl rfl) (by decide) (.inl rfl)
    rw [wanted_two _ _ now hn] at h3
    refine ⟨h2, fun hops i hat => ?_⟩
    obtain ⟨i', he, hr⟩ := h3 hops _ hat
    injection he with he
    subst he
    exact hr
  refine ⟨evs, c, { method := "GET".toList, path := "/api/v1/read/a:".toList, authorization := "t".toList }, h, ?_, ?_⟩
  · rintro ⟨_, c, hc, h⟩
    have : c = ⟨false, "t".toList, 0⟩ := by
      have h0 : doorUser "t".toList = some ⟨false, "t".toList, 0⟩ := by decide
      exact Option.some.inj (hc.symm.trans h0)
    subst this
    rcases h with h | h
    · cases h
    · exact absurd h (by decide)
  · intro now hn j
    have hsize : (readReqProto.encode (asked "a".toList 0 [])).length ≤ grpcMaxMessage := fairRead_a.size
    obtain ⟨hv, -⟩ := asked_valid "a".toList 0 [] fairRead_a.begin fairRead_a.range fairRead_a.known
    have key := door_through (fun _ => true) doorUser (fun i _ => decide (i = "a:".toList)) (fun _ _ => none) id
      (fun _ => none) (fun _ => []) (fun _ => none) now (c := c) (q := asked "a".toList 0 []) colon_door hsize
      (C115_read_request _ hv (max_lt hsize)) (j := j) (P := fun ws => ws = [appLog 1 [104, 105], appLog 2 [33]]) (by
        intro hops i hat
        refine ⟨_, ?_, rfl, (hreads now hn j).2 hops i hat⟩
        intro e he
        simp only [List.mem_cons, List.not_mem_nil, or_false] at he
        rcases he with rfl | rfl
        · exact a1
        · exact a2)
    constructor
    · obtain ⟨hops, i, hex⟩ := (hreads now hn j).1
      exact key.1 hops i hex
    · intro out hout
      obtain ⟨ws, rfl, h3⟩ := key.2 out hout
      refine h3.elim (fun h => h) fun h => ?_
      refine absurd h.2 (not_lt.2 (answer_bound (B := 22) ?_ (by rw [hmax]; decide)))
      intro e he
      simp only [List.mem_cons, List.not_mem_nil, or_false] at he
      rcases he with rfl | rfl
      · exact b1
      · exact b2

end LogCache
