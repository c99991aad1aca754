import Verif.Spec.Auth
import Verif.Props.Promql

/-!
# Property theorems about the auth proxy (C61-C70, C86-C88)
-/

namespace LogCache

open Spec

/-! ## C61 -/

/-- A read is forwarded, unchanged, exactly when there is a token, it is valid, and
the caller is an admin or authorized for that source; otherwise the answer is 404
and nothing is forwarded. -/
theorem C61_read (oauth : Str → Option UserCtx) (isAuth : Str → Str → Bool) (tok id : Str) :
    (readHandler oauth isAuth tok id = .forward id ↔
      tok ≠ [] ∧ ∃ c, oauth tok = some c ∧ (c.isAdmin = true ∨ isAuth id c.token = true)) ∧
    (readHandler oauth isAuth tok id = .forward id ∨ readHandler oauth isAuth tok id = .status 404) := by
  unfold readHandler
  by_cases h : tok = []
  · simp [h]
  · rw [if_neg h]
    cases ho : oauth tok with
    | none => simp
    | some c =>
      cases ha : c.isAdmin <;> cases hi : isAuth id c.token <;> simp [ha, hi, h]

example : readHandler (fun t => if t = "t".toList then some ⟨false, t, 0⟩ else none)
    (fun id _ => decide (id = "a".toList)) "t".toList "a".toList = .forward "a".toList ∧
  readHandler (fun t => if t = "t".toList then some ⟨false, t, 0⟩ else none)
    (fun id _ => decide (id = "a".toList)) "t".toList "b".toList = .status 404 := by decide

/-! ## C62 -/

private theorem authorizeIds_mem (isAuth : Nat → Str → Bool) : ∀ (ids : List Str) (k : Nat) (x : Str),
    x ∈ (authorizeIds isAuth k ids).1 → x ∈ ids ∧ ∃ n, isAuth n x = true
  | [], k, x, h => by simp [authorizeIds] at h
  | id :: ids, k, x, h => by
    rw [authorizeIds] at h
    simp only at h
    cases hk : isAuth k id with
    | true =>
      rw [hk, if_pos rfl] at h
      rcases List.mem_cons.1 h with rfl | h
      · exact ⟨List.mem_cons_self .., k, hk⟩
      · obtain ⟨h1, h2⟩ := authorizeIds_mem isAuth ids (k + 1) x h
        exact ⟨List.mem_cons_of_mem _ h1, h2⟩
    | false =>
      rw [hk, if_neg (by simp)] at h
      obtain ⟨h1, h2⟩ := authorizeIds_mem isAuth ids (k + 1) x h
      exact ⟨List.mem_cons_of_mem _ h1, h2⟩

private theorem authorizeIds_const (auth : Str → Bool) : ∀ (ids : List Str) (k : Nat),
    (authorizeIds (fun _ => auth) k ids).1 = ids.filter auth
  | [], k => rfl
  | id :: ids, k => by
    rw [authorizeIds]
    simp only
    rw [authorizeIds_const auth ids (k + 1)]
    cases h : auth id <;> simp [h]

private theorem expandLoop_auth (isAuth : Nat → Str → Bool) : ∀ (ids : List Str) (k : Nat) (rel ex : Expansions),
    expandLoop false isAuth k ids rel = some ex →
    ∀ x, (x ∈ ids ∨ ∃ xs, rel x = some xs ∧ xs ≠ [] ∧ ∀ y ∈ xs, ∃ n, isAuth n y = true) →
      ∃ xs, ex x = some xs ∧ xs ≠ [] ∧ ∀ y ∈ xs, ∃ n, isAuth n y = true
  | [], k, rel, ex, h, x, hx => by
    rw [expandLoop] at h
    cases h
    rcases hx with hx | hx
    · cases hx
    · exact hx
  | id :: ids, k, rel, ex, h, x, hx => by
    rw [expandLoop] at h
    simp only [Bool.not_false, if_true] at h
    by_cases h0 : (authorizeIds isAuth k ((rel id).getD [] ++ [id])).1 = []
    · rw [if_pos h0] at h; cases h
    · rw [if_neg h0] at h
      have hset : ∀ y ∈ (authorizeIds isAuth k ((rel id).getD [] ++ [id])).1, ∃ n, isAuth n y = true :=
        fun y hy => (authorizeIds_mem isAuth _ _ y hy).2
      refine expandLoop_auth isAuth ids _ _ ex h x ?_
      by_cases hxi : x = id
      · right
        exact ⟨_, by unfold expSet; rw [if_pos hxi], h0, hset⟩
      · rcases hx with hx | hx
        · rcases List.mem_cons.1 hx with hx | hx
          · exact absurd hx hxi
          · exact .inl hx
        · right
          unfold expSet
          rw [if_neg hxi]
          exact hx

theorem queryHandler_forward {oauth : Str → Option UserCtx} {isAuth : UserCtx → Nat → Str → Bool}
    {related : List Str → Str → Option Expansions} {order : List Str → List Str}
    {parse : Str → Option PExpr} {tok query : Str} {e' : PExpr}
    (h : queryHandler oauth isAuth related order parse tok query = .forward e') :
    tok ≠ [] ∧ ∃ e c rel ex, parse query = some e ∧ order (extractSourceIds e) ≠ [] ∧ oauth tok = some c ∧
      related (order (extractSourceIds e)) tok = some rel ∧
      expandLoop c.isAdmin (isAuth c) 0 (order (extractSourceIds e)) rel = some ex ∧
      e' = replaceSets ex e := by
  unfold queryHandler at h
  by_cases ht : tok = []
  · rw [if_pos ht] at h; cases h
  · rw [if_neg ht] at h
    refine ⟨ht, ?_⟩
    cases hp : parse query with
    | none => rw [hp] at h; cases h
    | some e =>
      rw [hp] at h
      simp only at h
      by_cases hi : order (extractSourceIds e) = []
      · rw [if_pos hi] at h; cases h
      · rw [if_neg hi] at h
        cases ho : oauth tok with
        | none => rw [ho] at h; cases h
        | some c =>
          rw [ho] at h
          simp only at h
          cases hr : related (order (extractSourceIds e)) tok with
          | none => rw [hr] at h; cases h
          | some rel =>
            rw [hr] at h
            simp only at h
            cases hx : expandLoop c.isAdmin (isAuth c) 0 (order (extractSourceIds e)) rel with
            | none => rw [hx] at h; cases h
            | some ex =>
              rw [hx] at h
              cases h
              exact ⟨e, c, rel, ex, rfl, hi, rfl, hr, hx, rfl⟩

/-- If a non-admin's query is forwarded, every source the forwarded query names is
one for which `IsAuthorized` answered yes while this request was handled. -/
theorem C62_names_authorized (oauth : Str → Option UserCtx) (isAuth : UserCtx → Nat → Str → Bool)
    (related : List Str → Str → Option Expansions) (order : List Str → List Str)
    (hord : ∀ l, (order l).Perm l) (parse : Str → Option PExpr) (tok query : Str) (e' : PExpr) (c : UserCtx)
    (hc : oauth tok = some c) (hna : c.isAdmin = false)
    (hpipe : ∀ n x, isAuth c n x = true → '|' ∉ x)
    (h : queryHandler oauth isAuth related order parse tok query = .forward e') :
    ∀ y, QueryNames e' y → ∃ n, isAuth c n y = true := by
  obtain ⟨_, e, c', rel, ex, _, _, hc', _, hex, rfl⟩ := queryHandler_forward h
  rw [hc] at hc'; cases hc'
  rw [hna] at hex
  have key : ∀ id, QueryNames e id → ∃ xs, ex id = some xs ∧ xs ≠ [] ∧ ∀ y ∈ xs, ∃ n, isAuth c n y = true :=
    fun id hid => expandLoop_auth _ _ _ _ _ hex id (.inl ((hord _).mem_iff.2 ((C57_extract e id).2 hid)))
  intro y hy
  obtain ⟨id, xs, hq, h1, h2⟩ := (replaceSets_names ex e (fun id hid => by
    obtain ⟨xs, h1, h2, h3⟩ := key id hid
    exact ⟨xs, h1, h2, fun x hx => by obtain ⟨n, hn⟩ := h3 x hx; exact hpipe n x hn⟩) y).1 hy
  obtain ⟨xs', h3, _, h4⟩ := key id hq
  rw [h1] at h3; cases h3
  exact h4 y h2

/-- Hence such a query cannot reveal anything about other sources: two log-cache
contents that agree on the authorized sources give the engine the same data. -/
theorem C62_no_leak (oauth : Str → Option UserCtx) (isAuth : UserCtx → Nat → Str → Bool)
    (related : List Str → Str → Option Expansions) (order : List Str → List Str)
    (hord : ∀ l, (order l).Perm l) (parse : Str → Option PExpr) (tok query : Str) (e' : PExpr) (c : UserCtx)
    (hc : oauth tok = some c) (hna : c.isAdmin = false)
    (hpipe : ∀ n x, isAuth c n x = true → '|' ∉ x)
    (h : queryHandler oauth isAuth related order parse tok query = .forward e')
    (r1 r2 : ReadRequest → Option (List Envelope))
    (hagree : ∀ req, (∃ n, isAuth c n req.sourceId = true) → r1 req = r2 req)
    (interval start stop : Int) (iter : List Matcher → List Str) (hiter : ValidOrder iter) :
    queryInputs interval start stop r1 iter e' = queryInputs interval start stop r2 iter e' := by
  apply C57_reads_only interval start stop r1 r2 iter hiter e'
  intro req hreq
  exact hagree req (C62_names_authorized oauth isAuth related order hord parse tok query e' c hc hna hpipe h
    req.sourceId ((C57_extract e' _).1 hreq))

private theorem expandLoop_exact (isAdmin : Bool) (auth : Str → Bool) :
    ∀ (ids : List Str) (k : Nat) (rel : Expansions), ids.Nodup →
    (∀ ex, expandLoop isAdmin (fun _ => auth) k ids rel = some ex →
      (∀ id ∈ ids, ∃ xs, ex id = some xs ∧ xs ≠ [] ∧
        ∀ y, y ∈ xs ↔ (y = id ∨ y ∈ (rel id).getD []) ∧ (isAdmin = true ∨ auth y = true)) ∧
      ∀ id, id ∉ ids → ex id = rel id) ∧
    (expandLoop isAdmin (fun _ => auth) k ids rel = none →
      isAdmin = false ∧ ∃ id ∈ ids, ∀ y, (y = id ∨ y ∈ (rel id).getD []) → auth y = false)
  | [], k, rel, _ => by
    refine ⟨?_, ?_⟩
    · intro ex h; rw [expandLoop] at h; cases h; exact ⟨by simp, fun _ _ => rfl⟩
    · intro h; rw [expandLoop] at h; cases h
  | id :: ids, k, rel, hnd => by
    rw [List.nodup_cons] at hnd
    have step : ∀ (set : List Str), (∀ y, y ∈ set ↔ (y = id ∨ y ∈ (rel id).getD []) ∧
        (isAdmin = true ∨ auth y = true)) → set ≠ [] → ∀ k',
        (∀ ex, expandLoop isAdmin (fun _ => auth) k' ids (expSet rel id set) = some ex →
          (∀ id' ∈ id :: ids, ∃ xs, ex id' = some xs ∧ xs ≠ [] ∧
            ∀ y, y ∈ xs ↔ (y = id' ∨ y ∈ (rel id').getD []) ∧ (isAdmin = true ∨ auth y = true)) ∧
          ∀ id', id' ∉ id :: ids → ex id' = rel id') ∧
        (expandLoop isAdmin (fun _ => auth) k' ids (expSet rel id set) = none →
          isAdmin = false ∧ ∃ id' ∈ id :: ids, ∀ y, (y = id' ∨ y ∈ (rel id').getD []) → auth y = false) := by
      intro set hset hne k'
      obtain ⟨i1, i2⟩ := expandLoop_exact isAdmin auth ids k' (expSet rel id set) hnd.2
      have hrel : ∀ id', id' ≠ id → expSet rel id set id' = rel id' := by
        intro id' h; unfold expSet; rw [if_neg h]
      refine ⟨?_, ?_⟩
      · intro ex hex
        obtain ⟨j1, j2⟩ := i1 ex hex
        refine ⟨?_, ?_⟩
        · intro id' hid'
          rcases List.mem_cons.1 hid' with rfl | hid'
          · refine ⟨set, ?_, hne, hset⟩
            rw [j2 id' hnd.1]; unfold expSet; rw [if_pos rfl]
          · have hne' : id' ≠ id := fun h => hnd.1 (h ▸ hid')
            have := j1 id' hid'
            rwa [hrel id' hne'] at this
        · intro id' hid'
          rw [List.mem_cons, not_or] at hid'
          rw [j2 id' hid'.2, hrel id' hid'.1]
      · intro hn
        obtain ⟨h1, id', hid', h2⟩ := i2 hn
        refine ⟨h1, id', List.mem_cons_of_mem _ hid', ?_⟩
        rwa [hrel id' (fun h => hnd.1 (h ▸ hid'))] at h2
    rw [expandLoop]
    simp only
    cases isAdmin with
    | true =>
      rw [if_neg (show ¬ (!true) = true by decide)]
      exact step ((rel id).getD [] ++ [id]) (by intro y; simp [or_comm]) (by simp) _
    | false =>
      rw [if_pos (show (!false) = true by decide)]
      rw [authorizeIds_const]
      by_cases h0 : (((rel id).getD [] ++ [id]).filter auth) = []
      · rw [if_pos h0]
        refine ⟨(by intro _ h; cases h), ?_⟩
        intro _
        refine ⟨rfl, id, List.mem_cons_self .., ?_⟩
        intro y hy
        rw [List.filter_eq_nil_iff] at h0
        have := h0 y (by simp only [List.mem_append, List.mem_singleton]; exact hy.symm)
        simpa using this
      · rw [if_neg h0]
        exact step _ (by intro y; simp [List.mem_filter, or_comm, or_and_right]) h0 _

/-- Which sources the forwarded query names, exactly, for `IsAuthorized` answers
that do not change meanwhile: of the sources the query names and the apps that
carry such a name, those the caller is authorized for (all of them for an admin).
The query is refused with 404 iff for some named source none of these is
authorized. -/
theorem C62_exact (oauth : Str → Option UserCtx) (auth : UserCtx → Str → Bool)
    (related : List Str → Str → Option Expansions) (order : List Str → List Str)
    (hord : ∀ l, (order l).Perm l) (parse : Str → Option PExpr) (tok query : Str) (c : UserCtx)
    (e : PExpr) (rel : Expansions)
    (ht : tok ≠ []) (hc : oauth tok = some c) (hp : parse query = some e)
    (hids : ∃ id, QueryNames e id) (hrel : related (order (extractSourceIds e)) tok = some rel)
    (hpipe : ∀ id y, QueryNames e id → (y = id ∨ y ∈ (rel id).getD []) →
      (c.isAdmin = true ∨ auth c y = true) → '|' ∉ y) :
    (∀ e', queryHandler oauth (fun c _ => auth c) related order parse tok query = .forward e' →
      ∀ y, QueryNames e' y ↔ ∃ id, QueryNames e id ∧ (y = id ∨ y ∈ (rel id).getD []) ∧
        (c.isAdmin = true ∨ auth c y = true)) ∧
    ((∃ e', queryHandler oauth (fun c _ => auth c) related order parse tok query = .forward e') ∧
      (∀ id, QueryNames e id → ∃ y, (y = id ∨ y ∈ (rel id).getD []) ∧ (c.isAdmin = true ∨ auth c y = true)) ∨
      queryHandler oauth (fun c _ => auth c) related order parse tok query = .status 404 ∧
      c.isAdmin = false ∧ ∃ id, QueryNames e id ∧ ∀ y, (y = id ∨ y ∈ (rel id).getD []) → auth c y = false) := by
  have hmem : ∀ id, id ∈ order (extractSourceIds e) ↔ QueryNames e id :=
    fun id => ((hord _).mem_iff).trans (C57_extract e id)
  have hnd : (order (extractSourceIds e)).Nodup := by
    rw [(hord _).nodup_iff]
    exact extract_nodup e
  have hne : order (extractSourceIds e) ≠ [] := by
    obtain ⟨id, hid⟩ := hids
    intro h0
    have := (hmem id).2 hid
    rw [h0] at this; cases this
  have hq : queryHandler oauth (fun c _ => auth c) related order parse tok query =
      match expandLoop c.isAdmin (fun _ => auth c) 0 (order (extractSourceIds e)) rel with
      | none => .status 404
      | some ex => .forward (replaceSets ex e) := by
    unfold queryHandler
    rw [if_neg ht, hp]
    simp only
    rw [if_neg hne, hc]
    simp only
    rw [hrel]
    simp only
    cases expandLoop c.isAdmin (fun _ => auth c) 0 (order (extractSourceIds e)) rel <;> rfl
  obtain ⟨x1, x2⟩ := expandLoop_exact c.isAdmin (auth c) _ 0 rel hnd
  rw [hq]
  cases hx : expandLoop c.isAdmin (fun _ => auth c) 0 (order (extractSourceIds e)) rel with
  | none =>
    refine ⟨(by intro _ h; cases h), .inr ⟨rfl, ?_⟩⟩
    obtain ⟨h1, id, hid, h2⟩ := x2 hx
    exact ⟨h1, id, (hmem id).1 hid, h2⟩
  | some ex =>
    obtain ⟨j1, _⟩ := x1 ex hx
    refine ⟨?_, .inl ⟨⟨_, rfl⟩, fun id hid => by
      obtain ⟨xs, -, h2, h3⟩ := j1 id ((hmem id).2 hid)
      obtain ⟨z, hz⟩ := List.exists_mem_of_ne_nil _ h2
      exact ⟨z, (h3 z).1 hz⟩⟩⟩
    intro e' he'
    cases he'
    intro y
    rw [replaceSets_names ex e (fun id hid => by
      obtain ⟨xs, h1, h2, h3⟩ := j1 id ((hmem id).2 hid)
      exact ⟨xs, h1, h2, fun z hz => hpipe id z hid ((h3 z).1 hz).1 ((h3 z).1 hz).2⟩)]
    constructor
    · rintro ⟨id, xs, hid, h1, h2⟩
      obtain ⟨xs', h3, _, h4⟩ := j1 id ((hmem id).2 hid)
      rw [h1] at h3; cases h3
      exact ⟨id, hid, (h4 y).1 h2⟩
    · rintro ⟨id, hid, h1⟩
      obtain ⟨xs, h2, _, h3⟩ := j1 id ((hmem id).2 hid)
      exact ⟨id, xs, hid, h2, (h3 y).2 h1⟩


/-- For the examples: user `t` may see `a` and `b`; `a` is the app named `shop`. -/
def exAuth : UserCtx → Nat → Str → Bool := fun _ _ x => decide (x = "a".toList ∨ x = "b".toList)
/-- The apps named `shop`: one the user may see and one they may not. -/
def exRelated : List Str → Str → Option Expansions := fun _ _ =>
  some fun x => if x = "shop".toList then some ["a".toList, "v".toList] else none
/-- One valid token. -/
def exOauth : Str → Option UserCtx := fun t => if t = "t".toList then some ⟨false, t, 0⟩ else none
/-- The only query the example parser knows. -/
def exParse : Str → Option PExpr := fun _ =>
  some (.vector [⟨.equal, "__name__".toList, "m".toList⟩, ⟨.equal, sourceIdLabel, "shop".toList⟩])

-- The forwarded query reads `a` only, although `shop` also names `v`.
example : queryHandler exOauth exAuth exRelated id exParse "t".toList [] =
    .forward (.vector [⟨.equal, "__name__".toList, "m".toList⟩, ⟨.regexp, sourceIdLabel, "a".toList⟩]) ∨
    queryHandler exOauth exAuth exRelated id exParse "t".toList [] =
    .forward (.vector [⟨.equal, "__name__".toList, "m".toList⟩, ⟨.equal, sourceIdLabel, "a".toList⟩]) := by
  first | exact .inl rfl | exact .inr rfl

/-- The authorized ids must be free of `|`: the id `a|v` opens the source `v`. -/
theorem C62_pipe_false :
    ∃ (isAuth : UserCtx → Nat → Str → Bool) (parse : Str → Option PExpr) (e' : PExpr),
      (∀ c n x, isAuth c n x = true → x = "a|v".toList ∨ x = "b".toList) ∧
      queryHandler exOauth isAuth (fun _ _ => some fun x =>
          if x = "b".toList then some ["a|v".toList] else none) id parse "t".toList [] = .forward e' ∧
      QueryNames e' "v".toList := by
  refine ⟨fun _ _ x => decide (x = "a|v".toList ∨ x = "b".toList),
    fun _ => some (.vector [⟨.equal, sourceIdLabel, "b".toList⟩]),
    replaceSets (fun x => if x = "b".toList then some ["a|v".toList, "b".toList] else none)
      (.vector [⟨.equal, sourceIdLabel, "b".toList⟩]), ?_, rfl, ?_⟩
  · intro c n x h; simpa using h
  · rw [← C57_extract]; decide

/-! ## C63 -/

private theorem onlyAuthorized_fold {μ : Type} (md : List (Str × μ)) : ∀ (available : List Str)
    (acc : List (Str × μ)), (acc.map Prod.fst).Nodup →
    ((available.foldl (fun acc id => match md.lookup id with
        | some v => mapSet acc id v
        | none => acc) acc).map Prod.fst).Nodup ∧
    ∀ id, (available.foldl (fun acc id => match md.lookup id with
        | some v => mapSet acc id v
        | none => acc) acc).lookup id =
      if id ∈ available ∧ (md.lookup id).isSome then md.lookup id else acc.lookup id
  | [], acc, h => ⟨h, by simp⟩
  | a :: available, acc, h => by
    rw [List.foldl_cons]
    cases ha : md.lookup a with
    | none =>
      obtain ⟨i1, i2⟩ := onlyAuthorized_fold md available acc h
      refine ⟨i1, ?_⟩
      intro id
      refine (i2 id).trans ?_
      by_cases hid : id = a
      · subst hid; simp [ha]
      · simp only [List.mem_cons, hid, false_or]
    | some v =>
      obtain ⟨i1, i2⟩ := onlyAuthorized_fold md available (mapSet acc a v) (mapSet_keys acc a v h).1
      refine ⟨i1, ?_⟩
      intro id
      refine (i2 id).trans ?_
      rw [mapSet_lookup]
      by_cases hid : id = a
      · subst hid; simp [ha]
      · simp only [List.mem_cons, hid, false_or, if_false]

/-- A valid non-admin caller gets exactly the entries of log-cache's answer whose
source is available to them; an admin gets log-cache's answer; without a valid
token the answer is 404, and 502 if log-cache failed. -/
theorem C63_meta {μ : Type} (oauth : Str → Option UserCtx) (available : Str → List Str)
    (md : Option (List (Str × μ))) (tok : Str) :
    (tok = [] ∨ oauth tok = none → metaHandler oauth available md tok = .inl 404) ∧
    ∀ c, tok ≠ [] → oauth tok = some c →
      (md = none → metaHandler oauth available md tok = .inl 502) ∧
      ∀ m, md = some m → ∃ ans, metaHandler oauth available md tok = .inr ans ∧
        (c.isAdmin = true → ans = m) ∧
        (c.isAdmin = false → (ans.map Prod.fst).Nodup ∧
          ∀ id, ans.lookup id = if id ∈ available tok then m.lookup id else none) := by
  constructor
  · intro h
    unfold metaHandler
    by_cases ht : tok = []
    · rw [if_pos ht]
    · rw [if_neg ht, h.resolve_left ht]
  · intro c ht hc
    unfold metaHandler
    rw [if_neg ht, hc]
    refine ⟨(by rintro rfl; rfl), ?_⟩
    rintro m rfl
    refine ⟨_, rfl, ?_, ?_⟩
    · intro ha; unfold onlyAuthorized; rw [if_pos ha]
    · intro ha
      unfold onlyAuthorized
      rw [if_neg (by simp [ha])]
      obtain ⟨h1, h2⟩ := onlyAuthorized_fold m (available tok) [] List.nodup_nil
      refine ⟨h1, ?_⟩
      intro id
      refine (h2 id).trans ?_
      by_cases hid : id ∈ available tok
      · cases hl : m.lookup id <;> simp [hid, hl]
      · simp [hid]

example : metaHandler exOauth (fun _ => ["b".toList, "a".toList, "a".toList])
    (some [("a".toList, 1), ("v".toList, 2)]) "t".toList = .inr [("a".toList, 1)] := by decide

/-! ## C64 -/

private theorem capi_inv {interval : Int} {evs : List CapiEvent} {s : CapiState}
    (h : CapiRun interval evs s) : ∀ tok e, s.cache.lookup tok = some e →
      ∃ t sid b, CapiEvent.fetched t sid tok e.ids b ∈ evs ∧ e.expires = t + interval := by
  induction h with
  | nil => intro tok e h; cases h
  | snoc hr hs ih =>
    cases hs with
    | answered ha =>
      intro tok e h
      obtain ⟨t, sid, b, h1, h2⟩ := ih tok e h
      exact ⟨t, sid, b, List.mem_append_left _ h1, h2⟩
    | asked ha =>
      intro tok e h
      obtain ⟨t, sid, b, h1, h2⟩ := ih tok e h
      exact ⟨t, sid, b, List.mem_append_left _ h1, h2⟩
    | @fetched now sid tok' r ids hw =>
      intro tok e h
      simp only [authStore] at h
      rw [mapSet_lookup] at h
      by_cases ht : tok = tok'
      · rw [if_pos ht] at h
        cases h
        subst ht
        exact ⟨now, sid, _, List.mem_append_right _ (List.mem_singleton.2 rfl), rfl⟩
      · rw [if_neg ht] at h
        obtain ⟨t, sid, b, h1, h2⟩ := ih tok e h
        exact ⟨t, sid, b, List.mem_append_left _ h1, h2⟩
    | sawExpired h1 h2 =>
      intro tok e h
      obtain ⟨t, sid, b, h1, h2⟩ := ih tok e h
      exact ⟨t, sid, b, List.mem_append_left _ h1, h2⟩
    | @dropped tok' hd =>
      intro tok e h
      simp only [cacheDelete] at h
      rw [lookup_filter_key _ (fun k => !decide (k = tok'))] at h
      have hne : (!decide (tok = tok')) = true := by
        cases hd : (!decide (tok = tok')) with
        | true => rfl
        | false => rw [hd] at h; cases h
      rw [if_pos hne] at h
      obtain ⟨t, sid, b, h1, h2⟩ := ih tok e h
      exact ⟨t, sid, b, List.mem_append_left _ h1, h2⟩

private theorem run_last {interval : Int} {evs : List CapiEvent} {ev : CapiEvent} {s : CapiState}
    (h : CapiRun interval (evs ++ [ev]) s) : ∃ s0, CapiRun interval evs s0 ∧ CapiStep interval s0 ev s := by
  generalize hl : evs ++ [ev] = l at h
  cases h with
  | nil => simp at hl
  | snoc hr hs =>
    obtain ⟨h1, h2⟩ := List.append_inj' hl rfl
    cases h1; cases h2
    exact ⟨_, hr, hs⟩

/-- In every interleaving of calls and pruning: a `true` answered from the cache
means that CAPI listed the source, for the same token, less than the expiration
interval ago; a `true` after asking CAPI means it is in the list just received. -/
theorem C64_fresh (interval : Int) (evs : List CapiEvent) (s : CapiState) (now : Int) (sid tok : Str) :
    (CapiRun interval (evs ++ [.answered now sid tok true]) s →
      ∃ t sid' ids b, CapiEvent.fetched t sid' tok ids b ∈ evs ∧ sid ∈ ids ∧ now < t + interval) ∧
    (∀ ids, CapiRun interval (evs ++ [.fetched now sid tok ids true]) s → sid ∈ ids) := by
  constructor
  · intro h
    obtain ⟨s0, hr, hs⟩ := run_last h
    cases hs with
    | answered ha =>
      unfold authLoad at ha
      cases hl : s.cache.lookup tok with
      | none => rw [hl] at ha; cases ha
      | some e =>
        rw [hl] at ha
        simp only at ha
        by_cases h1 : now < e.expires
        · rw [if_pos h1] at ha
          by_cases h2 : sid ∈ e.ids
          · obtain ⟨t, sid', b, h3, h4⟩ := capi_inv hr tok e hl
            exact ⟨t, sid', e.ids, b, h3, h2, h4 ▸ h1⟩
          · rw [if_neg h2] at ha
            split at ha
            · injection ha with ha; cases ha
            · cases ha
        · rw [if_neg h1] at ha; cases ha
  · intro ids h
    obtain ⟨s0, hr, hs⟩ := run_last h
    generalize hb : true = b at hs
    cases hs with
    | fetched hw => exact of_decide_eq_true hb.symm

/-- A refusal is as fresh: a `false` answered from the cache means that a list
received for this token less than the interval ago did not contain the source. -/
theorem C64_refusal (interval : Int) (evs : List CapiEvent) (s : CapiState) (now : Int) (sid tok : Str)
    (h : CapiRun interval (evs ++ [.answered now sid tok false]) s) :
    ∃ t sid' ids b, CapiEvent.fetched t sid' tok ids b ∈ evs ∧ sid ∉ ids ∧ now < t + interval := by
  obtain ⟨s0, hr, hs⟩ := run_last h
  cases hs with
  | answered ha =>
    unfold authLoad at ha
    cases hl : s.cache.lookup tok with
    | none => rw [hl] at ha; cases ha
    | some e =>
      rw [hl] at ha
      simp only at ha
      by_cases h1 : now < e.expires
      · rw [if_pos h1] at ha
        by_cases h2 : sid ∈ e.ids
        · rw [if_pos h2] at ha; injection ha with ha; cases ha
        · obtain ⟨t, sid', b, h3, h4⟩ := capi_inv hr tok e hl
          exact ⟨t, sid', e.ids, b, h3, h2, h4 ▸ h1⟩
      · rw [if_neg h1] at ha; cases ha

example : ∃ s, CapiRun 60 [.asked 0 "a".toList "t".toList,
    .fetched 1 "a".toList "t".toList ["a".toList] true, .answered 60 "a".toList "t".toList true] s := by
  refine ⟨_, .snoc (evs := [_, _]) (.snoc (evs := [_]) (.snoc (evs := []) .nil
    (.asked (r := 0) rfl)) (.fetched (r := 0) ?_)) (.answered ?_)⟩
  · exact List.mem_cons_self ..
  · decide

/-! ## C65 -/

private theorem authLoad_retry {cache : TokenCache} {now : Int} {sid tok : Str} {r : Nat}
    (h : authLoad cache now sid tok = .inr r) :
    (r = 0 ∧ ∀ e, cache.lookup tok = some e → e.expires ≤ now) ∨
    ∃ e, cache.lookup tok = some e ∧ e.retry < 3 ∧ r = e.retry + 1 := by
  unfold authLoad at h
  cases hl : cache.lookup tok with
  | none => rw [hl] at h; cases h; exact .inl ⟨rfl, by simp⟩
  | some e =>
    rw [hl] at h
    simp only at h
    by_cases h1 : now < e.expires
    · rw [if_pos h1] at h
      split at h
      · cases h
      · split at h
        · cases h
        · rename_i h3
          cases h
          exact .inr ⟨e, rfl, by unfold maxRetries at h3; omega, rfl⟩
    · rw [if_neg h1] at h
      cases h
      refine .inl ⟨rfl, ?_⟩
      intro e' he'
      cases he'
      omega

private theorem fetch_start (interval : Int) (tok : Str) : ∀ (ops : List CapiOp) (c : TokenCache) (t : Int),
    Clocked t ops → ∀ (i : Nat) (x : Int × Int), (fetchTimes interval tok c ops)[i]? = some x → t ≤ x.1
  | [], c, t, _, i, x, h => by simp [fetchTimes] at h
  | .prune now :: ops, c, t, hc, i, x, h => by
    have := fetch_start interval tok ops _ now hc.2 i x h
    have := hc.1
    omega
  | .check now now' sid t' capi :: ops, c, t, hc, i, x, h => by
    obtain ⟨h1, h2, h3⟩ := hc
    rw [fetchTimes] at h
    split at h
    · cases i with
      | zero => simp at h; subst h; exact h1
      | succ i =>
        have := fetch_start interval tok ops _ now' h3 i x (by simpa using h)
        omega
    · have := fetch_start interval tok ops _ now' h3 i x h
      omega

private theorem isAuthorized_cache (interval : Int) (c : TokenCache) (now now' : Int) (sid t : Str)
    (capi : List Str) (tok : Str) (h : ¬ (t = tok ∧ (isAuthorized interval c now now' sid t capi).2.1 = true)) :
    (isAuthorized interval c now now' sid t capi).2.2.lookup tok = c.lookup tok := by
  unfold isAuthorized at *
  cases hl : authLoad c now sid t with
  | inl b => rfl
  | inr r =>
    rw [hl] at h
    simp only [and_true] at h
    simp only [authStore]
    rw [mapSet_lookup, if_neg (fun h' => h h'.symm)]

private theorem isAuthorized_fetch (interval : Int) (c : TokenCache) (now now' : Int) (sid t : Str)
    (capi : List Str) (h : (isAuthorized interval c now now' sid t capi).2.1 = true) :
    ∃ r, authLoad c now sid t = .inr r ∧
      (isAuthorized interval c now now' sid t capi).2.2.lookup t = some ⟨capi, r, now' + interval⟩ := by
  unfold isAuthorized at *
  cases hl : authLoad c now sid t with
  | inl b => rw [hl] at h; cases h
  | inr r =>
    refine ⟨r, rfl, ?_⟩
    simp only [authStore]
    rw [mapSet_lookup, if_pos rfl]

private theorem isAuthorized_nodup (interval : Int) (c : TokenCache) (now now' : Int) (sid t : Str)
    (capi : List Str) (h : (c.map Prod.fst).Nodup) :
    ((isAuthorized interval c now now' sid t capi).2.2.map Prod.fst).Nodup := by
  unfold isAuthorized
  cases hl : authLoad c now sid t with
  | inl b => exact h
  | inr r => exact (mapSet_keys c t _ h).1

private theorem prune_lookup (c : TokenCache) (h : (c.map Prod.fst).Nodup) (now : Int) (tok : Str) :
    (pruneTokens c now).lookup tok = (c.lookup tok).filter (fun e => !decide (now > e.expires)) :=
  lookup_filter_val c h (fun e => !decide (now > e.expires)) tok

private theorem fetch_credit (interval : Int) (tok : Str) : ∀ (ops : List CapiOp) (c : TokenCache) (t : Int)
    (e : AuthEntry), (c.map Prod.fst).Nodup → Clocked t ops → c.lookup tok = some e → e.retry ≤ 3 →
    e.expires ≤ t + interval →
    ∀ (i : Nat) (x : Int × Int), 3 - e.retry ≤ i → (fetchTimes interval tok c ops)[i]? = some x → e.expires ≤ x.1
  | [], c, t, e, _, _, _, _, _, i, x, _, h => by simp [fetchTimes] at h
  | .prune now :: ops, c, t, e, hn, hc, hl, hr, he, i, x, hi, h => by
    have hn' := filter_keys_nodup c hn (fun p => !decide (now > p.2.expires))
    rw [fetchTimes] at h
    by_cases hx : now > e.expires
    · have := fetch_start interval tok ops _ now hc.2 i x h
      omega
    · refine fetch_credit interval tok ops (pruneTokens c now) now e hn' hc.2 ?_ hr ?_ i x hi h
      · rw [prune_lookup c hn, hl]; simp [hx]
      · have := hc.1; omega
  | .check now now' sid t' capi :: ops, c, t, e, hn, hc, hl, hr, he, i, x, hi, h => by
    obtain ⟨h1, h2, h3⟩ := hc
    have hn' := isAuthorized_nodup interval c now now' sid t' capi hn
    rw [fetchTimes] at h
    by_cases hf : t' = tok ∧ (isAuthorized interval c now now' sid t' capi).2.1 = true
    · rw [if_pos hf] at h
      obtain ⟨rfl, hf⟩ := hf
      obtain ⟨r, ha, hl'⟩ := isAuthorized_fetch interval c now now' sid t' capi hf
      rcases authLoad_retry ha with ⟨_, hexp⟩ | ⟨e', he', hr3, hr'⟩
      · have hx := hexp e hl
        cases i with
        | zero => simp at h; subst h; exact hx
        | succ i =>
          have := fetch_start interval t' ops _ now' h3 i x (by simpa using h)
          omega
      · rw [hl] at he'; cases he'
        cases i with
        | zero => omega
        | succ i =>
          have := fetch_credit interval t' ops _ now' _ hn' h3 hl' (by simp only; omega) (by simp only; omega)
            i x (by simp only; omega) (by simpa using h)
          simp only at this
          omega
    · rw [if_neg hf] at h
      refine fetch_credit interval tok ops _ now' e hn' h3 ?_ hr (by omega) i x hi h
      rw [isAuthorized_cache interval c now now' sid t' capi tok hf, hl]

private theorem fetch_window (interval : Int) (tok : Str) : ∀ (ops : List CapiOp) (c : TokenCache) (t : Int),
    (c.map Prod.fst).Nodup → Clocked t ops → (∀ e, c.lookup tok = some e → e.retry ≤ 3) →
    ∀ (i : Nat) (a b : Int × Int), (fetchTimes interval tok c ops)[i]? = some a → (fetchTimes interval tok c ops)[i + 4]? = some b →
      a.2 + interval ≤ b.1
  | [], c, t, _, _, _, i, a, b, h, _ => by simp [fetchTimes] at h
  | .prune now :: ops, c, t, hn, hc, hr, i, a, b, ha, hb => by
    refine fetch_window interval tok ops (pruneTokens c now) now (filter_keys_nodup c hn _) hc.2 ?_ i a b ha hb
    intro e he
    rw [prune_lookup c hn] at he
    exact hr e (Option.filter_eq_some_iff.1 he).1
  | .check now now' sid t' capi :: ops, c, t, hn, hc, hr, i, a, b, ha, hb => by
    obtain ⟨h1, h2, h3⟩ := hc
    have hn' := isAuthorized_nodup interval c now now' sid t' capi hn
    rw [fetchTimes] at ha hb
    by_cases hf : t' = tok ∧ (isAuthorized interval c now now' sid t' capi).2.1 = true
    · rw [if_pos hf] at ha hb
      obtain ⟨rfl, hf⟩ := hf
      obtain ⟨r, hla, hl'⟩ := isAuthorized_fetch interval c now now' sid t' capi hf
      have hr3 : r ≤ 3 := by
        rcases authLoad_retry hla with ⟨h, _⟩ | ⟨e', he', hr3, hr'⟩ <;> omega
      cases i with
      | zero =>
        simp at ha; subst ha
        exact fetch_credit interval t' ops _ now' _ hn' h3 hl' hr3 (by simp only; omega) 3 b
          (by simp only; omega) (by simpa using hb)
      | succ i =>
        refine fetch_window interval t' ops _ now' hn' h3 ?_ i a b (by simpa using ha) ?_
        · intro e he; rw [hl'] at he; cases he; exact hr3
        · rw [show i + 1 + 4 = (i + 4) + 1 by omega] at hb; simpa using hb
    · rw [if_neg hf] at ha hb
      refine fetch_window interval tok ops _ now' hn' h3 ?_ i a b ha hb
      intro e he
      rw [isAuthorized_cache interval c now now' sid t' capi tok hf] at he
      exact hr e he

/-- Calls made one after the other: of any five successive fetches for one token,
the fifth starts at least the expiration interval after the first ended. -/
theorem C65_rate_partial (interval t0 : Int) (tok : Str) (ops : List CapiOp) (hc : Clocked t0 ops)
    (i : Nat) (a b : Int × Int) (ha : (fetchTimes interval tok [] ops)[i]? = some a)
    (hb : (fetchTimes interval tok [] ops)[i + 4]? = some b) : a.2 + interval ≤ b.1 :=
  fetch_window interval tok ops [] t0 List.nodup_nil hc (by simp) i a b ha hb

/-- Asking for an unknown source makes four fetches, then the cache refuses. -/
def exOps : List CapiOp := [.check 0 0 "x".toList "t".toList [], .check 1 1 "x".toList "t".toList [],
  .check 2 2 "x".toList "t".toList [], .check 3 3 "x".toList "t".toList [],
  .check 4 4 "x".toList "t".toList [], .check 62 62 "x".toList "t".toList [],
  .check 63 63 "x".toList "t".toList []]

example : fetchTimes 60 "t".toList [] exOps = [(0, 0), (1, 1), (2, 2), (3, 3), (63, 63)] ∧
    Clocked 0 exOps := by
  constructor
  · decide
  · simp [exOps, Clocked]

/-- Concurrent calls make any number of fetches for one token at one time. -/
theorem C65_concurrent_false : ∀ n : Nat, ∃ evs s, CapiRun 60 evs s ∧
    evs.countP (fun ev => match ev with
      | .fetched t _ tok _ _ => decide (t = 0 ∧ tok = "t".toList)
      | _ => false) = n := by
  intro n
  have asks : CapiRun 60 (List.replicate n (.asked 0 "x".toList "t".toList))
      ⟨[], List.replicate n ("x".toList, "t".toList, 0), []⟩ := by
    induction n with
    | zero => exact .nil
    | succ n ih =>
      have := CapiRun.snoc ih (.asked (now := 0) (sid := "x".toList) (tok := "t".toList) (r := 0) rfl)
      rwa [← List.replicate_succ', ← List.replicate_succ] at this
  have fetches : ∀ k, k ≤ n → ∃ c, CapiRun 60 (List.replicate n (.asked 0 "x".toList "t".toList) ++
      List.replicate k (.fetched 0 "x".toList "t".toList [] false))
      ⟨c, List.replicate (n - k) ("x".toList, "t".toList, 0), []⟩ := by
    intro k
    induction k with
    | zero => intro _; exact ⟨_, by simpa using asks⟩
    | succ k ih =>
      intro hk
      obtain ⟨c, hc⟩ := ih (by omega)
      have hm : n - k = (n - (k + 1)) + 1 := by omega
      have hmem : ("x".toList, "t".toList, 0) ∈
          (CapiState.mk c (List.replicate (n - k) ("x".toList, "t".toList, 0)) []).waiting := by
        rw [hm]; exact List.mem_cons_self ..
      have := CapiRun.snoc hc (.fetched (now := 0) (ids := []) hmem)
      rw [show decide ("x".toList ∈ ([] : List Str)) = false from rfl] at this
      rw [List.append_assoc, ← List.replicate_succ'] at this
      simp only at this
      rw [show (List.replicate (n - k) ("x".toList, "t".toList, 0)).erase ("x".toList, "t".toList, 0) =
          List.replicate (n - (k + 1)) ("x".toList, "t".toList, 0) by
        rw [hm, List.replicate_succ, List.erase_cons_head]] at this
      exact ⟨_, this⟩
  obtain ⟨c, hc⟩ := fetches n (Nat.le_refl _)
  refine ⟨_, _, hc, ?_⟩
  rw [List.countP_append, List.countP_replicate, List.countP_replicate]
  simp

/-! ## C66 -/

/-- Run alone, pruning is invisible: dropping the prune rounds from a history
leaves every answer and every request to CAPI as it was. -/
theorem C66_prune_partial (interval t0 : Int) (c : TokenCache) (hn : (c.map Prod.fst).Nodup)
    (ops : List CapiOp) (hc : Clocked t0 ops) :
    (capiRun interval c ops).1 = (capiRun interval c (ops.filter CapiOp.isCheck)).1 := by
  suffices h : ∀ (ops : List CapiOp) (c1 c2 : TokenCache) (t : Int), (c1.map Prod.fst).Nodup → Clocked t ops →
      (∀ tok, c1.lookup tok = c2.lookup tok ∨
        (c1.lookup tok = none ∧ ∃ e, c2.lookup tok = some e ∧ e.expires < t)) →
      (capiRun interval c1 ops).1 = (capiRun interval c2 (ops.filter CapiOp.isCheck)).1 from
    h ops c c t0 hn hc (fun _ => .inl rfl)
  intro ops
  induction ops with
  | nil => intros; rfl
  | cons op ops ih =>
    intro c1 c2 t hn hc hrel
    cases op with
    | prune now =>
      rw [List.filter_cons_of_neg (by simp [CapiOp.isCheck])]
      refine ih (pruneTokens c1 now) c2 now (filter_keys_nodup c1 hn _) hc.2 ?_
      intro tok
      rw [prune_lookup c1 hn]
      rcases hrel tok with h | ⟨h1, e, h2, h3⟩
      · rw [← h]
        cases hl : c1.lookup tok with
        | none => exact .inl rfl
        | some e =>
          by_cases hx : now > e.expires
          · exact .inr ⟨by simp [hx], e, rfl, hx⟩
          · exact .inl (by simp [hx])
      · have := hc.1
        exact .inr ⟨by simp [h1], e, h2, by omega⟩
    | check now now' sid tok capi =>
      rw [List.filter_cons_of_pos rfl]
      obtain ⟨h1, h2, h3⟩ := hc
      have hload : authLoad c1 now sid tok = authLoad c2 now sid tok := by
        unfold authLoad
        rcases hrel tok with h | ⟨g1, e, g2, g3⟩
        · rw [h]
        · rw [g1, g2]
          simp only
          rw [if_neg (by omega)]
      simp only [capiRun]
      have hcache : ∀ tok', (isAuthorized interval c1 now now' sid tok capi).2.2.lookup tok' =
            (isAuthorized interval c2 now now' sid tok capi).2.2.lookup tok' ∨
          ((isAuthorized interval c1 now now' sid tok capi).2.2.lookup tok' = none ∧
            ∃ e, (isAuthorized interval c2 now now' sid tok capi).2.2.lookup tok' = some e ∧ e.expires < now') := by
        intro tok'
        unfold isAuthorized
        rw [hload]
        cases authLoad c2 now sid tok with
        | inl b =>
          simp only
          rcases hrel tok' with h | ⟨g1, e, g2, g3⟩
          · exact .inl h
          · exact .inr ⟨g1, e, g2, by omega⟩
        | inr r =>
          simp only [authStore]
          rw [mapSet_lookup, mapSet_lookup]
          by_cases ht : tok' = tok
          · rw [if_pos ht, if_pos ht]; exact .inl rfl
          · rw [if_neg ht, if_neg ht]
            rcases hrel tok' with h | ⟨g1, e, g2, g3⟩
            · exact .inl h
            · exact .inr ⟨g1, e, g2, by omega⟩
      rw [ih _ _ now' (isAuthorized_nodup interval c1 now now' sid tok capi hn) h3 hcache]
      have : (isAuthorized interval c1 now now' sid tok capi).1 = (isAuthorized interval c2 now now' sid tok capi).1 ∧
          (isAuthorized interval c1 now now' sid tok capi).2.1 = (isAuthorized interval c2 now now' sid tok capi).2.1 := by
        unfold isAuthorized
        rw [hload]
        cases authLoad c2 now sid tok <;> exact ⟨rfl, rfl⟩
      rw [this.1, this.2]

example : capiRun 60 [] [.check 0 0 "a".toList "t".toList ["a".toList], .prune 30,
      .check 40 40 "a".toList "t".toList [], .prune 61, .check 70 70 "a".toList "t".toList []] =
    ([(true, true), (true, false), (false, true)], [("t".toList, ⟨[], 0, 130⟩)]) := by decide

/-- Run concurrently it is not: the prune loop deletes the list another call has
just stored, and the next call asks CAPI again one second later. -/
theorem C66_race_false : ∃ s, CapiRun 60
    [.asked 0 "a".toList "t".toList, .fetched 0 "a".toList "t".toList ["a".toList] true,
     .sawExpired 61 "t".toList,
     .asked 61 "a".toList "t".toList, .fetched 61 "a".toList "t".toList ["a".toList] true,
     .dropped "t".toList, .asked 62 "a".toList "t".toList] s := by
  refine ⟨_, .snoc (evs := [_, _, _, _, _, _]) (.snoc (evs := [_, _, _, _, _]) (.snoc (evs := [_, _, _, _])
    (.snoc (evs := [_, _, _]) (.snoc (evs := [_, _]) (.snoc (evs := [_]) (.snoc (evs := []) .nil
    (.asked (r := 0) rfl)) (.fetched (r := 0) ?_)) (.sawExpired (e := ⟨["a".toList], 0, 60⟩) ?_ ?_))
    (.asked (r := 0) ?_)) (.fetched (r := 0) ?_)) (.dropped ?_)) (.asked (r := 0) ?_)⟩
  all_goals decide

/-! ## C86: an outage of CAPI revokes cached rights -/

/-- A source that CAPI listed for the token 2 seconds ago is refused, because in
between a request for another source found CAPI down and the failure's empty list
was cached. -/
theorem C86_outage_false : capiRun 60 []
    [.check 0 0 "a".toList "t".toList ["a".toList, "b".toList],
     .check 1 1 "z".toList "t".toList (availableIds none none),
     .check 2 2 "a".toList "t".toList (availableIds none none)] =
    ([(true, true), (false, true), (false, true)],
     [("t".toList, ⟨[], 2, 62⟩)]) := by decide

/-- While CAPI answers, rights stay cached: a listed source is answered `true`
without asking CAPI until the list expires. -/
theorem C86_cached_partial (interval : Int) (c : TokenCache) (now now' t t' : Int) (sid tok : Str)
    (capi capi' : List Str) (h : sid ∈ capi)
    (hf : (isAuthorized interval c now now' sid tok capi).2.1 = true) (ht : t < now' + interval) :
    isAuthorized interval (isAuthorized interval c now now' sid tok capi).2.2 t t' sid tok capi' =
      (true, false, (isAuthorized interval c now now' sid tok capi).2.2) := by
  obtain ⟨r, _, hl⟩ := isAuthorized_fetch interval c now now' sid tok capi hf
  have : authLoad (isAuthorized interval c now now' sid tok capi).2.2 t sid tok = .inl true := by
    unfold authLoad
    rw [hl]
    simp only
    rw [if_pos ht, if_pos h]
  generalize (isAuthorized interval c now now' sid tok capi).2.2 = c' at this
  unfold isAuthorized
  rw [this]

example : (isAuthorized 60 [] 0 1 "a".toList "t".toList ["a".toList]).2.1 = true := by decide

/-- In every interleaving of calls and pruning: a source that is in every list CAPI gave for the
token is never refused. Missing: a request to CAPI that failed counts as an empty list, see
`C86_outage_false`. -/
theorem C86_steady_partial {interval : Int} {evs : List CapiEvent} {s : CapiState} (h : CapiRun interval evs s)
    {sid tok : Str} (hall : ∀ t sid' ids b, CapiEvent.fetched t sid' tok ids b ∈ evs → sid ∈ ids) :
    (∀ t, CapiEvent.answered t sid tok false ∉ evs) ∧ ∀ t ids, CapiEvent.fetched t sid tok ids false ∉ evs := by
  induction h with
  | nil => exact ⟨fun _ h => absurd h List.not_mem_nil, fun _ _ h => absurd h List.not_mem_nil⟩
  | @snoc evs s ev s' hr hs ih =>
    obtain ⟨h1, h2⟩ := ih fun t sid' ids b hm => hall t sid' ids b (List.mem_append_left _ hm)
    constructor
    · intro t hm
      rcases List.mem_append.1 hm with hm | hm
      · exact h1 t hm
      · rw [← List.mem_singleton.1 hm] at hs
        obtain ⟨t', sid', ids, b, hf, hn, -⟩ := C64_refusal interval evs s' t sid tok (.snoc hr hs)
        exact hn (hall t' sid' ids b (List.mem_append_left _ hf))
    · intro t ids hm
      rcases List.mem_append.1 hm with hm' | hm'
      · exact h2 t ids hm'
      · have hin := hall t sid ids false hm
        rw [← List.mem_singleton.1 hm'] at hs
        generalize hb : false = b at hs
        cases hs
        exact absurd hin (of_decide_eq_false hb.symm)

example : ∃ s, CapiRun 60 [.asked 0 "a".toList "t".toList,
      .fetched 1 "a".toList "t".toList ["b".toList, "a".toList] true, .answered 60 "a".toList "t".toList true] s ∧
    ∀ t sid' ids b, CapiEvent.fetched t sid' "t".toList ids b ∈ [CapiEvent.asked 0 "a".toList "t".toList,
      .fetched 1 "a".toList "t".toList ["b".toList, "a".toList] true, .answered 60 "a".toList "t".toList true] →
      "a".toList ∈ ids := by
  refine ⟨_, .snoc (evs := [_, _]) (.snoc (evs := [_]) (.snoc (evs := []) .nil
    (.asked (r := 0) rfl)) (.fetched (r := 0) ?_)) (.answered ?_), ?_⟩
  · exact List.mem_cons_self ..
  · decide
  · intro t sid' ids b h
    simp only [List.mem_cons, reduceCtorEq, CapiEvent.fetched.injEq, false_or, List.not_mem_nil, or_false] at h
    rw [h.2.2.2.1]; simp

/-! ## C67 -/

/-- A listing is the concatenation of all its pages, the last of which has no next
link; or an error, and then some page failed. -/
theorem C67_complete (u : Url) (tr : List (Url × CapiResp)) (out : Option (List Resource))
    (h : Paginated u tr out) :
    (∀ rs, out = some rs →
      (∀ p ∈ tr, ∃ page next, p.2 = .page page next) ∧
      rs = tr.flatMap (fun p => match p.2 with | .page page _ => page | .fail => []) ∧
      ∃ p page, tr.getLast? = some p ∧ p.2 = .page page none) ∧
    (out = none → ∃ p ∈ tr, p.2 = .fail ∨ ∃ page, p.2 = .page page (some none)) := by
  induction h with
  | @err req resp he =>
    refine ⟨by simp, fun _ => ⟨(req, resp), by simp, ?_⟩⟩
    cases resp with
    | fail => exact .inl rfl
    | page rs next =>
      cases next with
      | none => simp [resourcePage] at he
      | some n => cases n with
        | none => exact .inr ⟨rs, rfl⟩
        | some v => simp [resourcePage] at he
  | @last req resp rs he =>
    refine ⟨?_, by simp⟩
    rintro _ ⟨rfl⟩
    cases resp with
    | fail => simp [resourcePage] at he
    | page rs' next =>
      cases next with
      | none =>
        simp [resourcePage] at he
        subst he
        refine ⟨?_, ?_, ?_⟩
        · intro p hp; rw [List.mem_singleton] at hp; subst hp; exact ⟨rs', none, rfl⟩
        · simp
        · exact ⟨(req, .page rs' none), rs', rfl, rfl⟩
      | some n => cases n <;> simp [resourcePage] at he
  | @next req resp rs v tr out he hp ih =>
    cases resp with
    | fail => simp [resourcePage] at he
    | page rs' next =>
      cases next with
      | none => simp [resourcePage] at he
      | some n => cases n with
        | none => simp [resourcePage] at he
        | some w =>
          simp only [resourcePage, Option.some.injEq, Prod.mk.injEq] at he
          obtain ⟨rfl, _⟩ := he
          refine ⟨?_, ?_⟩
          · intro rs2 h2
            cases hout : out with
            | none => rw [hout] at h2; cases h2
            | some rs3 =>
              rw [hout] at h2
              injection h2 with h2
              obtain ⟨i1, i2, p, pg, i3, i4⟩ := ih.1 rs3 hout
              refine ⟨?_, ?_, p, pg, ?_, i4⟩
              · intro q hq
                rcases List.mem_cons.1 hq with rfl | hq
                · exact ⟨_, _, rfl⟩
                · exact i1 q hq
              · rw [← h2, i2]; rfl
              · rw [List.getLast?_cons, i3]; rfl
          · intro h2
            have : out = none := by cases out with
              | none => rfl
              | some _ => cases h2
            obtain ⟨p, hp, hq⟩ := ih.2 this
            exact ⟨p, List.mem_cons_of_mem _ hp, hq⟩

/-- Every request of a listing, which carries the user's token, goes to the host
and with the scheme of the first, whatever the next links say; and it asks for the
path and query of the link. -/
theorem C67_host (u : Url) (tr : List (Url × CapiResp)) (out : Option (List Resource))
    (h : Paginated u tr out) :
    (∀ p ∈ tr, p.1.scheme = u.scheme ∧ p.1.host = u.host) ∧
    tr.head?.map Prod.fst = some u ∧
    ∀ i a b, tr[i]? = some a → tr[i + 1]? = some b →
      ∃ rs w, a.2 = .page rs (some (some w)) ∧ b.1.path = w.path ∧ b.1.query = w.query := by
  induction h with
  | err he => refine ⟨by simp, rfl, ?_⟩; intro i a b _ hb; simp at hb
  | last he => refine ⟨by simp, rfl, ?_⟩; intro i a b _ hb; simp at hb
  | @next req resp rs v tr out he hp ih =>
    obtain ⟨i1, i2, i3⟩ := ih
    have hv : v.scheme = req.scheme ∧ v.host = req.host ∧
        ∃ rs w, resp = .page rs (some (some w)) ∧ v.path = w.path ∧ v.query = w.query := by
      cases resp with
      | fail => simp [resourcePage] at he
      | page rs' next =>
        cases next with
        | none => simp [resourcePage] at he
        | some n => cases n with
          | none => simp [resourcePage] at he
          | some w =>
            simp only [resourcePage, Option.some.injEq, Prod.mk.injEq] at he
            obtain ⟨_, rfl⟩ := he
            exact ⟨rfl, rfl, rs', w, rfl, rfl, rfl⟩
    refine ⟨?_, rfl, ?_⟩
    · intro p hp'
      rcases List.mem_cons.1 hp' with rfl | hp'
      · exact ⟨rfl, rfl⟩
      · obtain ⟨j1, j2⟩ := i1 p hp'
        exact ⟨j1.trans hv.1, j2.trans hv.2.1⟩
    · intro i a b ha hb
      cases i with
      | zero =>
        simp at ha hb
        subst ha
        have hb' : tr.head? = some b := by rw [List.head?_eq_getElem?]; exact hb
        rw [hb'] at i2
        have hbv : b.1 = v := by simpa using i2
        obtain ⟨rs', w, h1, h2, h3⟩ := hv.2.2
        exact ⟨rs', w, h1, by rw [hbv]; exact h2, by rw [hbv]; exact h3⟩
      | succ i => exact i3 i a b (by simpa using ha) (by simpa using hb)

/-- The available ids are the guids of all apps and all service instances, or none
at all if one of the listings failed; related ids are grouped by name. -/
theorem C67_ids (apps services : Option (List Resource)) :
    (∀ as ss, apps = some as → services = some ss → ∀ x, x ∈ availableIds apps services ↔
      ∃ r, (r ∈ as ∨ r ∈ ss) ∧ r.guid = x) ∧
    (apps = none ∨ services = none → availableIds apps services = []) := by
  constructor
  · rintro as ss rfl rfl x
    simp only [availableIds, List.mem_append, List.mem_map]
    constructor
    · rintro (⟨r, h1, h2⟩ | ⟨r, h1, h2⟩)
      · exact ⟨r, .inl h1, h2⟩
      · exact ⟨r, .inr h1, h2⟩
    · rintro ⟨r, h1 | h1, h2⟩
      · exact .inl ⟨r, h1, h2⟩
      · exact .inr ⟨r, h1, h2⟩
  · rintro (rfl | rfl)
    · rfl
    · cases apps <;> rfl

private theorem related_fold (n : Str) : ∀ (rs : List Resource) (m : Expansions),
    ((rs.foldl (fun m r => expSet m r.name ((m r.name).getD [] ++ [r.guid])) m) n).getD [] =
      (m n).getD [] ++ (rs.filter (fun r => decide (r.name = n))).map (·.guid)
  | [], m => by simp
  | r :: rs, m => by
    rw [List.foldl_cons, related_fold n rs]
    by_cases h : r.name = n
    · rw [List.filter_cons_of_pos (by simp [h])]
      subst h
      simp [expSet]
    · rw [List.filter_cons_of_neg (by simp [h])]
      have : expSet m r.name ((m r.name).getD [] ++ [r.guid]) n = m n := by
        unfold expSet; rw [if_neg (fun h' => h h'.symm)]
      rw [this]

/-- The related ids of a name are the guids of the listed apps with that name. -/
theorem C67_related (names : List Str) (rs : List Resource) (hn : names ≠ []) (n : Str) :
    (relatedIds names (some rs) n).getD [] = (rs.filter (fun r => decide (r.name = n))).map (·.guid) ∧
    (relatedIds names none n).getD [] = [] := by
  unfold relatedIds
  rw [if_neg hn, if_neg hn]
  exact ⟨by simp only; rw [related_fold]; rfl, rfl⟩

/-- For the examples. -/
def exUrl : Url := ⟨"https".toList, "capi".toList, "/v3/apps".toList, []⟩

example : ∃ tr, Paginated exUrl tr (some [⟨"a".toList, []⟩, ⟨"b".toList, []⟩]) ∧ tr.length = 2 := by
  refine ⟨_, .next (out := some [⟨"b".toList, []⟩]) (rs := [⟨"a".toList, []⟩])
    (resp := .page [⟨"a".toList, []⟩] (some (some ⟨"http".toList, "evil".toList, "/p2".toList, []⟩))) rfl
    (.last (resp := .page [⟨"b".toList, []⟩] none) rfl), rfl⟩

/-! ## C87: listings end -/

/-- A server whose pages always link on keeps the client (and the user's request)
busy for ever: no finite trace is a complete run. -/
theorem C87_endless_false : ∃ server : Url → CapiResp, ∀ tr out, Paginated exUrl tr out →
    ¬ ∀ p ∈ tr, p.2 = server p.1 := by
  refine ⟨fun u => .page [] (some (some u)), ?_⟩
  intro tr out h
  generalize exUrl = u at h
  induction h with
  | @err req resp he =>
    intro hall
    have := hall (req, resp) (by simp)
    simp only at this
    subst this
    simp [resourcePage] at he
  | @last req resp rs he =>
    intro hall
    have := hall (req, resp) (by simp)
    simp only at this
    subst this
    simp [resourcePage] at he
  | next he hp ih => exact fun hall => ih fun p hp' => hall p (List.mem_cons_of_mem _ hp')

/-- If the chain of next links of the server ends after some pages, the listing
ends, with as many requests. -/
theorem C87_ends_partial (pages : List (List Resource × Url)) (last : CapiResp)
    (hlast : last = .fail ∨ (∃ rs, last = .page rs none) ∨ ∃ rs, last = .page rs (some none)) (u : Url) :
    ∃ tr out, Paginated u tr out ∧ tr.map Prod.snd =
      pages.map (fun p => CapiResp.page p.1 (some (some p.2))) ++ [last] := by
  induction pages generalizing u with
  | nil =>
    rcases hlast with rfl | ⟨rs, rfl⟩ | ⟨rs, rfl⟩
    · exact ⟨_, _, .err rfl, rfl⟩
    · exact ⟨_, _, .last rfl, rfl⟩
    · exact ⟨_, _, .err rfl, rfl⟩
  | cons p pages ih =>
    obtain ⟨rs, v⟩ := p
    obtain ⟨tr, out, h1, h2⟩ := ih { v with scheme := u.scheme, host := u.host }
    refine ⟨_, _, .next (req := u) (resp := .page rs (some (some v))) rfl h1, ?_⟩
    rw [List.map_cons, h2]; rfl

/-! ## C68 -/

private theorem refreshLoop_spec {κ : Type} : ∀ (tks : List (Str × Option κ)) (keys : List (Str × κ)) (cur : List Str),
    ((refreshLoop tks keys cur).2.2 = true ↔ ∀ p ∈ tks, p.2.isSome) ∧
    ((refreshLoop tks keys cur).2.2 = true →
      (refreshLoop tks keys cur).2.1 = cur.filter (fun x => !decide (x ∈ tks.map Prod.fst)) ∧
      ∀ kid, (refreshLoop tks keys cur).1.lookup kid =
        match tks.reverse.lookup kid with
        | some v => v
        | none => keys.lookup kid) ∧
    ∀ kid, (refreshLoop tks keys cur).1.lookup kid = keys.lookup kid ∨
      ∃ k, (refreshLoop tks keys cur).1.lookup kid = some k ∧ (kid, some k) ∈ tks
  | [], keys, cur => by
    refine ⟨by simp [refreshLoop], fun _ => ⟨?_, fun kid => rfl⟩, fun kid => .inl rfl⟩
    simp only [refreshLoop, List.map_nil, List.not_mem_nil, decide_false, Bool.not_false]
    rw [List.filter_eq_self.2 (fun _ _ => rfl)]
  | (kid, none) :: rest, keys, cur => by simp [refreshLoop]
  | (kid, some k) :: rest, keys, cur => by
    obtain ⟨i1, i2, i3⟩ := refreshLoop_spec rest (mapSet keys kid k) (cur.filter fun x => !decide (x = kid))
    rw [refreshLoop]
    refine ⟨?_, ?_, ?_⟩
    · rw [i1]; simp
    · intro h
      obtain ⟨j1, j2⟩ := i2 h
      constructor
      · rw [j1, List.filter_filter]
        congr 1
        funext x
        by_cases h1 : x = kid <;> by_cases h2 : x ∈ rest.map Prod.fst <;> simp [h1, h2]
      · intro kid'
        rw [j2 kid', List.reverse_cons, List.lookup_append, mapSet_lookup]
        cases hl : rest.reverse.lookup kid' with
        | some v => simp
        | none =>
          by_cases h1 : kid' = kid
          · subst h1; simp
          · have hb : (kid' == kid) = false := by simpa using h1
            simp [List.lookup, hb, h1]
    · intro kid'
      rcases i3 kid' with h | ⟨k', h1, h2⟩
      · rw [h, mapSet_lookup]
        by_cases h1 : kid' = kid
        · rw [if_pos h1]; subst h1
          exact .inr ⟨k, rfl, List.mem_cons_self ..⟩
        · rw [if_neg h1]; exact .inl rfl
      · exact .inr ⟨k', h1, List.mem_cons_of_mem _ h2⟩

/-- After a refresh that succeeds, the known keys are exactly those UAA listed (the
last one listed for each key id).  A refresh fails iff UAA could not be asked or
some listed key is unusable. -/
theorem C68_success {κ : Type} (keys : List (Str × κ)) (resp : Option (List (Str × Option κ))) :
    ((refreshKeys keys resp).2 = true ↔ ∃ tks, resp = some tks ∧ ∀ p ∈ tks, p.2.isSome) ∧
    ((refreshKeys keys resp).2 = true → ∀ tks, resp = some tks → ∀ kid,
      (refreshKeys keys resp).1.lookup kid = (tks.reverse.lookup kid).join) := by
  cases resp with
  | none => simp [refreshKeys]
  | some tks =>
    obtain ⟨i1, i2, i3⟩ := refreshLoop_spec tks keys (keys.map Prod.fst)
    unfold refreshKeys
    simp only
    by_cases hok : (refreshLoop tks keys (keys.map Prod.fst)).2.2 = true
    · rw [if_pos hok]
      refine ⟨⟨fun _ => ⟨tks, rfl, i1.1 hok⟩, fun _ => rfl⟩, ?_⟩
      rintro _ _ ⟨rfl⟩ kid
      obtain ⟨j1, j2⟩ := i2 hok
      rw [lookup_filter_key _ (fun k => !decide (k ∈ (refreshLoop tks keys (keys.map Prod.fst)).2.1)), j2 kid, j1]
      by_cases hk : kid ∈ tks.map Prod.fst
      · have hne : tks.reverse.lookup kid ≠ none := by
          intro h0
          rw [List.lookup_eq_none_iff] at h0
          obtain ⟨p, hp, rfl⟩ := List.mem_map.1 hk
          have := h0 p (List.mem_reverse.2 hp)
          simp at this
        cases hl : tks.reverse.lookup kid with
        | none => exact absurd hl hne
        | some v =>
          rw [if_pos (by simp only [List.mem_filter, hk, decide_true, Bool.not_true, Bool.false_eq_true,
            and_false, decide_false, Bool.not_false])]
          rfl
      · have hl : tks.reverse.lookup kid = none := by
          apply lookup_none_of_not_mem
          rw [List.map_reverse, List.mem_reverse]; exact hk
        rw [hl]
        simp only [Option.join_none]
        by_cases hm : kid ∈ keys.map Prod.fst
        · rw [if_neg (by simp only [List.mem_filter, hm, hk, decide_false, Bool.not_false, and_self,
            decide_true, Bool.not_true, Bool.false_eq_true, not_false_eq_true])]
        · rw [lookup_none_of_not_mem keys kid hm]; simp
    · rw [if_neg hok]
      refine ⟨⟨(by simp), ?_⟩, (by simp)⟩
      rintro ⟨_, ⟨rfl⟩, h⟩
      exact absurd (i1.2 h) hok

/-- After a refresh that fails, every known key id is still known, with its old key
or one UAA listed now, and no key comes from anywhere else. -/
theorem C68_failure {κ : Type} (keys : List (Str × κ)) (resp : Option (List (Str × Option κ)))
    (h : (refreshKeys keys resp).2 = false) (kid : Str) :
    ((refreshKeys keys resp).1.lookup kid = keys.lookup kid ∨
      ∃ tks k, resp = some tks ∧ (kid, some k) ∈ tks ∧ (refreshKeys keys resp).1.lookup kid = some k) ∧
    ((keys.lookup kid).isSome → ((refreshKeys keys resp).1.lookup kid).isSome) := by
  have key : (refreshKeys keys resp).1.lookup kid = keys.lookup kid ∨
      ∃ tks k, resp = some tks ∧ (kid, some k) ∈ tks ∧ (refreshKeys keys resp).1.lookup kid = some k := by
    cases resp with
    | none => exact .inl rfl
    | some tks =>
      obtain ⟨i1, i2, i3⟩ := refreshLoop_spec tks keys (keys.map Prod.fst)
      unfold refreshKeys at h ⊢
      simp only at h ⊢
      by_cases hok : (refreshLoop tks keys (keys.map Prod.fst)).2.2 = true
      · rw [if_pos hok] at h; cases h
      · rw [if_neg hok]
        rcases i3 kid with h1 | ⟨k, h1, h2⟩
        · exact .inl h1
        · exact .inr ⟨tks, k, rfl, h2, h1⟩
  refine ⟨key, ?_⟩
  intro hs
  rcases key with h1 | ⟨_, k, _, _, h1⟩
  · rw [h1]; exact hs
  · rw [h1]; rfl

example : refreshKeys [("old".toList, 1), ("kept".toList, 2)] (some [("kept".toList, some 3), ("new".toList, some 4)]) =
    ([("kept".toList, 3), ("new".toList, 4)], true) ∧
  refreshKeys [("old".toList, 1)] (some [("new".toList, some 4), ("bad".toList, none)]) =
    ([("old".toList, 1), ("new".toList, 4)], false) := by decide

/-! ## C69 -/

private theorem refresh_start {κ : Type} (minInterval : Int) :
    ∀ (calls : List (Int × Int × Option (List (Str × Option κ)))) (s : Uaa κ) (b : Int × Int),
    (refreshTimes minInterval s calls)[0]? = some b → s.lastQuery + minInterval ≤ b.1
  | [], s, b, h => by simp [refreshTimes] at h
  | (now, now', resp) :: calls, s, b, h => by
    rw [refreshTimes] at h
    by_cases ha : refreshAllowed minInterval s.lastQuery now = true
    · have hr : refreshTokenKeys minInterval s now now' resp =
        ({ keys := (refreshKeys s.keys resp).1, lastQuery := now' }, true) := by
          unfold refreshTokenKeys; rw [if_pos ha]
      rw [hr] at h
      simp at h
      subst h
      unfold refreshAllowed at ha
      simp at ha
      exact ha
    · have hr : refreshTokenKeys minInterval s now now' resp = (s, false) := by
          unfold refreshTokenKeys; rw [if_neg ha]
      rw [hr] at h
      exact refresh_start minInterval calls s b (by simpa using h)

/-- Calls made one after the other: a fetch starts at least the minimum interval
after the time recorded by the fetch before it. -/
theorem C69_throttle_partial {κ : Type} (minInterval : Int) :
    ∀ (calls : List (Int × Int × Option (List (Str × Option κ)))) (s : Uaa κ) (i : Nat) (a b : Int × Int),
    (refreshTimes minInterval s calls)[i]? = some a → (refreshTimes minInterval s calls)[i + 1]? = some b →
      a.2 + minInterval ≤ b.1
  | [], s, i, a, b, h, _ => by simp [refreshTimes] at h
  | (now, now', resp) :: calls, s, i, a, b, h, h' => by
    rw [refreshTimes] at h h'
    by_cases ha : refreshAllowed minInterval s.lastQuery now = true
    · have hr : refreshTokenKeys minInterval s now now' resp =
        ({ keys := (refreshKeys s.keys resp).1, lastQuery := now' }, true) := by
          unfold refreshTokenKeys; rw [if_pos ha]
      rw [hr] at h h'
      simp only [if_true] at h h'
      cases i with
      | zero =>
        simp at h
        subst h
        exact refresh_start minInterval calls _ b (by simpa using h')
      | succ i => exact C69_throttle_partial minInterval calls _ i a b (by simpa using h) (by simpa using h')
    · have hr : refreshTokenKeys minInterval s now now' resp = (s, false) := by
          unfold refreshTokenKeys; rw [if_neg ha]
      rw [hr] at h h'
      exact C69_throttle_partial minInterval calls s i a b (by simpa using h) (by simpa using h')

example : refreshTimes 30 (⟨[], 0⟩ : Uaa Nat) [(100, 100, none), (110, 110, none), (130, 131, none),
    (160, 160, none)] = [(100, 100), (130, 131)] := by decide

/-- Two concurrent callers fetch at the same time: the result of the
compare-and-swap is not looked at. -/
theorem C69_concurrent_false : ∃ s, RefreshRun 30 [100, 100] s := by
  refine ⟨_, .fetch (fs := [100]) (.fetch (fs := []) (.quiet (.quiet .nil (.pass (now := 100) (by decide)))
    (.pass (now := 100) (by decide))) (.fetch (old := 0) (by decide))) (.fetch (old := 0) (by decide))⟩

/-! ## C70 -/

/-- `Read` accepts a token exactly when it is an RS256 token whose key id is known
(after asking UAA if it was not), whose signature verifies with that key and that
has not expired; the caller is an admin iff the scopes contain `doppler.firehose`
or `logs.admin`. -/
theorem C70_accept {κ : Type} (refresh : Uaa κ → Uaa κ) (header : Str → Option JwtHeader)
    (verify : κ → Str → Option Str) (payload : Str → Option TokenPayload) (now : Int)
    (trim : Str → Str) (s s' : Uaa κ) (token : Str) (c : UserCtx) :
    readToken refresh header verify payload now trim s token = some (.ok c, s') ↔
      token ≠ [] ∧ ∃ kid key p d, header (trim token) = some ⟨some "RS256".toList, some kid⟩ ∧
        s' = (if (s.keys.lookup kid).isSome then s else refresh s) ∧
        s'.keys.lookup kid = some key ∧ verify key (trim token) = some p ∧
        payload p = some d ∧ now ≤ d.exp ∧ c.token = token ∧ c.expiresAt = d.exp ∧
        (c.isAdmin = true ↔ "doppler.firehose".toList ∈ d.scope ∨ "logs.admin".toList ∈ d.scope) := by
  have hadm : ∀ sc : List Str, (sc.any fun x => x = "doppler.firehose".toList || x = "logs.admin".toList) = true ↔
      "doppler.firehose".toList ∈ sc ∨ "logs.admin".toList ∈ sc := by
    intro sc
    rw [List.any_eq_true]
    constructor
    · rintro ⟨x, hx, h⟩
      rw [Bool.or_eq_true, decide_eq_true_eq, decide_eq_true_eq] at h
      rcases h with rfl | rfl
      · exact .inl hx
      · exact .inr hx
    · rintro (h | h)
      · exact ⟨_, h, by rw [Bool.or_eq_true, decide_eq_true_eq]; exact .inl rfl⟩
      · exact ⟨_, h, by rw [Bool.or_eq_true, decide_eq_true_eq, decide_eq_true_eq]; exact .inr rfl⟩
  constructor
  · intro h
    unfold readToken at h
    by_cases ht : token = []
    · rw [if_pos ht] at h; cases h
    rw [if_neg ht] at h
    refine ⟨ht, ?_⟩
    cases hh : header (trim token) with
    | none => rw [hh] at h; cases h
    | some hd =>
      obtain ⟨alg, kid⟩ := hd
      rw [hh] at h
      simp only at h
      cases alg with
      | none => cases h
      | some alg =>
        simp only at h
        by_cases ha : alg = rs256
        · rw [if_neg (by simp [ha])] at h
          cases kid with
          | none => cases h
          | some kid =>
            simp only at h
            have hlf : loadOrFetch refresh s kid =
                ((if (s.keys.lookup kid).isSome then s else refresh s).keys.lookup kid,
                 if (s.keys.lookup kid).isSome then s else refresh s) := by
              unfold loadOrFetch
              cases hl : s.keys.lookup kid <;> simp [hl]
            rw [hlf] at h
            generalize hs1 : (if (s.keys.lookup kid).isSome then s else refresh s) = s1 at h hlf
            simp only at h
            cases hk : s1.keys.lookup kid with
            | none => rw [hk] at h; cases h
            | some key =>
              rw [hk] at h
              simp only at h
              cases hv : verify key (trim token) with
              | none => rw [hv] at h; cases h
              | some p =>
                rw [hv] at h
                simp only at h
                cases hp : payload p with
                | none => rw [hp] at h; cases h
                | some d =>
                  rw [hp] at h
                  simp only at h
                  by_cases hx : now > d.exp
                  · rw [if_pos hx] at h; cases h
                  · rw [if_neg hx] at h
                    injection h with h
                    injection h with h1 h2
                    injection h1 with h1
                    subst h2
                    subst h1
                    exact ⟨kid, key, p, d, by rw [ha]; rfl, hs1.symm, hk, hv, hp, by omega, rfl, rfl, hadm d.scope⟩
        · rw [if_pos (by simpa using ha)] at h; cases h
  · rintro ⟨ht, kid, key, p, d, hh, hs, hk, hv, hp, hx, hc1, hc2, hc3⟩
    unfold readToken
    rw [if_neg ht, hh]
    simp only
    rw [if_neg (by simp [rs256])]
    have hlf : loadOrFetch refresh s kid = (s'.keys.lookup kid, s') := by
      rw [hs]
      unfold loadOrFetch
      cases hl : s.keys.lookup kid <;> simp [hl]
    rw [hlf]
    simp only
    rw [hk]
    simp only
    rw [hv]
    simp only
    rw [hp]
    simp only
    rw [if_neg (by omega)]
    obtain ⟨adm, ctok, cexp⟩ := c
    simp only at hc1 hc2 hc3
    subst hc1; subst hc2
    have : (d.scope.any fun x => x = "doppler.firehose".toList || x = "logs.admin".toList) = adm := by
      rw [Bool.eq_iff_iff, hadm, hc3]
    rw [this]

example : readToken (κ := Nat) (fun s => { s with keys := [("k".toList, 7)] })
    (fun _ => some ⟨some "RS256".toList, some "k".toList⟩) (fun k t => if k = 7 then some t else none)
    (fun _ => some ⟨["logs.admin".toList], 50⟩) 50 trimBearer ⟨[], 0⟩ "Bearer x".toList =
  some (.ok ⟨true, "Bearer x".toList, 50⟩, ⟨[("k".toList, 7)], 0⟩) := by rfl

theorem isSpaceRe_iff (ch : Char) : isSpaceRe ch = true ↔ ch ∈ [' ', '\t', '\n', '\x0c', '\r'] := by
  simp [isSpaceRe, or_assoc]

/-- A `bearer` prefix in any case, with any white space behind it, is not part of
the token. -/
theorem C70_bearer (b ws x : Str) (hb : b.map Char.toLower = "bearer".toList) (hws : ws ≠ [])
    (hsp : ∀ ch ∈ ws, ch ∈ [' ', '\t', '\n', '\x0c', '\r'])
    (hx : ∀ ch, x.head? = some ch → ch ∉ [' ', '\t', '\n', '\x0c', '\r']) :
    trimBearer (b ++ ws ++ x) = x := by
  replace hsp : ∀ ch ∈ ws, isSpaceRe ch = true := fun ch h => (isSpaceRe_iff ch).2 (hsp ch h)
  replace hx : ∀ ch, x.head? = some ch → isSpaceRe ch = false := fun ch h =>
    Bool.eq_false_iff.2 fun h' => hx ch h ((isSpaceRe_iff ch).1 h')
  have hlen : b.length = 6 := by
    have := congrArg List.length hb
    rw [List.length_map] at this
    exact this
  unfold trimBearer
  have h1 : (b ++ ws ++ x).take 6 = b := by
    rw [List.append_assoc, ← hlen, List.take_left']
    rfl
  have h2 : (b ++ ws ++ x).drop 6 = ws ++ x := by
    rw [List.append_assoc, ← hlen, List.drop_left']
    rfl
  rw [h1, h2]
  have h3 : (ws ++ x).head?.any isSpaceRe = true := by
    cases ws with
    | nil => exact absurd rfl hws
    | cons w ws => simpa using hsp w (List.mem_cons_self ..)
  rw [if_pos ⟨hb, h3⟩]
  rw [List.dropWhile_append_of_pos hsp]
  cases x with
  | nil => rfl
  | cons ch x => rw [List.dropWhile_cons_of_neg]; simpa using hx ch rfl

/-- Nothing else is taken off. -/
theorem C70_no_bearer (s : Str) (h : ∀ b ws x, s = b ++ ws ++ x → b.map Char.toLower = "bearer".toList → ws ≠ [] →
    ¬ ∀ ch ∈ ws, ch ∈ [' ', '\t', '\n', '\x0c', '\r']) : trimBearer s = s := by
  unfold trimBearer
  rw [if_neg]
  rintro ⟨h1, h2⟩
  cases hd : s.drop 6 with
  | nil => rw [hd] at h2; simp at h2
  | cons c r =>
    rw [hd] at h2
    refine h (s.take 6) [c] r ?_ h1 (by simp) ?_
    · rw [List.append_assoc, List.singleton_append, ← hd, List.take_append_drop]
    · intro ch hch
      rw [List.mem_singleton.1 hch]
      exact (isSpaceRe_iff c).1 (by simpa using h2)

example : trimBearer "bEaReR \t x y".toList = "x y".toList ∧ trimBearer "bearerx".toList = "bearerx".toList := by
  decide

/-! ## C88: every token is answered -/

/-- `Read` crashes exactly on a decodable token without string algorithm, or with
RS256 and no string key id. -/
theorem C88_crash_partial {κ : Type} (refresh : Uaa κ → Uaa κ) (header : Str → Option JwtHeader)
    (verify : κ → Str → Option Str) (payload : Str → Option TokenPayload) (now : Int)
    (trim : Str → Str) (s : Uaa κ) (token : Str) :
    readToken refresh header verify payload now trim s token = none ↔
      token ≠ [] ∧ ∃ h, header (trim token) = some h ∧
        (h.alg = none ∨ h.alg = some "RS256".toList ∧ h.kid = none) := by
  unfold readToken
  by_cases ht : token = []
  · simp [ht]
  rw [if_neg ht]
  cases hh : header (trim token) with
  | none => simp
  | some hd =>
    obtain ⟨alg, kid⟩ := hd
    simp only [ht, ne_eq, not_false_eq_true, true_and, Option.some.injEq, exists_eq_left']
    cases alg with
    | none => simp
    | some alg =>
      simp only
      by_cases ha : alg = rs256
      · rw [if_neg (by simp [ha])]
        cases kid with
        | none => simp [ha, rs256]
        | some kid =>
          simp only
          generalize loadOrFetch refresh s kid = r
          have hR : ¬ (some alg = none ∨ some alg = some "RS256".toList ∧ some kid = none) := by simp
          refine iff_of_false ?_ hR
          cases r.1 with
          | none => simp
          | some key =>
            simp only
            cases verify key (trim token) with
            | none => simp
            | some p =>
              simp only
              cases payload p with
              | none => simp
              | some d =>
                simp only
                split <;> simp
      · rw [if_pos (by simpa using ha)]
        refine iff_of_false (by simp) ?_
        rintro (h | ⟨h, _⟩)
        · cases h
        · injection h with h; exact ha h

/-- An RS256 token whose header has no key id crashes the request. -/
theorem C88_crash_false : ∃ (header : Str → Option JwtHeader) (token : Str),
    readToken (κ := Nat) id header (fun _ t => some t) (fun _ => none) 0 trimBearer ⟨[], 0⟩ token = none :=
  ⟨fun _ => some ⟨some "RS256".toList, none⟩, "x".toList, rfl⟩

/-! ## The chain -/

/-- What `Read` of the UAA client gives the handlers. -/
def tokenUser {κ : Type} (refresh : Uaa κ → Uaa κ) (header : Str → Option JwtHeader)
    (verify : κ → Str → Option Str) (payload : Str → Option TokenPayload) (now : Int) (s : Uaa κ)
    (token : Str) : Option UserCtx :=
  match readToken refresh header verify payload now trimBearer s token with
  | some (.ok c, _) => some c
  | _ => none

/-- All pieces together: a read is forwarded only for an unexpired RS256 token
whose signature verifies with a key UAA published, and whose scopes make it an
admin's or for which CAPI lists the source now or listed it within the interval. -/
theorem C61_chain {κ : Type} (refresh : Uaa κ → Uaa κ) (header : Str → Option JwtHeader)
    (verify : κ → Str → Option Str) (payload : Str → Option TokenPayload) (now : Int) (s : Uaa κ)
    (interval t t' : Int) (evs : List CapiEvent) (cs : CapiState) (hrun : CapiRun interval evs cs)
    (capi : List Str) (tok id : Str)
    (h : readHandler (tokenUser refresh header verify payload now s)
      (fun id tk => (isAuthorized interval cs.cache t t' id tk capi).1) tok id = .forward id) :
    ∃ kid key p d, header (trimBearer tok) = some ⟨some "RS256".toList, some kid⟩ ∧
      (s.keys.lookup kid = some key ∨ (refresh s).keys.lookup kid = some key) ∧
      verify key (trimBearer tok) = some p ∧ payload p = some d ∧ now ≤ d.exp ∧
      ("doppler.firehose".toList ∈ d.scope ∨ "logs.admin".toList ∈ d.scope ∨ id ∈ capi ∨
        ∃ t0 sid ids b, CapiEvent.fetched t0 sid tok ids b ∈ evs ∧ id ∈ ids ∧ t < t0 + interval) := by
  obtain ⟨_, c, hc, hauth⟩ := (C61_read _ _ tok id).1.1 h
  unfold tokenUser at hc
  cases hr : readToken refresh header verify payload now trimBearer s tok with
  | none => rw [hr] at hc; cases hc
  | some r =>
    obtain ⟨res, s'⟩ := r
    rw [hr] at hc
    cases res with
    | error e => cases hc
    | ok c' =>
      injection hc with hc
      subst hc
      obtain ⟨_, kid, key, p, d, h1, h2, h3, h4, h5, h6, h7, h8, h9⟩ := (C70_accept _ _ _ _ _ _ _ _ _ _).1 hr
      refine ⟨kid, key, p, d, h1, ?_, h4, h5, h6, ?_⟩
      · rw [h2] at h3
        split at h3
        · exact .inl h3
        · exact .inr h3
      · rcases hauth with ha | ha
        · rcases h9.1 ha with h | h
          · exact .inl h
          · exact .inr (.inl h)
        · rw [h7] at ha
          unfold isAuthorized at ha
          cases hl : authLoad cs.cache t id tok with
          | inr r =>
            rw [hl] at ha
            exact .inr (.inr (.inl (of_decide_eq_true ha)))
          | inl b =>
            rw [hl] at ha
            simp only at ha
            subst ha
            exact .inr (.inr (.inr ((C64_fresh interval evs cs t id tok).1 (.snoc hrun (.answered hl)))))

end LogCache
