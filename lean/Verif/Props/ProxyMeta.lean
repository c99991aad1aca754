import Verif.Model.ProxyMeta
import Verif.Spec.ProxyMeta
import Verif.Props.EnvelopeFormat
import Verif.Props.Auth
import Verif.Proof.Protobuf
/-!
# The meta information of the proxy (C150)
-/
namespace LogCache
open Spec

theorem setKey_lookup {α : Type} (k : Str) (v : α) (m : List (Str × α)) (id : Str) :
    (setKey k v m).lookup id = if id = k then some v else m.lookup id := by
  induction m with
  | nil =>
    by_cases h : id = k
    · simp [setKey, List.lookup, h]
    · have : (id == k) = false := by simpa using h
      simp [setKey, List.lookup, h, this]
  | cons p m ih =>
    obtain ⟨k', v'⟩ := p
    simp only [setKey]
    split
    · by_cases h : id = k
      · simp [List.lookup, h]
      · have : (id == k) = false := by simpa using h
        simp [List.lookup, h, this]
    split
    · rename_i h; subst h
      by_cases h : id = k
      · simp [List.lookup, h]
      · have : (id == k) = false := by simpa using h
        simp [List.lookup, h, this]
    · rename_i h
      by_cases h' : id = k'
      · subst h'
        have : id ≠ k := fun e => h e.symm
        simp [List.lookup, this]
      · have : (id == k') = false := by simpa using h'
        simp [List.lookup, this, ih]

theorem sortKeys_lookup {α : Type} (m : List (Str × α)) (id : Str) : (sortKeys m).lookup id = m.lookup id := by
  induction m with
  | nil => rfl
  | cons p m ih =>
    show (setKey p.1 p.2 (sortKeys m)).lookup id = _
    rw [setKey_lookup, ih]
    by_cases h : id = p.1
    · subst h; simp [List.lookup]
    · have : (id == p.1) = false := by simpa using h
      rw [if_neg h, List.lookup, this]

theorem sortKeys_order {α : Type} (m : List (Str × α)) : KeysInOrder (sortKeys m) := by
  induction m with
  | nil => exact .nil
  | cons p m ih => exact setKey_order p.1 p.2 _ ih

theorem sortKeys_mem {α : Type} {m : List (Str × α)} {p : Str × α} (h : p ∈ sortKeys m) : p ∈ m := by
  induction m with
  | nil => cases h
  | cons q m ih =>
    rcases setKey_mem (show p ∈ setKey q.1 q.2 (sortKeys m) from h) with e | h
    · rw [e]; exact List.mem_cons_self ..
    · exact List.mem_cons_of_mem _ (ih h)

private theorem nums_short (k : String) (n : Int) (fs : List (Str × Json)) (h : NumsOkFields fs) :
    NumsOkFields (shortField k n ++ fs) := by
  unfold shortField intJson
  split
  · exact h
  · simpa [NumsOkFields, NumsOk] using h

private theorem nums_proxy (m : List (Str × WireMeta)) : NumsOk (proxyMetaResponseJson m) := by
  unfold proxyMetaResponseJson
  split
  · simp [NumsOk, NumsOkFields]
  · simp only [NumsOk, NumsOkFields, and_true]
    unfold mapJson
    rw [NumsOk]
    clear * -
    induction m with
    | nil => trivial
    | cons p m ih =>
      rw [List.map_cons, NumsOkFields]
      refine ⟨?_, ih⟩
      unfold proxyMetaJson
      rw [NumsOk, List.append_assoc, List.append_assoc]
      refine nums_short _ _ _ (nums_short _ _ _ (nums_short _ _ _ ?_))
      have := nums_short "newestTimestamp" p.2.newest [] trivial
      rwa [List.append_nil] at this

private theorem proxyMeta_entry {m : WireMeta} (h1 : FitsInt64 m.count) (h2 : FitsInt64 m.expired)
    (h3 : FitsInt64 m.oldest) (h4 : FitsInt64 m.newest) : readWireMeta (proxyMetaJson m) = some m := by
  obtain ⟨c, x, o, n⟩ := m
  simp only at h1 h2 h3 h4
  have key : ∀ {v : Int}, FitsInt64 v → readInt64 (if v = 0 then .null else intJson v) = some v := by
    intro v hv
    split
    · rename_i h; subst h; rfl
    · exact int_read hv
  have e : readWireMeta (proxyMetaJson ⟨c, x, o, n⟩) =
      match readInt64 (if c = 0 then .null else intJson c), readInt64 (if x = 0 then .null else intJson x),
        readInt64 (if o = 0 then .null else intJson o), readInt64 (if n = 0 then .null else intJson n) with
      | some c, some x, some o, some n => some ⟨c, x, o, n⟩
      | _, _, _, _ => none := by
    unfold proxyMetaJson shortField
    simp only
    by_cases a : c = 0 <;> by_cases b : x = 0 <;> by_cases d : o = 0 <;> by_cases f : n = 0 <;>
      simp only [a, b, d, f, if_true, if_false] <;> rfl
  rw [e, key h1, key h2, key h3, key h4]

/-- The client library reads back what the proxy wrote: the same sources with the same numbers. -/
theorem C150_read (m : List (Str × WireMeta))
    (h : ∀ p ∈ m, FitsInt64 p.2.count ∧ FitsInt64 p.2.expired ∧ FitsInt64 p.2.oldest ∧ FitsInt64 p.2.newest) :
    ∃ m', clientMetaBody (proxyMetaText m) = some m' ∧ SameLookup m' m ∧ KeysInOrder m' := by
  refine ⟨sortKeys m, ?_, sortKeys_lookup m, sortKeys_order m⟩
  unfold clientMetaBody proxyMetaText
  rw [decode_line (nums_proxy _), Option.bind_some]
  have ho := sortKeys_order m
  have hv := fun p hp => h p (sortKeys_mem (m := m) (p := p) hp)
  revert ho hv
  generalize sortKeys m = l
  intro ho hv
  unfold proxyMetaResponseJson
  split
  · rename_i h0; subst h0; rfl
  · show readMap readWireMeta (mapJson proxyMetaJson l) = some l
    refine map_read _ _ ho fun p hp => ?_
    obtain ⟨h1, h2, h3, h4⟩ := hv p hp
    exact proxyMeta_entry h1 h2 h3 h4

private theorem proxyMeta_answer (oauth : Str → Option UserCtx) (available : Str → List Str) (m : List (Str × WireMeta))
    (tok : Str) (c : UserCtx) (ht : tok ≠ []) (hc : oauth tok = some c) (hm : (m.map Prod.fst).Nodup) :
    ∃ ans, proxyMeta oauth available (some m) tok = .inr (proxyMetaText ans) ∧
      (∀ id, ans.lookup id = if c.isAdmin = true ∨ id ∈ available tok then m.lookup id else none) ∧
      (∀ p ∈ ans, p ∈ m ∧ (c.isAdmin = true ∨ p.1 ∈ available tok)) := by
  obtain ⟨ans, h1, h2, h3⟩ := ((C63_meta oauth available (some m) tok).2 c ht hc).2 m rfl
  have hl : ∀ id, ans.lookup id = if c.isAdmin = true ∨ id ∈ available tok then m.lookup id else none := by
    intro id
    cases ha : c.isAdmin with
    | true => rw [h2 ha]; simp
    | false => rw [(h3 ha).2 id]; simp
  have hnd : (ans.map Prod.fst).Nodup := by
    cases ha : c.isAdmin with
    | true => rw [h2 ha]; exact hm
    | false => exact (h3 ha).1
  refine ⟨ans, by unfold proxyMeta; rw [h1], hl, ?_⟩
  · intro p hp
    have hlp : ∀ l : List (Str × WireMeta), (l.map Prod.fst).Nodup → p ∈ l → l.lookup p.1 = some p.2 := by
      intro l
      induction l with
      | nil => intro _ h; cases h
      | cons q l ih =>
        intro hn hp
        rw [List.map_cons, List.nodup_cons] at hn
        rcases List.mem_cons.1 hp with e | hp
        · subst e; simp [List.lookup]
        · have : (p.1 == q.1) = false := by
            rw [beq_eq_false_iff_ne]
            exact fun e => hn.1 (e ▸ List.mem_map.2 ⟨p, hp, rfl⟩)
          rw [List.lookup, this]
          exact ih hn.2 hp
    have hml : ∀ l : List (Str × WireMeta), l.lookup p.1 = some p.2 → p ∈ l := by
      intro l
      induction l with
      | nil => intro h; cases h
      | cons q l ih =>
        intro h
        rw [List.lookup] at h
        split at h
        · rename_i he
          have h1 : p.1 = q.1 := by simpa using he
          have hpq : p = q := Prod.ext h1 (Option.some.inj h).symm
          exact hpq ▸ List.mem_cons_self ..
        · exact List.mem_cons_of_mem _ (ih h)
    have := hlp ans hnd hp
    rw [hl p.1] at this
    split at this
    · exact ⟨hml m this, by assumption⟩
    · cases this

/-- Through the proxy, the client library of a user gets what the log cache knows of the sources
the user may read, and of no others; an admin's gets all of it. -/
theorem C150_user (oauth : Str → Option UserCtx) (available : Str → List Str) (m : List (Str × WireMeta)) (tok : Str)
    (c : UserCtx) (ht : tok ≠ []) (hc : oauth tok = some c) (hm : (m.map Prod.fst).Nodup)
    (h : ∀ p ∈ m, FitsInt64 p.2.count ∧ FitsInt64 p.2.expired ∧ FitsInt64 p.2.oldest ∧ FitsInt64 p.2.newest) :
    ∃ body m', proxyMeta oauth available (some m) tok = .inr body ∧ clientMetaBody body = some m' ∧
      ∀ id, m'.lookup id = if c.isAdmin = true ∨ id ∈ available tok then m.lookup id else none := by
  obtain ⟨ans, h1, hl, hmem⟩ := proxyMeta_answer oauth available m tok c ht hc hm
  obtain ⟨m', g1, g2, _⟩ := C150_read ans fun p hp => h p (hmem p hp).1
  exact ⟨_, m', h1, g1, fun id => by rw [g2 id, hl id]⟩

/-- Without a token, and with one that is not valid, the answer is 404; if the log cache failed,
502. -/
theorem C150_refused (oauth : Str → Option UserCtx) (available : Str → List Str) (md : Option (List (Str × WireMeta)))
    (tok : Str) :
    (tok = [] ∨ oauth tok = none → proxyMeta oauth available md tok = .inl 404) ∧
    (tok ≠ [] → (oauth tok).isSome → md = none → proxyMeta oauth available md tok = .inl 502) := by
  unfold proxyMeta
  refine ⟨fun h => by rw [(C63_meta oauth available md tok).1 h], fun ht hc hm => ?_⟩
  obtain ⟨c, hc⟩ := Option.isSome_iff_exists.1 hc
  rw [((C63_meta oauth available md tok).2 c ht hc).1 hm]

/-- The text has the documented format, if there is a source to list and no number but `expired`
is zero. -/
theorem proxyMetaText_format (m : List (Str × WireMeta)) (hne : m ≠ [])
    (h : ∀ p ∈ m, p.2.count ≠ 0 ∧ p.2.oldest ≠ 0 ∧ p.2.newest ≠ 0) :
    ∃ m', SameLookup m' m ∧ KeysInOrder m' ∧ MetaBody m' (proxyMetaText m) := by
  refine ⟨sortKeys m, sortKeys_lookup m, sortKeys_order m, ?_⟩
  have hne' : sortKeys m ≠ [] := by
    intro e
    obtain ⟨p, l, rfl⟩ := List.exists_cons_of_ne_nil hne
    have := sortKeys_lookup (p :: l) p.1
    rw [e] at this
    simp [List.lookup] at this
  have hj : JsonDoc (proxyMetaResponseJson (sortKeys m)) (proxyMetaText m) := line_doc (nums_proxy _)
  unfold proxyMetaResponseJson at hj
  rw [if_neg hne'] at hj
  refine ⟨_, _, hj, member_obj rfl, mapJson_shown fun p hp => ?_⟩
  obtain ⟨h1, h2, h3⟩ := h p (sortKeys_mem hp)
  unfold proxyMetaJson shortField intJson MetaDocumented
  simp only [formatInt_eq, if_neg h1, if_neg h2, if_neg h3]
  split
  · rename_i h0
    exact ⟨member_obj rfl, .inl (noMember_obj (fun hm => absurd (show "expired".toList ∈ ["count".toList, "oldestTimestamp".toList, "newestTimestamp".toList] from hm) (by decide))), member_obj rfl, member_obj rfl⟩
  · exact ⟨member_obj rfl, member_obj rfl, member_obj rfl, member_obj rfl⟩

/-- The answer has the documented format, and lists the sources that the user may read, if there
is one to list and no number but `expired` is zero. Missing: answers without sources, and
timestamps that are zero, for which it is false (below). -/
theorem C150_format_partial (oauth : Str → Option UserCtx) (available : Str → List Str) (m : List (Str × WireMeta))
    (tok : Str) (c : UserCtx) (ht : tok ≠ []) (hc : oauth tok = some c) (hm : (m.map Prod.fst).Nodup)
    (hsome : ∃ id, (c.isAdmin = true ∨ id ∈ available tok) ∧ (m.lookup id).isSome)
    (h : ∀ p ∈ m, c.isAdmin = true ∨ p.1 ∈ available tok → p.2.count ≠ 0 ∧ p.2.oldest ≠ 0 ∧ p.2.newest ≠ 0) :
    ∃ body m', proxyMeta oauth available (some m) tok = .inr body ∧ MetaBody m' body ∧ KeysInOrder m' ∧
      ∀ id, m'.lookup id = if c.isAdmin = true ∨ id ∈ available tok then m.lookup id else none := by
  obtain ⟨ans, h1, hl, hmem⟩ := proxyMeta_answer oauth available m tok c ht hc hm
  obtain ⟨m', g1, g2, g3⟩ := proxyMetaText_format ans (by
    rintro rfl
    obtain ⟨id, hid, hs⟩ := hsome
    have := hl id
    rw [if_pos hid] at this
    rw [← this] at hs
    cases hs) fun p hp => h p (hmem p hp).1 (hmem p hp).2
  exact ⟨_, m', h1, g3, g2, fun id => by rw [g1 id, hl id]⟩

/-- Without a source, there is no field `meta`. -/
theorem C150_empty_false (m : List (Str × WireMeta)) : ¬ MetaBody m (proxyMetaText []) := by
  rintro ⟨j, v, hj, ⟨fs, rfl, hm⟩, -⟩
  have := C76_unambiguous _ _ _ hj (line_doc (nums_proxy (sortKeys [])))
  cases this
  cases hm

/-- The source of an envelope of time zero is listed without its times. -/
theorem C150_zero_false (count : Int) (id : Str) :
    ¬ MetaBody [(id, ⟨count, 0, 0, 0⟩)] (proxyMetaText [(id, ⟨count, 0, 0, 0⟩)]) := by
  rintro ⟨j, v, hj, ⟨fs, rfl, hm⟩, fs', rfl, hs⟩
  have := C76_unambiguous _ _ _ hj (line_doc (nums_proxy (sortKeys [(id, ⟨count, 0, 0, 0⟩)])))
  cases this
  cases hm
  cases hs with
  | cons h _ =>
    obtain ⟨-, -, -, ⟨gs, hg, h⟩, -⟩ := h
    unfold proxyMetaJson shortField at hg
    simp only [if_true, List.append_nil] at hg
    cases hg
    split at h
    · cases h
    · cases h

/-- The gateway itself never answers in the documented format, if there is a source: its fields
have other names. -/
theorem C150_gateway_false (m m' : List (Str × WireMeta)) (hne : m' ≠ []) : ¬ MetaBody m' (metaAnswerText m) := by
  rintro ⟨j, v, hj, ⟨fs, rfl, hm⟩, fs', rfl, hs⟩
  have := C76_unambiguous _ _ _ hj (line_doc (nums_metaResponse m))
  cases this
  cases hm
  cases m with
  | nil => cases hs; exact hne rfl
  | cons p m =>
    cases hs with
    | cons h _ =>
      obtain ⟨-, -, -, ⟨gs, hg, h⟩, -⟩ := h
      cases hg
      cases h

/-- A full source and one that was never pruned. -/
def exSources : List (Str × WireMeta) :=
  [("source-id-1".toList, ⟨2114, 0, 1524057384976840476, 1524081729980342902⟩),
    ("source-id-0".toList, ⟨100000, 129452, 1524071322998223702, 1524081739994226961⟩)]

example : proxyMetaText exSources = ("{\"meta\":{\"source-id-0\":{\"count\":\"100000\",\"expired\":\"129452\"," ++
      "\"oldestTimestamp\":\"1524071322998223702\",\"newestTimestamp\":\"1524081739994226961\"}," ++
      "\"source-id-1\":{\"count\":\"2114\",\"oldestTimestamp\":\"1524057384976840476\"," ++
      "\"newestTimestamp\":\"1524081729980342902\"}}}\n").toList := by decide +kernel

example : ∃ body m', proxyMeta exOauth (fun _ => ["source-id-1".toList, "x".toList]) (some exSources) "t".toList = .inr body ∧
    MetaBody m' body ∧ m'.lookup "source-id-1".toList = exSources.lookup "source-id-1".toList := by
  obtain ⟨body, m', h1, h2, _, h3⟩ := C150_format_partial exOauth (fun _ => ["source-id-1".toList, "x".toList]) exSources
    "t".toList ⟨false, "t".toList, 0⟩ (by decide) rfl (by decide) ⟨"source-id-1".toList, by decide⟩ (by decide)
  exact ⟨body, m', h1, h2, by rw [h3]; decide⟩

example : ∃ body m', proxyMeta exOauth (fun _ => ["source-id-1".toList, "x".toList]) (some exSources) "t".toList = .inr body ∧
    clientMetaBody body = some m' ∧ m'.lookup "source-id-0".toList = none := by
  obtain ⟨body, m', h1, h2, h3⟩ := C150_user exOauth (fun _ => ["source-id-1".toList, "x".toList]) exSources "t".toList
    ⟨false, "t".toList, 0⟩ (by decide) rfl (by decide) (by unfold FitsInt64; decide)
  exact ⟨body, m', h1, h2, by rw [h3]; decide⟩

end LogCache
