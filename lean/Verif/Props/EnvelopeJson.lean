import Verif.Proof.EnvelopeJson

/-! # Envelopes over HTTP (C113, C114) -/

namespace LogCache
open Spec

/-- The envelopes the client library returns are those the gateway got, for every response:
any number of envelopes of any kind, with any text, bytes and numbers in them.  A response
without a batch is one without envelopes. -/
theorem C113_read (r : Option (List WireEnvelope)) (h : ∀ es, r = some es → ∀ e ∈ es, ValidEnvelope e) :
    clientReadBody (readAnswerText r) = some (r.getD []) := by
  unfold clientReadBody readAnswerText
  rw [decode_line (nums_readResponse h)]
  exact readResponse_read h

/-- The meta information the client library returns is what the gateway got. -/
theorem C113_meta (m : List (Str × WireMeta)) (h : ValidMetaMap m) : clientMetaBody (metaAnswerText m) = some m := by
  unfold clientMetaBody metaAnswerText
  rw [decode_line (nums_metaResponse m)]
  exact metaResponse_read h

/-- Whoever reads JSON can read the answers: they are documents of its grammar. -/
theorem C113_document (r : Option (List WireEnvelope)) (h : ∀ es, r = some es → ∀ e ∈ es, ValidEnvelope e)
    (m : List (Str × WireMeta)) : JsonDoc (readResponseJson r) (readAnswerText r) ∧ JsonDoc (metaResponseJson m) (metaAnswerText m) :=
  ⟨line_doc (nums_readResponse h), line_doc (nums_metaResponse m)⟩

/-- Envelopes of all kinds, with what needs care: negative and large numbers, a tiny and a
huge float64, NaN and an infinity, bytes that are no text, an unknown type of log. -/
def sampleEnvelopes : List WireEnvelope :=
  [{ timestamp := -2 ^ 63, sourceId := "a\"<".toList, instanceId := "0".toList, message := some (.log (some [0, 255, 10]) 7) },
   { timestamp := 2 ^ 63 - 1, tags := [("a".toList, "x".toList), ("b".toList, [])], message := some (.counter "c".toList (2 ^ 64 - 1) 0) },
   { deprecatedTags := [([], .unset), ("i".toList, .integer (-5)), ("n".toList, .decimal .nan), ("s".toList, .text [])],
     message := some (.gauge [("g".toList, ⟨"ms".toList, .fin true 1 (-1074)⟩), ("h".toList, ⟨[], .fin false (2 ^ 53 - 1) 971⟩),
       ("i".toList, ⟨[], .inf true⟩)]) },
   { message := some (.timer "t".toList (-1) 5) },
   { message := some (.event "t".toList "b".toList) },
   { message := some (.log none 1) },
   {}]

theorem sample_valid : ∀ e ∈ sampleEnvelopes, ValidEnvelope e := by
  intro e he
  simp only [sampleEnvelopes, List.mem_cons, List.not_mem_nil, or_false] at he
  rcases he with rfl | rfl | rfl | rfl | rfl | rfl | rfl
  case inr.inr.inl =>
    refine ⟨by unfold FitsInt64; decide, by unfold KeysInOrder; decide, ?_, by unfold KeysInOrder; decide, ?_⟩
    · intro p hp
      simp only [List.mem_cons, List.not_mem_nil, or_false] at hp
      rcases hp with rfl | rfl | rfl | rfl <;> simp [ValidTagValue, FitsInt64, Binary64]
    · rintro m ⟨rfl⟩
      refine ⟨by unfold KeysInOrder; decide, ?_⟩
      intro p hp
      simp only [List.mem_cons, List.not_mem_nil, or_false] at hp
      rcases hp with rfl | rfl | rfl <;> simp [Binary64]
  all_goals
    simp [ValidEnvelope, FitsInt64, KeysInOrder, ValidMessage] <;> try decide

example : clientReadBody (readAnswerText (some sampleEnvelopes)) = some sampleEnvelopes :=
  C113_read (some sampleEnvelopes) (by rintro es ⟨rfl⟩; exact sample_valid)

/-! ## What is not written like that -/

/-- One field with a name the client does not know, on any envelope, and the whole read is
an error: a gateway that adds a field to envelopes breaks clients that do not have it. -/
theorem C114_unknown (before after : List Json) (fs fs' : List (Str × Json)) (k : Str) (v : Json) (hk : k ∉ envelopeNames)
    (t : Str) (ht : JsonDoc (answerOf (before ++ .obj (fs ++ (k, v) :: fs') :: after)) t) : clientReadBody t = none := by
  have hd : decodeJson t = some (answerOf (before ++ .obj (fs ++ (k, v) :: fs') :: after)) := by
    obtain ⟨b, u, a, rfl, hb, hu, ha⟩ := ht
    refine (C76_decoder _ _).2 b u a rfl hb hu ?_
    rintro c r' rfl
    rcases ha c (.head _) with rfl | rfl | rfl | rfl <;> decide
  unfold clientReadBody
  rw [hd]
  show traverse readWireEnvelope (before ++ .obj (fs ++ (k, v) :: fs') :: after) = none
  refine (traverse_none _ _).2 ⟨.obj (fs ++ (k, v) :: fs'), by simp, ?_⟩
  unfold readWireEnvelope readObject orZero
  simp only
  rw [if_neg]
  intro hall
  have := List.all_eq_true.1 hall (k, v) (by simp)
  have hany : (envelopeNames.any fun n => decide (n = k)) = true := this
  obtain ⟨n, hn, he⟩ := List.any_eq_true.1 hany
  rw [decide_eq_true_eq] at he
  exact hk (he ▸ hn)

private theorem lookup_perm {fs fs' : List (Str × Json)} (h : fs.Perm fs') (hn : (fs.map Prod.fst).Nodup) (k : Str) :
    fs.lookup k = fs'.lookup k := by
  induction h with
  | nil => rfl
  | cons p h ih =>
    obtain ⟨a, v⟩ := p
    rw [List.lookup_cons, List.lookup_cons, ih (List.nodup_cons.1 hn).2]
  | swap p q l =>
    obtain ⟨a, v⟩ := p
    obtain ⟨b, w⟩ := q
    have hab : b ≠ a := by
      intro h; subst h
      simp at hn
    simp only [List.lookup_cons]
    by_cases h1 : k = a
    · subst h1
      have : (k == b) = false := by simpa using fun h => hab h.symm
      simp [this]
    · have h1' : (k == a) = false := by simpa using h1
      simp [h1']
  | trans h1 h2 ih1 ih2 =>
    rw [ih1 hn, ih2 ((h1.map Prod.fst).nodup_iff.1 hn)]

/-- The order of the fields of an envelope does not matter. -/
theorem C114_order (fs fs' : List (Str × Json)) (h : fs.Perm fs') (hn : (fs.map Prod.fst).Nodup) :
    readWireEnvelope (.obj fs) = readWireEnvelope (.obj fs') := by
  have hf : ∀ k : String, field fs k = field fs' k := by
    intro k
    unfold field
    have hr : fs.reverse.Perm fs'.reverse := (List.reverse_perm fs).trans (h.trans (List.reverse_perm fs').symm)
    refine lookup_perm hr ?_ _
    rw [List.map_reverse]
    exact List.nodup_reverse.2 hn
  have ht : ∀ a b : String, takeField fs a b = takeField fs' a b := by
    intro a b; unfold takeField; rw [hf, hf]
  have hm : readWireMessage fs = readWireMessage fs' := by
    unfold readWireMessage hasField
    simp only [hf, ht]
  have ha : ∀ q : Str × Json → Bool, fs.all q = fs'.all q := by
    intro q
    rw [Bool.eq_iff_iff, List.all_eq_true, List.all_eq_true]
    exact ⟨fun H x hx => H x (h.mem_iff.2 hx), fun H x hx => H x (h.mem_iff.1 hx)⟩
  unfold readWireEnvelope readObject orZero
  simp only [ha, ht, hm]

private theorem envelope_congr {fs fs' : List (Str × Json)}
    (ha : (fs.all fun p => envelopeNames.any fun n => n = p.1) = true)
    (ha' : (fs'.all fun p => envelopeNames.any fun n => n = p.1) = true)
    (h1 : takeField fs "timestamp" "timestamp" = takeField fs' "timestamp" "timestamp")
    (h2 : takeField fs "source_id" "sourceId" = takeField fs' "source_id" "sourceId")
    (h3 : takeField fs "instance_id" "instanceId" = takeField fs' "instance_id" "instanceId")
    (h4 : takeField fs "deprecated_tags" "deprecatedTags" = takeField fs' "deprecated_tags" "deprecatedTags")
    (h5 : takeField fs "tags" "tags" = takeField fs' "tags" "tags")
    (h6 : field fs "log" = field fs' "log") (h7 : field fs "counter" = field fs' "counter") (h8 : field fs "gauge" = field fs' "gauge")
    (h9 : field fs "timer" = field fs' "timer") (h10 : field fs "event" = field fs' "event") :
    readWireEnvelope (.obj fs) = readWireEnvelope (.obj fs') := by
  have hm : readWireMessage fs = readWireMessage fs' := by
    unfold readWireMessage hasField takeField
    rw [h6, h7, h8, h9, h10]
  have e : ∀ gs : List (Str × Json), (gs.all fun p => envelopeNames.any fun n => n = p.1) = gs.all fun p =>
      ["timestamp", "source_id", "sourceId", "instance_id", "instanceId", "deprecated_tags", "deprecatedTags",
      "tags", "log", "counter", "gauge", "timer", "event"].any fun n => n.toList = p.1 := fun _ => rfl
  rw [e] at ha ha'
  unfold readWireEnvelope readObject orZero
  simp only
  rw [if_pos ha, if_pos ha', h1, h2, h3, h4, h5, hm]

/-- Names in camel case are read like those of the protocol. -/
theorem C114_names (e : WireEnvelope) (h : ValidEnvelope e) (fs : List (Str × Json)) (hfs : wireEnvelopeJson e = .obj fs) :
    readWireEnvelope (.obj (fs.map fun p => (camelName p.1, p.2))) = some e := by
  have hr := wireEnvelope_read h
  rw [hfs] at hr
  rw [← hr]
  unfold wireEnvelopeJson at hfs
  injection hfs with hfs
  have hm : ∀ m : Option (Str × Json), (∀ p, m = some p → p.1 ∈ ["log".toList, "counter".toList, "gauge".toList, "timer".toList, "event".toList]) →
      fs = [("timestamp".toList, intJson e.timestamp), ("source_id".toList, .str e.sourceId),
        ("instance_id".toList, .str e.instanceId), ("deprecated_tags".toList, mapJson tagValueJson e.deprecatedTags),
        ("tags".toList, mapJson .str e.tags)] ++ m.toList →
      readWireEnvelope (.obj (fs.map fun p => (camelName p.1, p.2))) = readWireEnvelope (.obj fs) := by
    intro m hmem hf
    generalize intJson e.timestamp = j1 at hf
    generalize Json.str e.sourceId = j2 at hf
    generalize Json.str e.instanceId = j3 at hf
    generalize mapJson tagValueJson e.deprecatedTags = j4 at hf
    generalize mapJson Json.str e.tags = j5 at hf
    subst hf
    have c1 : camelName "timestamp".toList = "timestamp".toList := by decide
    have c2 : camelName "source_id".toList = "sourceId".toList := by decide
    have c3 : camelName "instance_id".toList = "instanceId".toList := by decide
    have c4 : camelName "deprecated_tags".toList = "deprecatedTags".toList := by decide
    have c5 : camelName "tags".toList = "tags".toList := by decide
    have cm : ∀ k ∈ ["log".toList, "counter".toList, "gauge".toList, "timer".toList, "event".toList], camelName k = k := by decide
    simp only [List.map_append, List.map_cons, List.map_nil, c1, c2, c3, c4, c5]
    have hml : m.toList.map (fun p => (camelName p.1, p.2)) = m.toList := by
      cases m with
      | none => rfl
      | some p => simp [cm _ (hmem p rfl)]
    rw [hml]
    have hkn : ∀ q ∈ m.toList, (envelopeNames.any fun n => decide (n = q.1)) = true := by
      intro q hq
      have := hmem q (by simpa using hq)
      revert this
      generalize q.1 = k
      revert k
      decide
    have hno : ∀ k ∈ ["timestamp", "source_id", "sourceId", "instance_id", "instanceId", "deprecated_tags", "deprecatedTags", "tags"],
        m.toList.reverse.lookup k.toList = none := by
      intro k hk
      cases m with
      | none => rfl
      | some p =>
        have h1 := hmem p rfl
        have h2 : ∀ k ∈ ["timestamp", "source_id", "sourceId", "instance_id", "instanceId", "deprecated_tags", "deprecatedTags", "tags"],
          ∀ x ∈ ["log".toList, "counter".toList, "gauge".toList, "timer".toList, "event".toList], (k.toList == x) = false := by decide
        obtain ⟨x, v⟩ := p
        simp only [Option.toList_some, List.reverse_singleton, List.lookup_cons, h2 k hk x h1, List.lookup_nil]
    have look : ∀ (fs : List (Str × Json)) (k : String), field (fs ++ m.toList) k = (m.toList.reverse.lookup k.toList).or (fs.reverse.lookup k.toList) := by
      intro fs k
      unfold field
      rw [List.reverse_append, List.lookup_append]
    have tf : ∀ (fs : List (Str × Json)) (a b : String), m.toList.reverse.lookup a.toList = none → m.toList.reverse.lookup b.toList = none →
        takeField (fs ++ m.toList) a b = takeField fs a b := by
      intro fs a b ha hb
      unfold takeField
      rw [look, look, ha, hb]
      rfl
    have all2 : ∀ fs : List (Str × Json), (fs.all fun p => envelopeNames.any fun n => n = p.1) = true →
        ((fs ++ m.toList).all fun p => envelopeNames.any fun n => n = p.1) = true := by
      intro fs h
      rw [List.all_append, h, Bool.true_and, List.all_eq_true]
      exact hkn
    refine envelope_congr (all2 _ ?_) (all2 _ ?_) ?_ ?_ ?_ ?_ ?_ ?_ ?_ ?_ ?_ ?_
    · rfl
    · rfl
    all_goals first
      | (rw [tf _ _ _ (hno _ (by simp)) (hno _ (by simp)), tf _ _ _ (hno _ (by simp)) (hno _ (by simp))]; rfl)
      | (rw [look, look]; rfl)
  refine hm (e.message.map wireMessageJson) ?_ hfs.symm
  intro p hp
  rw [Option.map_eq_some_iff] at hp
  obtain ⟨m, -, rfl⟩ := hp
  cases m <;> simp [wireMessageJson]

private theorem lookup_nulled (gone : Str → Bool) (k : Str) (L : List (Str × Json)) :
    (L.map fun p => if gone p.1 then (p.1, Json.null) else p).lookup k =
      (L.lookup k).map fun j => if gone k then .null else j := by
  induction L with
  | nil => rfl
  | cons p L ih =>
    obtain ⟨x, v⟩ := p
    rw [List.map_cons, List.lookup_cons]
    by_cases hx : k = x
    · subst hx
      cases gone k <;> simp
    · have hb : (k == x) = false := by simpa using hx
      cases hgx : gone x <;> simp [List.lookup_cons, hb, ih, hgx]

private theorem lookup_gone (gone : Str → Bool) (k : Str) (L : List (Str × Json)) :
    (L.filter fun p => !gone p.1).lookup k = if gone k then none else L.lookup k := by
  induction L with
  | nil => simp
  | cons p L ih =>
    obtain ⟨x, v⟩ := p
    rw [List.filter_cons, List.lookup_cons]
    by_cases hx : k = x
    · subst hx
      cases hgk : gone k
      · simp
      · rw [hgk] at ih; simpa using ih
    · have hb : (k == x) = false := by simpa using hx
      rw [hb]
      cases gone x <;> simp [List.lookup_cons, hb, ih]

private theorem take_nulled (gone : Str → Bool) (L : List (Str × Json)) (a b : String) (j : Json)
    (hb : a = b ∨ field L b = none) (ha : field L a = some j) :
    takeField (L.map fun p => if gone p.1 then (p.1, Json.null) else p) a b = if gone a.toList then .null else j := by
  unfold field at ha hb
  unfold takeField field
  rw [← List.map_reverse, lookup_nulled, lookup_nulled]
  rcases hb with rfl | hb
  · rw [ha]; rfl
  · rw [ha, hb]; rfl

private theorem take_gone (gone : Str → Bool) (L : List (Str × Json)) (a b : String) (j : Json)
    (hb : a = b ∨ field L b = none) (ha : field L a = some j) :
    takeField (L.filter fun p => !gone p.1) a b = if gone a.toList then .null else j := by
  unfold field at ha hb
  unfold takeField field
  rw [← List.filter_reverse, lookup_gone, lookup_gone]
  rcases hb with rfl | hb
  · rw [ha]; cases gone a.toList <;> rfl
  · rw [ha, hb]; cases gone a.toList <;> cases gone b.toList <;> rfl

private theorem pick {α : Type} {f : Json → Option α} {j : Json} {v z : α} (b : Bool) (hz : f .null = some z) (hv : f j = some v) :
    f (if b then .null else j) = some (if b then z else v) := by
  cases b
  · exact hv
  · exact hz

private theorem message_read {m : WireMessage} (h : ValidMessage m) (fs : List (Str × Json))
    (hk : ∀ k ∈ ["log", "counter", "gauge", "timer", "event"], fs.lookup k.toList = none) :
    readWireMessage (fs ++ [wireMessageJson m]) = some (some m) := by
  have hl : ∀ k ∈ ["log", "counter", "gauge", "timer", "event"], field (fs ++ [wireMessageJson m]) k =
      if k.toList == (wireMessageJson m).1 then some (wireMessageJson m).2 else none := by
    intro k hkm
    unfold field
    rw [List.reverse_append, List.reverse_singleton, List.singleton_append]
    rcases hw : wireMessageJson m with ⟨x, v⟩
    rw [List.lookup_cons]
    have hn : fs.reverse.lookup k.toList = none := by
      rw [List.lookup_eq_none_iff] at *
      intro p hp
      exact (List.lookup_eq_none_iff.1 (hk k hkm)) p (List.mem_reverse.1 hp)
    rw [hn]
    cases k.toList == x <;> rfl
  unfold readWireMessage hasField takeField
  rw [hl "log" (by simp), hl "counter" (by simp), hl "gauge" (by simp), hl "timer" (by simp), hl "event" (by simp)]
  cases m with
  | log p t =>
    show (readWireLog (wireMessageJson (.log p t)).2).map some = _
    rw [wireLog_read h]; rfl
  | counter n a b =>
    show (readWireCounter (wireMessageJson (.counter n a b)).2).map some = _
    rw [wireCounter_read h.1 h.2]; rfl
  | gauge ms =>
    show (readWireMetrics (wireMessageJson (.gauge ms)).2).map some = _
    rw [wireMetrics_read h.1 h.2]; rfl
  | timer n a b =>
    show (readWireTimer (wireMessageJson (.timer n a b)).2).map some = _
    rw [wireTimer_read h.1 h.2]; rfl
  | event t b => rfl

private def plainNames : List String :=
  ["timestamp", "source_id", "sourceId", "instance_id", "instanceId", "deprecated_tags", "deprecatedTags", "tags"]

private theorem plain_read {e : WireEnvelope} (h : ValidEnvelope e) (gone : Str → Bool) (L : List (Str × Json))
    (hL : ∀ p ∈ L, p.1 ∈ plainNames.map String.toList)
    (h1 : takeField L "timestamp" "timestamp" = if gone "timestamp".toList then .null else intJson e.timestamp)
    (h2 : takeField L "source_id" "sourceId" = if gone "source_id".toList then .null else .str e.sourceId)
    (h3 : takeField L "instance_id" "instanceId" = if gone "instance_id".toList then .null else .str e.instanceId)
    (h4 : takeField L "deprecated_tags" "deprecatedTags" =
      if gone "deprecated_tags".toList then .null else mapJson tagValueJson e.deprecatedTags)
    (h5 : takeField L "tags" "tags" = if gone "tags".toList then .null else mapJson .str e.tags) :
    readWireEnvelope (.obj (L ++ (e.message.map wireMessageJson).toList)) = some (withoutFields gone e) := by
  obtain ⟨ts, s, i, d, g, m⟩ := e
  obtain ⟨v1, v2, v3, v4, v5⟩ := h
  simp only at v1 v2 v3 v4 v5 h1 h2 h3 h4 h5 ⊢
  have hm1 : ∀ q ∈ (m.map wireMessageJson).toList, ∃ k ∈ ["log", "counter", "gauge", "timer", "event"], q.1 = k.toList := by
    intro q hq
    cases m with
    | none => simp at hq
    | some m =>
      simp only [Option.map_some, Option.toList_some, List.mem_singleton] at hq
      subst hq
      cases m <;> simp [wireMessageJson]
  have tf : ∀ a ∈ plainNames, ∀ b ∈ plainNames,
      takeField (L ++ (m.map wireMessageJson).toList) a b = takeField L a b := by
    have look : ∀ a ∈ plainNames, field (L ++ (m.map wireMessageJson).toList) a = field L a := by
      intro a ha
      unfold field
      rw [List.reverse_append, List.lookup_append]
      have : (m.map wireMessageJson).toList.reverse.lookup a.toList = none := by
        rw [List.lookup_eq_none_iff]
        intro q hq
        obtain ⟨k, hk, he⟩ := hm1 q (List.mem_reverse.1 hq)
        rw [he]
        have hd : ∀ a ∈ plainNames, ∀ k ∈ ["log", "counter", "gauge", "timer", "event"], (a.toList != k.toList) = true := by decide
        exact hd a ha k hk
      rw [this]; rfl
    intro a ha b hb
    unfold takeField
    rw [look a ha, look b hb]
  have hall : ((L ++ (m.map wireMessageJson).toList).all fun p =>
      ["timestamp", "source_id", "sourceId", "instance_id", "instanceId", "deprecated_tags", "deprecatedTags",
      "tags", "log", "counter", "gauge", "timer", "event"].any fun n => n.toList = p.1) = true := by
    rw [List.all_eq_true]
    intro p hp
    rw [List.any_eq_true]
    rcases List.mem_append.1 hp with hp | hp
    · obtain ⟨n, hn, he⟩ := List.mem_map.1 (hL p hp)
      refine ⟨n, ?_, by simp [he]⟩
      clear he
      revert n; decide
    · obtain ⟨k, hk, he⟩ := hm1 p hp
      refine ⟨k, ?_, by simp [he]⟩
      clear he
      revert k; decide
  have hmsg : readWireMessage (L ++ (m.map wireMessageJson).toList) = some m := by
    have hk : ∀ k ∈ ["log", "counter", "gauge", "timer", "event"], L.lookup k.toList = none := by
      intro k hk
      rw [List.lookup_eq_none_iff]
      intro p hp
      obtain ⟨n, hn, he⟩ := List.mem_map.1 (hL p hp)
      rw [← he]
      have hd : ∀ k ∈ ["log", "counter", "gauge", "timer", "event"], ∀ a ∈ plainNames, (k.toList != a.toList) = true := by decide
      exact hd k hk n hn
    cases m with
    | none =>
      have hn : ∀ k ∈ ["log", "counter", "gauge", "timer", "event"], field L k = none := by
        intro k hkm
        unfold field
        rw [List.lookup_eq_none_iff]
        intro p hp
        exact (List.lookup_eq_none_iff.1 (hk k hkm)) p (List.mem_reverse.1 hp)
      simp only [Option.map_none, Option.toList_none, List.append_nil]
      unfold readWireMessage hasField
      rw [hn "log" (by simp), hn "counter" (by simp), hn "gauge" (by simp), hn "timer" (by simp), hn "event" (by simp)]
      rfl
    | some m => exact message_read (v5 m rfl) L hk
  unfold readWireEnvelope readObject orZero
  simp only
  rw [if_pos hall, tf _ (by decide) _ (by decide), tf _ (by decide) _ (by decide), tf _ (by decide) _ (by decide),
    tf _ (by decide) _ (by decide), tf _ (by decide) _ (by decide), h1, h2, h3, h4, h5,
    pick _ (rfl : readInt64 .null = some 0) (int_read v1),
    pick _ (rfl : readText64 .null = some []) (rfl : readText64 (.str s) = some s),
    pick _ (rfl : readText64 .null = some []) (rfl : readText64 (.str i) = some i),
    pick _ (rfl : readMap readTagValue .null = some []) (map_read tagValueJson readTagValue v2 fun p hp => tagValue_read (v3 p hp)),
    pick _ (rfl : readMap readText64 .null = some []) (map_read Json.str readText64 v4 fun p _ => rfl), hmsg]
  rfl

/-- A field of an envelope that is `null`, and one that is not there, are read as the empty
value, and the other fields as ever: whichever of the fields beside the message are gone. -/
theorem C114_null (e : WireEnvelope) (h : ValidEnvelope e) (fs : List (Str × Json)) (hfs : wireEnvelopeJson e = .obj fs)
    (gone : Str → Bool) (hg : ∀ k ∈ ["log", "counter", "gauge", "timer", "event"], gone k.toList = false) :
    readWireEnvelope (.obj (fs.map fun p => if gone p.1 then (p.1, .null) else p)) = some (withoutFields gone e) ∧
    readWireEnvelope (.obj (fs.filter fun p => !gone p.1)) = some (withoutFields gone e) := by
  unfold wireEnvelopeJson at hfs
  injection hfs with hfs
  have hm1 : ∀ q ∈ (e.message.map wireMessageJson).toList, gone q.1 = false := by
    intro q hq
    cases hm : e.message with
    | none => rw [hm] at hq; simp at hq
    | some m =>
      rw [hm] at hq
      simp only [Option.map_some, Option.toList_some, List.mem_singleton] at hq
      subst hq
      cases m
      · exact hg "log" (by simp)
      · exact hg "counter" (by simp)
      · exact hg "gauge" (by simp)
      · exact hg "timer" (by simp)
      · exact hg "event" (by simp)
  have mp : ((e.message.map wireMessageJson).toList.map fun p => if gone p.1 then (p.1, Json.null) else p) =
      (e.message.map wireMessageJson).toList := by
    refine (List.map_congr_left fun p hp => ?_).trans (List.map_id _)
    rw [hm1 p hp]; rfl
  have fl : ((e.message.map wireMessageJson).toList.filter fun p => !gone p.1) = (e.message.map wireMessageJson).toList := by
    rw [List.filter_eq_self]
    intro p hp
    rw [hm1 p hp]; rfl
  have hk : ∀ p ∈ ([("timestamp".toList, intJson e.timestamp), ("source_id".toList, .str e.sourceId),
      ("instance_id".toList, .str e.instanceId), ("deprecated_tags".toList, mapJson tagValueJson e.deprecatedTags),
      ("tags".toList, mapJson .str e.tags)] : List (Str × Json)), p.1 ∈ plainNames.map String.toList := by
    intro p hp
    simp only [List.mem_cons, List.not_mem_nil, or_false] at hp
    rcases hp with rfl | rfl | rfl | rfl | rfl <;> simp [plainNames]
  rw [← hfs, List.map_append, List.filter_append, mp, fl]
  constructor
  · refine plain_read h gone _ ?_ ?_ ?_ ?_ ?_ ?_
    · intro p hp
      obtain ⟨q, hq, rfl⟩ := List.mem_map.1 hp
      have := hk q hq
      split <;> exact this
    · exact take_nulled gone _ _ _ _ (.inl rfl) rfl
    · exact take_nulled gone _ _ _ _ (.inr rfl) rfl
    · exact take_nulled gone _ _ _ _ (.inr rfl) rfl
    · exact take_nulled gone _ _ _ _ (.inr rfl) rfl
    · exact take_nulled gone _ _ _ _ (.inl rfl) rfl
  · refine plain_read h gone _ ?_ ?_ ?_ ?_ ?_ ?_
    · intro p hp
      exact hk p (List.mem_of_mem_filter hp)
    · exact take_gone gone _ _ _ _ (.inl rfl) rfl
    · exact take_gone gone _ _ _ _ (.inr rfl) rfl
    · exact take_gone gone _ _ _ _ (.inr rfl) rfl
    · exact take_gone gone _ _ _ _ (.inr rfl) rfl
    · exact take_gone gone _ _ _ _ (.inl rfl) rfl

example : withoutFields (fun k => k = "timestamp".toList || k = "tags".toList)
      { timestamp := 5, sourceId := "a".toList, tags := [("x".toList, [])], message := some (.event [] []) } =
    { sourceId := "a".toList, message := some (.event [] []) } := by decide

private theorem entries_none {α : Type} (f : Json → Option α) (k : Str) (j : Json) (hj : f j = none) (before after : List (Str × Json)) :
    ∀ m, readEntries f (before ++ (k, j) :: after) m = none := by
  induction before with
  | nil =>
    intro m
    rw [List.nil_append, readEntries, hj]
  | cons p before ih =>
    obtain ⟨x, v⟩ := p
    intro m
    rw [List.cons_append, readEntries]
    cases f v with
    | none => rfl
    | some y => exact ih _

/-- The same for meta information: one field the client does not know, for any source, and
there is no answer at all. -/
theorem C114_meta_unknown (before after : List (Str × Json)) (src : Str) (fs fs' : List (Str × Json)) (k : Str) (v : Json)
    (hk : k ∉ metaNames) (t : Str) (ht : JsonDoc (metaAnswerOf (before ++ (src, .obj (fs ++ (k, v) :: fs')) :: after)) t) :
    clientMetaBody t = none := by
  have hd : decodeJson t = some (metaAnswerOf (before ++ (src, .obj (fs ++ (k, v) :: fs')) :: after)) := by
    obtain ⟨b, u, a, rfl, hb, hu, ha⟩ := ht
    refine (C76_decoder _ _).2 b u a rfl hb hu ?_
    rintro c r' rfl
    rcases ha c (.head _) with rfl | rfl | rfl | rfl <;> decide
  unfold clientMetaBody
  rw [hd]
  show readEntries readWireMeta (before ++ (src, .obj (fs ++ (k, v) :: fs')) :: after) [] = none
  refine entries_none _ _ _ ?_ _ _ _
  unfold readWireMeta readObject orZero
  simp only
  rw [if_neg]
  intro hall
  have := List.all_eq_true.1 hall (k, v) (by simp)
  have hany : (metaNames.any fun n => decide (n = k)) = true := this
  obtain ⟨n, hn, he⟩ := List.any_eq_true.1 hany
  rw [decide_eq_true_eq] at he
  exact hk (he ▸ hn)

/-- The order of the fields of the meta information of a source does not matter. -/
theorem C114_meta_order (fs fs' : List (Str × Json)) (h : fs.Perm fs') (hn : (fs.map Prod.fst).Nodup) :
    readWireMeta (.obj fs) = readWireMeta (.obj fs') := by
  have hf : ∀ k : String, field fs k = field fs' k := by
    intro k
    unfold field
    have hr : fs.reverse.Perm fs'.reverse := (List.reverse_perm fs).trans (h.trans (List.reverse_perm fs').symm)
    refine lookup_perm hr ?_ _
    rw [List.map_reverse]
    exact List.nodup_reverse.2 hn
  have ht : ∀ a b : String, takeField fs a b = takeField fs' a b := by
    intro a b; unfold takeField; rw [hf, hf]
  have ha : ∀ q : Str × Json → Bool, fs.all q = fs'.all q := by
    intro q
    rw [Bool.eq_iff_iff, List.all_eq_true, List.all_eq_true]
    exact ⟨fun H x hx => H x (h.mem_iff.2 hx), fun H x hx => H x (h.mem_iff.1 hx)⟩
  unfold readWireMeta readObject orZero
  simp only [ha, ht]

/-- Meta information in camel case is read like that with the names of the protocol, and
fields that are `null` or not there are zero. -/
theorem C114_meta (m : WireMeta) (h1 : FitsInt64 m.count) (h2 : FitsInt64 m.expired) (h3 : FitsInt64 m.oldest)
    (h4 : FitsInt64 m.newest) (fs : List (Str × Json)) (hfs : wireMetaJson m = .obj fs) (gone : Str → Bool) :
    readWireMeta (.obj (fs.map fun p => (camelName p.1, p.2))) = some m ∧
    readWireMeta (.obj (fs.map fun p => if gone p.1 then (p.1, .null) else p)) = some (withoutMetaFields gone m) ∧
    readWireMeta (.obj (fs.filter fun p => !gone p.1)) = some (withoutMetaFields gone m) := by
  unfold wireMetaJson at hfs
  injection hfs with hfs
  have hz : readInt64 .null = some 0 := rfl
  have hk : ∀ p ∈ fs, (["count", "expired", "oldest_timestamp", "oldestTimestamp", "newest_timestamp",
      "newestTimestamp"].any fun n => decide (n.toList = p.1)) = true := by
    intro p hp
    rw [← hfs] at hp
    simp only [List.mem_cons, List.not_mem_nil, or_false] at hp
    rcases hp with rfl | rfl | rfl | rfl <;> rfl
  refine ⟨?_, ?_, ?_⟩
  · rw [← hfs]
    show (match readInt64 (intJson m.count), readInt64 (intJson m.expired), readInt64 (intJson m.oldest),
      readInt64 (intJson m.newest) with
      | some c, some x, some o, some n => some (WireMeta.mk c x o n)
      | _, _, _, _ => none) = _
    rw [int_read h1, int_read h2, int_read h3, int_read h4]
  · unfold readWireMeta readObject orZero
    simp only
    rw [if_pos, take_nulled gone fs _ _ (intJson m.count) (.inl rfl) (by rw [← hfs]; rfl),
      take_nulled gone fs _ _ (intJson m.expired) (.inl rfl) (by rw [← hfs]; rfl),
      take_nulled gone fs _ _ (intJson m.oldest) (.inr (by rw [← hfs]; rfl)) (by rw [← hfs]; rfl),
      take_nulled gone fs _ _ (intJson m.newest) (.inr (by rw [← hfs]; rfl)) (by rw [← hfs]; rfl),
      pick _ hz (int_read h1), pick _ hz (int_read h2), pick _ hz (int_read h3), pick _ hz (int_read h4)]
    · rfl
    · rw [List.all_eq_true]
      intro p hp
      obtain ⟨q, hq, rfl⟩ := List.mem_map.1 hp
      have := hk q hq
      split <;> exact this
  · unfold readWireMeta readObject orZero
    simp only
    rw [if_pos, take_gone gone fs _ _ (intJson m.count) (.inl rfl) (by rw [← hfs]; rfl),
      take_gone gone fs _ _ (intJson m.expired) (.inl rfl) (by rw [← hfs]; rfl),
      take_gone gone fs _ _ (intJson m.oldest) (.inr (by rw [← hfs]; rfl)) (by rw [← hfs]; rfl),
      take_gone gone fs _ _ (intJson m.newest) (.inr (by rw [← hfs]; rfl)) (by rw [← hfs]; rfl),
      pick _ hz (int_read h1), pick _ hz (int_read h2), pick _ hz (int_read h3), pick _ hz (int_read h4)]
    · rfl
    · rw [List.all_eq_true]
      intro p hp
      exact hk p (List.mem_of_mem_filter hp)

example : "size".toList ∉ metaNames ∧ camelName "newest_timestamp".toList = "newestTimestamp".toList ∧
    withoutMetaFields (fun k => k = "count".toList) ⟨1, 2, 3, 4⟩ = ⟨0, 2, 3, 4⟩ := by decide

example : "severity".toList ∉ envelopeNames ∧ ∃ fs, wireEnvelopeJson {} = .obj fs ∧ (fs.map Prod.fst).Nodup ∧ fs.length = 5 :=
  ⟨by decide, _, rfl, by decide, rfl⟩

end LogCache
