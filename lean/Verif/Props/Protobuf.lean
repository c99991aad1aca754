import Verif.Proof.ProtobufMessages

/-! # C115, C116: the messages of the gRPC interfaces -/

namespace LogCache
open LogCache.Spec

/-! ## C115: what was sent arrives -/

/-- Envelopes to write: with every map written in any order. -/
theorem C115_send (r' r : SendReq) (h : SameBatch? r'.envelopes r.envelopes) (hl : r'.localOnly = r.localOnly)
    (hv : ∀ es, r.envelopes = some es → ∀ e ∈ es, ValidEnvelope e) (hs : (sendReqProto.encode r').length < 2 ^ 64) :
    sendReqProto.decode (sendReqProto.encode r') = some r := (sendReq_arrives h hl hv).decode hs

/-- The answer to a read. -/
theorem C115_read_answer (r' r : Option (List WireEnvelope)) (h : SameBatch? r' r)
    (hv : ∀ es, r = some es → ∀ e ∈ es, ValidEnvelope e) (hs : (readRespProto.encode r').length < 2 ^ 64) :
    readRespProto.decode (readRespProto.encode r') = some r := (readResp_arrives h hv).decode hs

theorem C115_read_request (r : ReadRequest) (h : ValidReadRequest r) (hs : (readReqProto.encode r).length < 2 ^ 64) :
    readReqProto.decode (readReqProto.encode r) = some r := (readReq_arrives h).decode hs

theorem C115_meta (b : Bool) (m' m : List (Str × WireMeta)) (h : SameMap m' m) (hv : ValidMetaMap m)
    (hs : (metaRespProto.encode m').length < 2 ^ 64) :
    metaReqProto.decode (metaReqProto.encode b) = some b ∧ metaRespProto.decode (metaRespProto.encode m') = some m :=
  ⟨(metaReq_arrives b).decode (by cases b <;> simp [metaReqProto, Proto.encode, boolField, optField, encFields, WireVal.body, putVarint,
    WireVal.wireType]), (metaResp_arrives h hv).decode hs⟩

/-- The ranges of a scheduler: a list of them, one to add or remove, and those of every node. -/
theorem C115_ranges (rs : List HRange) (o : Option HRange) (m' m : List (Str × List HRange))
    (h1 : ∀ r ∈ rs, ValidRange r) (h2 : ∀ r, o = some r → ValidRange r) (h3 : SameMap m' m) (h4 : KeysInOrder m)
    (h5 : ∀ x ∈ m, ∀ r ∈ x.2, ValidRange r) (hs1 : (rangesProto.encode rs).length < 2 ^ 64)
    (hs2 : (oneRangeProto.encode o).length < 2 ^ 64) (hs3 : (setRangesProto.encode m').length < 2 ^ 64) :
    rangesProto.decode (rangesProto.encode rs) = some rs ∧ oneRangeProto.decode (oneRangeProto.encode o) = some o ∧
      setRangesProto.decode (setRangesProto.encode m') = some m :=
  ⟨(ranges_arrives h1).decode hs1, (oneRange_arrives h2).decode hs2, (setRanges_arrives h3 h4 h5).decode hs3⟩

theorem C115_promql_request (q : InstantReq) (r : RangeReq) (hs1 : (instantReqProto.encode q).length < 2 ^ 64)
    (hs2 : (rangeReqProto.encode r).length < 2 ^ 64) :
    instantReqProto.decode (instantReqProto.encode q) = some q ∧ rangeReqProto.decode (rangeReqProto.encode r) = some r :=
  ⟨(instantReq_arrives q).decode hs1, (rangeReq_arrives r).decode hs2⟩

theorem C115_promql_answer (r' r : PResult F64) (xs' xs : List (PSeries F64)) (h1 : SameResult r' r) (h2 : ValidResult r)
    (h3 : List.Forall₂ SameSeries xs' xs) (h4 : ∀ x ∈ xs, ValidSeries x)
    (hs1 : (instantResultProto.encode (some r')).length < 2 ^ 64) (hs2 : (rangeResultProto.encode (some xs')).length < 2 ^ 64) :
    instantResultProto.decode (instantResultProto.encode (some r')) = some (some r) ∧
      rangeResultProto.decode (rangeResultProto.encode (some xs')) = some (some xs) :=
  ⟨(instantResult_arrives h1 h2).decode hs1, (rangeResult_arrives h3 h4).decode hs2⟩

/-! The hypotheses are met: an envelope with two tags, which are written in the wrong order. -/

private def tagsOf (swapped : Bool) : List (Str × Str) :=
  if swapped then [("b".toList, "2".toList), ("a".toList, "1".toList)] else [("a".toList, "1".toList), ("b".toList, "2".toList)]

private def sentEnvelope (swapped : Bool) : WireEnvelope :=
  { timestamp := -5, sourceId := "app".toList, tags := tagsOf swapped,
    message := some (.gauge [("cpu".toList, { unit := "percentage".toList, value := .fin true 5 (-1) })]) }

example : SameBatch? (some [sentEnvelope true]) (some [sentEnvelope false]) ∧ tagsOf true ≠ tagsOf false ∧
    KeysInOrder (tagsOf false) := by
  refine ⟨.cons ⟨rfl, rfl, rfl, List.Perm.refl _, List.Perm.swap .., List.Perm.refl _⟩ .nil, by decide, ?_⟩
  unfold KeysInOrder tagsOf
  decide

/-! ## C115: the bytes -/

private theorem varint_dest (n : Nat) : IsVarint (putVarint n) ∧ varintValue (putVarint n) = n := by
  induction n using Nat.strongRecOn with
  | ind n ih =>
    rw [putVarint]
    split
    · next h =>
      have : (UInt8.ofNat n).toNat = n := by simp; omega
      exact ⟨⟨[], _, rfl, by simp, by rw [this]; exact h⟩, by simp only [varintValue, this]; omega⟩
    · next h =>
      obtain ⟨⟨front, last, h1, h2, h3⟩, h4⟩ := ih (n / 128) (by omega)
      have : (UInt8.ofNat (n % 128 + 128)).toNat = n % 128 + 128 := by simp; omega
      refine ⟨⟨UInt8.ofNat (n % 128 + 128) :: front, last, by rw [h1]; rfl, ?_, h3⟩, ?_⟩
      · intro b hb
        rcases List.mem_cons.1 hb with e | hb
        · rw [e, this]; omega
        · exact h2 b hb
      · simp only [varintValue, this, h4]; omega

private theorem getVarintN_some : ∀ (k : Nat) (s : List UInt8) (n : Nat) (r : List UInt8), getVarintN k s = some (n, r) →
    ∃ bs, s = bs ++ r ∧ IsVarint bs ∧ bs.length ≤ k ∧ varintValue bs = n
  | 0, s, n, r, h => by simp [getVarintN] at h
  | k + 1, [], n, r, h => by simp [getVarintN] at h
  | k + 1, b :: s, n, r, h => by
    simp only [getVarintN] at h
    split at h
    · next hb =>
      simp only [Option.some.injEq, Prod.mk.injEq] at h
      refine ⟨[b], by rw [h.2]; rfl, ⟨[], b, rfl, by simp, hb⟩, by simp, ?_⟩
      simp only [varintValue]; omega
    · next hb =>
      cases hg : getVarintN k s with
      | none => simp [hg] at h
      | some p =>
        obtain ⟨m, r'⟩ := p
        simp only [hg, Option.map_some, Option.some.injEq, Prod.mk.injEq] at h
        obtain ⟨bs, h1, ⟨front, last, h2, h3, h4⟩, h5, h6⟩ := getVarintN_some k s m r' hg
        refine ⟨b :: bs, by rw [h1, h.2]; rfl, ⟨b :: front, last, by rw [h2]; rfl, ?_, h4⟩, by simp; omega, ?_⟩
        · intro c hc
          rcases List.mem_cons.1 hc with e | hc
          · rw [e]; omega
          · exact h3 c hc
        · simp only [varintValue, h6]; omega

private theorem getVarintN_of : ∀ (bs : List UInt8) (k : Nat) (r : List UInt8), IsVarint bs → bs.length ≤ k →
    getVarintN k (bs ++ r) = some (varintValue bs, r)
  | [], k, r, ⟨front, last, h, _, _⟩, _ => by simp at h
  | b :: bs, 0, r, _, hk => by simp at hk
  | b :: bs, k + 1, r, ⟨front, last, h, h2, h3⟩, hk => by
    simp only [List.cons_append, getVarintN]
    cases front with
    | nil =>
      simp only [List.nil_append, List.cons.injEq] at h
      rw [h.1, h.2, if_pos h3]
      simp only [List.nil_append, varintValue, Option.some.injEq, Prod.mk.injEq, and_true]; omega
    | cons f front =>
      simp only [List.cons_append, List.cons.injEq] at h
      have hf := h2 f (List.mem_cons_self ..)
      rw [if_neg (by rw [h.1]; omega), getVarintN_of bs k r ⟨front, last, h.2, fun c hc => h2 c (List.mem_cons_of_mem _ hc), h3⟩
        (by simp at hk; omega)]
      simp only [Option.map_some, varintValue]

/-- Reading a varint: exactly a varint of ten bytes at most that stands for a number of 64
bits, and what is written for a number is one that stands for it. -/
theorem C115_varint (s r : List UInt8) (n : Nat) :
    (getVarint s = some (n, r) ↔ ∃ bs, s = bs ++ r ∧ IsVarint bs ∧ bs.length ≤ 10 ∧ varintValue bs = n ∧ n < 2 ^ 64) ∧
      IsVarint (putVarint n) ∧ varintValue (putVarint n) = n := by
  refine ⟨⟨fun h => ?_, ?_⟩, varint_dest n⟩
  · unfold getVarint at h
    split at h
    · next m r' h' =>
      split at h
      · next hm =>
        simp only [Option.some.injEq, Prod.mk.injEq] at h
        obtain ⟨bs, h1, h2, h3, h4⟩ := getVarintN_some _ _ _ _ h'
        exact ⟨bs, by rw [h1, h.2], h2, h3, by rw [h4, h.1], by rw [← h.1]; exact hm⟩
      · cases h
    · cases h
  · rintro ⟨bs, h1, h2, h3, h4, h5⟩
    unfold getVarint
    rw [h1, getVarintN_of bs 10 r h2 h3, h4]
    simp only
    rw [if_pos h5]

private theorem put_small {n : Nat} (h : n < 128) : putVarint n = [UInt8.ofNat n] := by rw [putVarint, if_pos h]

private theorem asUint_eq {n : Int} (h : FitsInt64 n) : putVarint (asUint64 n) = varintOf n := by
  unfold FitsInt64 at h
  unfold varintOf asUint64
  congr 1
  split <;> omega

private theorem nat_eq (n : Nat) : varintOf (n : Int) = putVarint n := by
  unfold varintOf
  rw [if_neg (by omega)]; simp

private theorem enc_opt (c : Bool) (k : Nat) (v : WireVal) (h : k < 15) :
    encFields (optField c k v) = if c then [] else UInt8.ofNat (k * 8 + v.wireType) :: v.body := by
  cases c with
  | true => rfl
  | false =>
    have := wireType_lt v
    simp only [optField, Bool.false_eq_true, if_false, encFields, List.append_nil]
    rw [put_small (by omega)]; rfl

private theorem enc_int (k : Nat) (n : Int) (h : k < 15) (hn : FitsInt64 n) :
    encFields (intField k n) = intBytes (UInt8.ofNat (k * 8)) n := by
  unfold intField intBytes
  rw [enc_opt _ _ _ h]
  by_cases h0 : n = 0
  · simp [h0]
  · simp [h0, WireVal.wireType, WireVal.body, asUint_eq hn]

private theorem enc_uint (k : Nat) (n : Nat) (h : k < 15) :
    encFields (uintField k n) = intBytes (UInt8.ofNat (k * 8)) n := by
  unfold uintField intBytes
  rw [enc_opt _ _ _ h, nat_eq]
  by_cases h0 : n = 0
  · simp [h0]
  · simp [h0, WireVal.wireType, WireVal.body]

private theorem enc_bool (k : Nat) (b : Bool) (h : k < 15) : encFields (boolField k b) = boolBytes (UInt8.ofNat (k * 8)) b := by
  unfold boolField boolBytes
  rw [enc_opt _ _ _ h]
  cases b
  · rfl
  · simp [WireVal.wireType, WireVal.body, put_small]

private theorem enc_len (k : Nat) (bs : List UInt8) (h : k < 15) : encFields [(k, .bytes bs)] = lenBytes (UInt8.ofNat (k * 8 + 2)) bs := by
  have := enc_opt false k (.bytes bs) h
  simp only [optField, Bool.false_eq_true, if_false] at this
  rw [this]
  unfold lenBytes
  rw [nat_eq]; rfl

private theorem enc_str (k : Nat) (s : Str) (h : k < 15) : encFields (strField k s) = textBytes (UInt8.ofNat (k * 8 + 2)) s := by
  unfold strField textBytes
  rw [enc_opt _ _ _ h]
  cases s with
  | nil => rfl
  | cons c cs =>
    simp only [List.isEmpty_cons, Bool.false_eq_true, if_false]
    rw [if_neg (by simp)]
    unfold lenBytes
    rw [nat_eq]; rfl

private theorem fixed_eight (n : Nat) : putFixed 8 n = eightBytes n := by
  simp [putFixed, eightBytes, List.range, List.range.loop, Nat.div_div_eq_div_mul]

private theorem enc_float (k : Nat) (x : F64) (h : k < 15) : encFields (floatField k x) = floatBytes (UInt8.ofNat (k * 8 + 1)) x := by
  unfold floatField floatBytes
  rw [enc_opt _ _ _ h]
  by_cases h0 : f64Bits x = 0
  · simp [h0]
  · simp [h0, WireVal.wireType, WireVal.body, fixed_eight]

private theorem enc_map {α : Type} (k : Nat) (val : α → List UInt8) (h : k < 15) : ∀ m : List (Str × α),
    encFields (mapFields k val m) = mapBytes (UInt8.ofNat (k * 8 + 2)) val m
  | [] => rfl
  | e :: m => by
    have ih := enc_map k val h m
    have h1 := enc_len k (encFields [(1, .bytes (utf8Bytes e.1)), (2, .bytes (val e.2))]) h
    have h2 : encFields [(1, .bytes (utf8Bytes e.1)), (2, .bytes (val e.2))] =
        lenBytes 0x0A (e.1.flatMap String.utf8EncodeChar) ++ lenBytes 0x12 (val e.2) := by
      rw [show [(1, WireVal.bytes (utf8Bytes e.1)), (2, WireVal.bytes (val e.2))] =
        [(1, WireVal.bytes (utf8Bytes e.1))] ++ [(2, WireVal.bytes (val e.2))] from rfl, encFields_append, enc_len 1 _ (by omega),
        enc_len 2 _ (by omega)]
      rfl
    simp only [mapFields, List.map_cons, mapBytes, List.flatMap_cons] at ih ⊢
    rw [show ∀ (a : Nat × WireVal) l, a :: l = [a] ++ l from fun _ _ => rfl, encFields_append, ih, h1, h2]

/-- A request to read, byte for byte. -/
theorem C115_bytes_read_request (r : ReadRequest) (h : ValidReadRequest r) :
    readReqProto.encode r = textBytes 0x0A r.sourceId ++ (intBytes 0x10 r.start ++ (intBytes 0x18 r.stop ++ (intBytes 0x20 r.limit ++
      ((if r.types = [] then [] else lenBytes 0x2A (r.types.flatMap fun t => varintOf (etypeNumber t))) ++
        (boolBytes 0x30 r.descending ++ textBytes 0x3A r.nameFilter))))) := by
  obtain ⟨h1, h2, h3, h4⟩ := h
  have hp : ∀ ts : List EType, (∀ t ∈ ts, ValidType t) → putEnums ts = ts.flatMap fun t => varintOf (etypeNumber t) := by
    intro ts
    induction ts with
    | nil => intro _; rfl
    | cons t ts ih =>
      intro hv
      have ht := hv t (List.mem_cons_self ..)
      simp only [putEnums, List.flatMap_cons, ih fun x hx => hv x (List.mem_cons_of_mem _ hx)]
      rw [asUint_eq]
      unfold FitsInt64
      cases t <;> simp only [ValidType] at ht <;> simp only [etypeNumber] <;> omega
  simp only [Proto.encode, readReqProto, encFields_append]
  rw [enc_str 1 _ (by omega), enc_int 2 _ (by omega) h1, enc_int 3 _ (by omega) h2, enc_int 4 _ (by omega) h3, enc_opt _ 5 _ (by omega),
    enc_bool 6 _ (by omega), enc_str 7 _ (by omega), hp _ h4]
  have : (if r.types.isEmpty then [] else UInt8.ofNat (5 * 8 + 2) ::
      (WireVal.bytes (r.types.flatMap fun t => varintOf (etypeNumber t))).body) =
      if r.types = [] then [] else lenBytes 0x2A (r.types.flatMap fun t => varintOf (etypeNumber t)) := by
    cases r.types with
    | nil => rfl
    | cons t ts =>
      simp only [List.isEmpty_cons, Bool.false_eq_true, if_false]
      rw [if_neg (by simp)]
      unfold lenBytes
      rw [nat_eq]; rfl
  simp only [WireVal.wireType] at this ⊢
  rw [this]
  rfl

private theorem map_congr {α : Type} (tag : UInt8) {f g : α → List UInt8} {m : List (Str × α)} (h : ∀ p ∈ m, f p.2 = g p.2) :
    mapBytes tag f m = mapBytes tag g m := by
  unfold mapBytes
  induction m with
  | nil => rfl
  | cons e m ih =>
    simp only [List.flatMap_cons, h e (List.mem_cons_self ..), ih fun p hp => h p (List.mem_cons_of_mem _ hp)]

private theorem enc_list {α : Type} (k : Nat) {f g : α → List UInt8} (h : k < 15) : ∀ (xs : List α), (∀ x ∈ xs, f x = g x) →
    encFields (listFields k f xs) = xs.flatMap fun x => lenBytes (UInt8.ofNat (k * 8 + 2)) (g x)
  | [], _ => rfl
  | x :: xs, hx => by
    have ih := enc_list k h xs fun y hy => hx y (List.mem_cons_of_mem _ hy)
    simp only [listFields, List.map_cons, List.flatMap_cons] at ih ⊢
    rw [show ∀ (a : Nat × WireVal) l, a :: l = [a] ++ l from fun _ _ => rfl, encFields_append, ih, enc_len k _ h,
      hx x (List.mem_cons_self ..)]

private theorem tagValue_bytes {v : TagValue} (h : ValidTagValue v) : tagValueProto.encode v = tagValueBytes v := by
  cases v with
  | unset => rfl
  | text s => exact enc_len 1 _ (by omega)
  | integer n =>
    have := enc_opt false 2 (.varint (asUint64 n)) (by omega)
    simp only [optField, Bool.false_eq_true, if_false] at this
    simp only [Proto.encode, tagValueProto, this, tagValueBytes]
    rw [← asUint_eq h]; rfl
  | decimal x =>
    have := enc_opt false 3 (.fixed64 (f64Bits x)) (by omega)
    simp only [optField, Bool.false_eq_true, if_false] at this
    simp only [Proto.encode, tagValueProto, this, tagValueBytes]
    rw [← fixed_eight]; rfl

private theorem gaugeValue_bytes (g : WireGauge) : wireGaugeProto.encode g = gaugeValueBytes g := by
  simp only [Proto.encode, wireGaugeProto, encFields_append]
  rw [enc_str 1 _ (by omega), enc_float 2 _ (by omega)]
  rfl

private theorem int32_fits {t : Int} (h : -2 ^ 31 ≤ t ∧ t < 2 ^ 31) : FitsInt64 t := by unfold FitsInt64; omega

private theorem message_bytes {m : WireMessage} (h : ValidMessage m) : encFields (wireMessageFields m) = messageBytes m := by
  cases m with
  | log p t =>
    refine (enc_len 4 _ (by omega)).trans ?_
    simp only [Proto.encode, logProto, encFields_append, messageBytes]
    rw [enc_int 2 _ (by omega) (int32_fits h)]
    unfold bytesField
    rw [enc_opt _ 1 _ (by omega)]
    have : (if (p.getD []).isEmpty then [] else UInt8.ofNat (1 * 8 + (WireVal.bytes (p.getD [])).wireType) ::
        (WireVal.bytes (p.getD [])).body) = if p.getD [] = [] then [] else lenBytes 0x0A (p.getD []) := by
      cases p.getD [] with
      | nil => rfl
      | cons b bs =>
        simp only [List.isEmpty_cons, Bool.false_eq_true, if_false]
        rw [if_neg (by simp)]
        unfold lenBytes
        rw [nat_eq]; rfl
    rw [this]; rfl
  | counter n d t =>
    refine (enc_len 5 _ (by omega)).trans ?_
    simp only [Proto.encode, counterProto, encFields_append, messageBytes]
    rw [enc_str 1 _ (by omega), enc_uint 2 _ (by omega), enc_uint 3 _ (by omega)]; rfl
  | gauge ms =>
    refine (enc_len 6 _ (by omega)).trans ?_
    simp only [Proto.encode, gaugeProto, messageBytes]
    rw [enc_map 1 _ (by omega), map_congr _ (g := gaugeValueBytes) fun p _ => gaugeValue_bytes p.2]; rfl
  | timer n a b =>
    refine (enc_len 7 _ (by omega)).trans ?_
    simp only [Proto.encode, timerProto, encFields_append, messageBytes]
    rw [enc_str 1 _ (by omega), enc_int 2 _ (by omega) h.1, enc_int 3 _ (by omega) h.2]; rfl
  | event t b =>
    refine (enc_len 10 _ (by omega)).trans ?_
    simp only [Proto.encode, eventProto, encFields_append, messageBytes]
    rw [enc_str 1 _ (by omega), enc_str 2 _ (by omega)]; rfl

/-- An envelope, byte for byte. -/
theorem C115_bytes_envelope (e : WireEnvelope) (h : ValidEnvelope e) : wireEnvelopeProto.encode e = envelopeBytes e := by
  obtain ⟨h1, _, h3, _, h5⟩ := h
  simp only [Proto.encode, wireEnvelopeProto, encFields_append, envelopeBytes]
  rw [enc_int 1 _ (by omega) h1, enc_str 2 _ (by omega), enc_map 3 _ (by omega), enc_str 8 _ (by omega), enc_map 9 _ (by omega),
    map_congr _ (f := tagValueProto.encode) (g := tagValueBytes) fun p hp => tagValue_bytes (h3 p hp)]
  cases hm : e.message with
  | none => rfl
  | some m =>
    simp only [Option.map_some, Option.getD_some]
    rw [message_bytes (h5 m hm)]; rfl

/-- Envelopes to write, and the answer to a read, byte for byte. -/
theorem C115_bytes_envelopes (r : SendReq) (h : ∀ es, r.envelopes = some es → ∀ e ∈ es, ValidEnvelope e) :
    sendReqProto.encode r = optBytes 0x0A batchBytes r.envelopes ++ boolBytes 0x10 r.localOnly ∧
      readRespProto.encode r.envelopes = optBytes 0x0A batchBytes r.envelopes := by
  have hb : encFields (subField 1 batchProto.encode r.envelopes) = optBytes 0x0A batchBytes r.envelopes := by
    cases he : r.envelopes with
    | none => rfl
    | some es =>
      refine (enc_len 1 _ (by omega)).trans ?_
      have : batchProto.encode es = batchBytes es :=
        enc_list 1 (by omega) es fun e hm => C115_bytes_envelope e (h es he e hm)
      rw [this]; rfl
  refine ⟨?_, hb⟩
  simp only [Proto.encode, sendReqProto, encFields_append]
  rw [enc_bool 2 _ (by omega)]
  exact congrArg (· ++ _) hb

/-- The meta information, byte for byte. -/
theorem C115_bytes_meta (b : Bool) (m : List (Str × WireMeta)) (h : ValidMetaMap m) :
    metaReqProto.encode b = boolBytes 0x08 b ∧ metaRespProto.encode m = mapBytes 0x0A metaInfoBytes m := by
  refine ⟨enc_bool 1 b (by omega), (enc_map 1 _ (by omega) m).trans (map_congr _ fun p hp => ?_)⟩
  obtain ⟨h1, h2, h3, h4⟩ := h.2 p hp
  simp only [Proto.encode, wireMetaProto, encFields_append]
  rw [enc_int 1 _ (by omega) h1, enc_int 2 _ (by omega) h2, enc_int 3 _ (by omega) h3, enc_int 4 _ (by omega) h4]
  rfl

private theorem range_bytes (r : HRange) : rangeProto.encode r = rangeBytes r := by
  simp only [Proto.encode, rangeProto, encFields_append]
  rw [enc_uint 1 _ (by omega), enc_uint 2 _ (by omega)]; rfl

/-- Ranges, byte for byte. -/
theorem C115_bytes_ranges (rs : List HRange) (o : Option HRange) (m : List (Str × List HRange)) :
    rangesProto.encode rs = rangesBytes rs ∧ oneRangeProto.encode o = optBytes 0x0A rangeBytes o ∧
      setRangesProto.encode m = mapBytes 0x0A rangesBytes m := by
  have hr : ∀ rs, rangesProto.encode rs = rangesBytes rs := fun rs => enc_list 1 (by omega) rs fun r _ => range_bytes r
  refine ⟨hr rs, ?_, (enc_map 1 _ (by omega) m).trans (map_congr _ fun p _ => hr p.2)⟩
  cases o with
  | none => rfl
  | some r => exact (enc_len 1 _ (by omega)).trans (by rw [range_bytes]; rfl)

private theorem point_bytes (p : PPoint F64) : pointProto.encode p = pointBytes p := by
  simp only [Proto.encode, pointProto, encFields_append]
  rw [enc_str 1 _ (by omega), enc_float 2 _ (by omega)]; rfl

private theorem vector_bytes (xs : List (PSample F64)) : vectorProto.encode xs = vectorBytes xs := by
  refine enc_list 1 (by omega) xs fun s _ => ?_
  simp only [Proto.encode, sampleProto, encFields_append]
  rw [enc_map 1 _ (by omega)]
  have : encFields (subField 2 pointProto.encode (some s.point)) = lenBytes 0x12 (pointBytes s.point) :=
    (enc_len 2 _ (by omega)).trans (by rw [point_bytes]; rfl)
  rw [this]; rfl

private theorem matrix_bytes (xs : List (PSeries F64)) : matrixProto.encode xs = matrixBytes xs := by
  refine enc_list 1 (by omega) xs fun s _ => ?_
  simp only [Proto.encode, seriesProto, encFields_append]
  rw [enc_map 1 _ (by omega)]
  have : encFields (listFields 2 pointProto.encode s.points) = s.points.flatMap fun p => lenBytes 0x12 (pointBytes p) :=
    enc_list 2 (by omega) _ fun p _ => point_bytes p
  rw [this]; rfl

/-- Queries and their answers, byte for byte. -/
theorem C115_bytes_promql (q : InstantReq) (r : RangeReq) (a : PResult F64) (xs : List (PSeries F64)) :
    instantReqProto.encode q = textBytes 0x0A q.query ++ textBytes 0x12 q.time ∧
      rangeReqProto.encode r = textBytes 0x0A r.query ++ (textBytes 0x12 r.start ++ (textBytes 0x1A r.stop ++ textBytes 0x22 r.step)) ∧
      instantResultProto.encode (some a) = resultBytes a ∧ rangeResultProto.encode (some xs) = lenBytes 0x0A (matrixBytes xs) := by
  refine ⟨?_, ?_, ?_, ?_⟩
  · simp only [Proto.encode, instantReqProto, encFields_append]
    rw [enc_str 1 _ (by omega), enc_str 2 _ (by omega)]; rfl
  · simp only [Proto.encode, rangeReqProto, encFields_append]
    rw [enc_str 1 _ (by omega), enc_str 2 _ (by omega), enc_str 3 _ (by omega), enc_str 4 _ (by omega)]; rfl
  · cases a with
    | scalar p => exact (enc_len 1 _ (by omega)).trans (by rw [point_bytes]; rfl)
    | vector ys => exact (enc_len 2 _ (by omega)).trans (by rw [vector_bytes]; rfl)
    | matrix ys => exact (enc_len 3 _ (by omega)).trans (by rw [matrix_bytes]; rfl)
  · exact (enc_len 1 _ (by omega)).trans (by rw [matrix_bytes]; rfl)

/-! A request for the latest ten envelopes of `app`, in bytes. -/
example : readReqProto.encode { sourceId := "app".toList, limit := 10, descending := true, types := [.log] } =
    [0x0A, 3, 97, 112, 112, 0x20, 10, 0x2A, 1, 1, 0x30, 1] := by
  rw [C115_bytes_read_request _ (by unfold ValidReadRequest FitsInt64; simp [ValidType])]
  simp only [textBytes, intBytes, lenBytes, boolBytes, varintOf, etypeNumber]
  simp only [show List.flatMap String.utf8EncodeChar "app".toList = [97, 112, 112] by decide]
  simp [put_small]

/-! ## C116: messages of other versions -/

private theorem getVarintN_ext (t : List UInt8) : ∀ (k : Nat) (s : List UInt8) (n : Nat) (r : List UInt8), getVarintN k s = some (n, r) →
    getVarintN k (s ++ t) = some (n, r ++ t)
  | 0, s, n, r, h => by simp [getVarintN] at h
  | k + 1, [], n, r, h => by simp [getVarintN] at h
  | k + 1, b :: s, n, r, h => by
    simp only [List.cons_append, getVarintN] at h ⊢
    split at h
    · next hb =>
      simp only [Option.some.injEq, Prod.mk.injEq] at h
      rw [if_pos hb, h.1, h.2]
    · next hb =>
      rw [if_neg hb]
      cases hg : getVarintN k s with
      | none => simp [hg] at h
      | some p =>
        obtain ⟨m, r'⟩ := p
        simp only [hg, Option.map_some, Option.some.injEq, Prod.mk.injEq] at h
        rw [getVarintN_ext t k s m r' hg]
        simp only [Option.map_some, Option.some.injEq, Prod.mk.injEq]
        exact ⟨h.1, by rw [h.2]⟩

private theorem getVarint_ext (t : List UInt8) {s r : List UInt8} {n : Nat} (h : getVarint s = some (n, r)) :
    getVarint (s ++ t) = some (n, r ++ t) := by
  unfold getVarint at h ⊢
  cases hg : getVarintN 10 s with
  | none => simp [hg] at h
  | some p =>
    obtain ⟨m, r'⟩ := p
    simp only [hg] at h
    rw [getVarintN_ext t 10 s m r' hg]
    simp only
    split at h
    · next hm =>
      simp only [Option.some.injEq, Prod.mk.injEq] at h
      rw [if_pos hm, h.1, h.2]
    · cases h

private theorem getFixed_ext (t : List UInt8) : ∀ (k : Nat) (s : List UInt8) (n : Nat) (r : List UInt8), getFixed k s = some (n, r) →
    getFixed k (s ++ t) = some (n, r ++ t)
  | 0, s, n, r, h => by simp only [getFixed, Option.some.injEq, Prod.mk.injEq] at h ⊢; exact ⟨h.1, by rw [h.2]⟩
  | k + 1, [], n, r, h => by simp [getFixed] at h
  | k + 1, b :: s, n, r, h => by
    simp only [List.cons_append, getFixed] at h ⊢
    cases hg : getFixed k s with
    | none => simp [hg] at h
    | some p =>
      obtain ⟨m, r'⟩ := p
      simp only [hg, Option.map_some, Option.some.injEq, Prod.mk.injEq] at h
      rw [getFixed_ext t k s m r' hg]
      simp only [Option.map_some, Option.some.injEq, Prod.mk.injEq]
      exact ⟨h.1, by rw [h.2]⟩

private theorem readWireVal_ext (t : List UInt8) {wt : Nat} {s r : List UInt8} {v : WireVal} (h : readWireVal wt s = some (v, r)) :
    readWireVal wt (s ++ t) = some (v, r ++ t) := by
  unfold readWireVal at h ⊢
  split at h
  · next h0 =>
    rw [if_pos h0]
    cases hg : getVarint s with
    | none => simp [hg] at h
    | some p =>
      obtain ⟨m, r'⟩ := p
      simp only [hg, Option.map_some, Option.some.injEq, Prod.mk.injEq] at h
      rw [getVarint_ext t hg]
      simp only [Option.map_some, Option.some.injEq, Prod.mk.injEq]
      exact ⟨h.1, by rw [h.2]⟩
  next h0 =>
  rw [if_neg h0]
  split at h
  · next h1 =>
    rw [if_pos h1]
    cases hg : getFixed 8 s with
    | none => simp [hg] at h
    | some p =>
      obtain ⟨m, r'⟩ := p
      simp only [hg, Option.map_some, Option.some.injEq, Prod.mk.injEq] at h
      rw [getFixed_ext t 8 s m r' hg]
      simp only [Option.map_some, Option.some.injEq, Prod.mk.injEq]
      exact ⟨h.1, by rw [h.2]⟩
  next h1 =>
  rw [if_neg h1]
  split at h
  · next h2 =>
    rw [if_pos h2]
    cases hg : getVarint s with
    | none => simp [hg] at h
    | some p =>
      obtain ⟨m, r'⟩ := p
      rw [getVarint_ext t hg]
      simp only [hg] at h ⊢
      split at h
      · next hm =>
        simp only [Option.some.injEq, Prod.mk.injEq] at h
        rw [if_pos (by simp; omega), List.take_append_of_le_length hm, List.drop_append_of_le_length hm, h.1, h.2]
      · cases h
  next h2 =>
  rw [if_neg h2]
  split at h
  · next h3 =>
    rw [if_pos h3]
    cases hg : getFixed 4 s with
    | none => simp [hg] at h
    | some p =>
      obtain ⟨m, r'⟩ := p
      simp only [hg, Option.map_some, Option.some.injEq, Prod.mk.injEq] at h
      rw [getFixed_ext t 4 s m r' hg]
      simp only [Option.map_some, Option.some.injEq, Prod.mk.injEq]
      exact ⟨h.1, by rw [h.2]⟩
  · cases h

private theorem parseN_ext (t : List UInt8) : ∀ (n : Nat) (s : List UInt8) (fs : List (Nat × WireVal)), parseFieldsN n s = some fs →
    parseFieldsN (n + t.length) (s ++ t) = (parseFields t).map (fs ++ ·)
  | n, [], fs, h => by
    have : fs = [] := by cases n <;> simp [parseFieldsN] at h <;> exact h
    subst this
    rw [List.nil_append, parseN_fuel (n + t.length) t.length t (by omega) (Nat.le_refl _)]
    simp [parseFields]
  | 0, b :: s, fs, h => by simp [parseFieldsN] at h
  | n + 1, b :: s, fs, h => by
    simp only [parseFieldsN] at h
    rw [show n + 1 + t.length = (n + t.length) + 1 by omega, List.cons_append]
    simp only [parseFieldsN]
    cases hg : getVarint (b :: s) with
    | none => simp [hg] at h
    | some p =>
      obtain ⟨tag, r⟩ := p
      simp only [hg] at h
      have := getVarint_ext t hg
      rw [List.cons_append] at this
      rw [this]
      simp only
      cases hr : readWireVal (tag % 8) r with
      | none => simp [hr] at h
      | some q =>
        obtain ⟨v, r'⟩ := q
        simp only [hr] at h
        rw [readWireVal_ext t hr]
        simp only
        cases hp : parseFieldsN n r' with
        | none => simp [hp] at h
        | some gs =>
          simp only [hp, Option.map_some, Option.some.injEq] at h
          rw [parseN_ext t n r' gs hp, ← h]
          cases parseFields t <;> simp

private theorem parse_ext {s t : List UInt8} {fs : List (Nat × WireVal)} (h : parseFields s = some fs) :
    parseFields (s ++ t) = (parseFields t).map (fs ++ ·) := by
  have := parseN_ext t s.length s fs h
  rw [← this]
  unfold parseFields
  rw [List.length_append]

private theorem merge_append {α : Type} (p : Proto α) (z : α) {a b : List UInt8} (ha : WholeFields a) (hb : WholeFields b) :
    p.merge z (a ++ b) = (p.merge z a).bind (p.merge · b) := by
  cases h : parseFields a with
  | none => exact absurd h ha
  | some fs =>
    cases h' : parseFields b with
    | none => exact absurd h' hb
    | some gs =>
      unfold Proto.merge
      rw [parse_ext h, h, h']
      simp only [Option.map_some, Option.bind_some, stepAll_append]

private theorem merge_bad {α : Type} (p : Proto α) (z : α) {a b : List UInt8} (ha : WholeFields a) (hb : ¬ WholeFields b) :
    p.merge z (a ++ b) = none := by
  cases h : parseFields a with
  | none => exact absurd h ha
  | some fs =>
    have h' : parseFields b = none := by unfold WholeFields at hb; simpa using hb
    unfold Proto.merge
    rw [parse_ext h, h']; rfl

private theorem ignores : ∀ m ∈ described, ∀ k ∉ m.numbers, ∀ z v, m.proto.step z k v = some z := by
  intro m hm k hk z v
  simp only [described, List.mem_cons, List.not_mem_nil, or_false] at hm
  rcases hm with h | h | h | h | h | h | h | h | h | h | h | h | h | h | h | h | h | h | h | h | h | h | h | h | h | h | h | h <;>
    subst h <;> simp only [List.mem_cons, List.not_mem_nil, or_false, not_or] at hk <;>
    simp only [wireEnvelopeProto, tagValueProto, logProto, counterProto, gaugeProto, wireGaugeProto, timerProto, eventProto, batchProto,
      sendReqProto, readReqProto, readRespProto, metaReqProto, wireMetaProto, metaRespProto, rangeProto, rangesProto, oneRangeProto,
      setRangesProto, instantReqProto, rangeReqProto, pointProto, sampleProto, seriesProto, vectorProto, matrixProto,
      instantResultProto, rangeResultProto, hk, if_false]

/-- A field of a number a message does not have changes nothing, wherever in the message it
is. -/
theorem C116_unknown (m : Described) (hm : m ∈ described) (k : Nat) (hk : k ∉ m.numbers) (hk' : k < 2 ^ 60) (v : WireVal) (hv : WritableValue v)
    (a b : List UInt8) (ha : WholeFields a) :
    m.proto.decode (a ++ (encFields [(k, v)] ++ b)) = m.proto.decode (a ++ b) := by
  have hf : ∀ f ∈ [(k, v)], FieldOk f := by
    intro f hf
    rw [List.mem_singleton] at hf
    subst hf
    refine ⟨hk', ?_⟩
    cases v <;> exact hv
  have hp := parse_enc_append [(k, v)] b hf
  unfold Proto.decode
  by_cases hb : WholeFields b
  · have hb' : WholeFields (encFields [(k, v)] ++ b) := by
      cases h' : parseFields b with
      | none => exact absurd h' hb
      | some gs =>
        unfold WholeFields
        rw [hp, h']; simp
    rw [merge_append _ _ ha hb', merge_append _ _ ha hb]
    congr 1
    funext z
    unfold Proto.merge
    rw [hp]
    cases parseFields b with
    | none => rfl
    | some gs =>
      simp only [Option.map_some, Option.bind_some, List.singleton_append, stepAll]
      rw [ignores m hm k hk z v]
  · have hb' : ¬ WholeFields (encFields [(k, v)] ++ b) := by
      have h' : parseFields b = none := by unfold WholeFields at hb; simpa using hb
      unfold WholeFields
      rw [hp, h']; simp
    rw [merge_bad _ _ ha hb', merge_bad _ _ ha hb]

/-- A message after another one: what the second has is set or added in what the first
was. -/
theorem C116_merge (m : Described) (z : m.Value) (a b : List UInt8) (ha : WholeFields a) (hb : WholeFields b) :
    m.proto.merge z (a ++ b) = (m.proto.merge z a).bind fun y => m.proto.merge y b := merge_append m.proto z ha hb

/-- A message without fields is the empty one. -/
theorem C116_empty (m : Described) : m.proto.decode [] = some m.proto.zero := rfl

/-! A new field 11 between two that are known, in an envelope. -/
example : ⟨_, wireEnvelopeProto, [1, 2, 3, 4, 5, 6, 7, 8, 9, 10]⟩ ∈ described ∧ 11 ∉ [1, 2, 3, 4, 5, 6, 7, 8, 9, 10] ∧
    WholeFields [0x08, 5] ∧ parseFields [0x08, 5] = some [(1, .varint 5)] := by
  have : parseFields [0x08, 5] = some [(1, .varint 5)] := by decide
  exact ⟨List.mem_cons_self .., by decide, by unfold WholeFields; rw [this]; simp, this⟩

end LogCache
