import Verif.Proof.Protobuf

/-! # What the messages of the interfaces arrive as -/

namespace LogCache
open LogCache.Spec

private theorem small {k : Nat} (h : k < 100) : k < 2 ^ 60 := by omega

/-- The parts of a message that fits are small enough. -/
theorem part_len {α : Type} {p : Proto α} {x : α} (hl : (p.encode x).length < 2 ^ 64) :
    ∀ f ∈ p.fields x, ∀ bs, f.2 = .bytes bs → bs.length < 2 ^ 64 := by
  rintro ⟨k, v⟩ hf bs rfl
  exact Nat.lt_of_le_of_lt (bytes_len hf) hl

theorem tagValue_arrives {v : TagValue} (h : ValidTagValue v) : ArrivesAs tagValueProto v v := by
  cases v with
  | unset => exact ⟨by simp [tagValueProto], fun _ => rfl⟩
  | text s =>
    refine ⟨ok_one (small (by omega)), fun _ => ?_⟩
    have : tagValueProto.step .unset 1 (.bytes (utf8Bytes s)) = some (.text s) := by
      change (utf8Text (utf8Bytes s)).map _ = _
      rw [utf8_read]; rfl
    simp only [tagValueProto, stepAll] at this ⊢
    simp only [this]
  | integer n =>
    refine ⟨?_, fun _ => ?_⟩
    · intro f hf
      simp only [tagValueProto, List.mem_singleton] at hf
      subst hf; exact ⟨by omega, asUint_lt n⟩
    · change some (TagValue.integer (wrap64 (asUint64 n))) = _
      rw [wrap_asUint h]
  | decimal x =>
    refine ⟨?_, fun _ => ?_⟩
    · intro f hf
      simp only [tagValueProto, List.mem_singleton] at hf
      subst hf; exact ⟨by omega, f64Bits_lt h⟩
    · change some (TagValue.decimal (f64OfBits (f64Bits x))) = _
      rw [f64_read h]

theorem wireGauge_arrives {g : WireGauge} (h : Binary64 g.value) : ArrivesAs wireGaugeProto g g := by
  refine ⟨ok_app (ok_str (small (by omega))) (ok_float (small (by omega)) h), fun _ => ?_⟩
  refine stepAll_then (step_str (fun s => { wireGaugeProto.zero with unit := s }) (fun _ => rfl) rfl) ?_
  exact step_float (fun x => ({ unit := g.unit, value := x } : WireGauge)) h (fun _ => rfl) rfl

theorem log_arrives {p' p : Option (List UInt8)} {t : Int} (hp : SamePayload p' p) (h : -2 ^ 31 ≤ t ∧ t < 2 ^ 31) :
    ArrivesAs logProto (p', t) (p, t) := by
  refine ⟨ok_app (ok_opt ⟨small (by omega), trivial⟩) (ok_int (small (by omega))), fun _ => ?_⟩
  have h1 : stepAll logProto.step (none, 0) (bytesField 1 p') = some (p, 0) := by
    unfold SamePayload at hp
    rcases p' with _ | _ | ⟨b, bs⟩
    · rw [if_neg (by simp)] at hp; subst hp; rfl
    · rw [if_pos rfl] at hp; subst hp; rfl
    · rw [if_neg (by simp)] at hp; subst hp; rfl
  refine stepAll_then h1 ?_
  have hf : FitsInt64 t := by unfold FitsInt64; omega
  have := step_int (step := logProto.step) (z := (p, 0)) (k := 2) (n := t) (fun n => (p, wrap32 n)) hf (fun _ => rfl)
    (by simp [wrap32])
  rw [this]
  congr 2
  unfold wrap32
  omega

theorem counter_arrives {n : Str} {d t : Nat} (h : d < 2 ^ 64 ∧ t < 2 ^ 64) : ArrivesAs counterProto (n, d, t) (n, d, t) := by
  refine ⟨ok_app (ok_str (small (by omega))) (ok_app (ok_uint (small (by omega)) h.1) (ok_uint (small (by omega)) h.2)), fun _ => ?_⟩
  refine stepAll_then (step_str (fun s => (s, 0, 0)) (fun _ => rfl) rfl) ?_
  refine stepAll_then (step_uint (fun m => (n, m, 0)) (fun _ => rfl) rfl) ?_
  exact step_uint (fun m => (n, d, m)) (fun _ => rfl) rfl

theorem gauge_arrives {m' m : List (Str × WireGauge)} (hp : SameMap m' m) (hm : KeysInOrder m) (hv : ∀ p ∈ m, Binary64 p.2.value) :
    ArrivesAs gaugeProto m' m := by
  refine ⟨ok_map (small (by omega)), fun hl => ?_⟩
  exact step_map_perm (step := gaugeProto.step) id (fun _ m => m) (fun z bs => by
      change readEntry _ _ z bs = _; simp) (fun _ _ => rfl) (fun _ _ _ => rfl) (fun _ => rfl) [] rfl hm hp
    (fun p hp' hl' => (wireGauge_arrives (hv p hp')).merge hl') (part_len hl)

theorem timer_arrives {n : Str} {a b : Int} (h : FitsInt64 a ∧ FitsInt64 b) : ArrivesAs timerProto (n, a, b) (n, a, b) := by
  refine ⟨ok_app (ok_str (small (by omega))) (ok_app (ok_int (small (by omega))) (ok_int (small (by omega)))), fun _ => ?_⟩
  refine stepAll_then (step_str (fun s => (s, 0, 0)) (fun _ => rfl) rfl) ?_
  refine stepAll_then (step_int (fun m => (n, m, 0)) h.1 (fun _ => rfl) rfl) ?_
  exact step_int (fun m => (n, a, m)) h.2 (fun _ => rfl) rfl

theorem event_arrives (t b : Str) : ArrivesAs eventProto (t, b) (t, b) := by
  refine ⟨ok_app (ok_str (small (by omega))) (ok_str (small (by omega))), fun _ => ?_⟩
  refine stepAll_then (step_str (fun s => (s, [])) (fun _ => rfl) rfl) ?_
  exact step_str (fun s => (t, s)) (fun _ => rfl) rfl

private theorem message_ok (m : WireMessage) : ∀ f ∈ wireMessageFields m, FieldOk' f := by
  cases m <;> exact ok_one (small (by omega))

private theorem message_step {m' m : WireMessage} (z : WireEnvelope) (h : SameMessage m' m) (hv : ValidMessage m)
    (hl : ∀ f ∈ wireMessageFields m', ∀ bs, f.2 = .bytes bs → bs.length < 2 ^ 64) :
    stepAll wireEnvelopeProto.step z (wireMessageFields m') = some { z with message := some m } := by
  cases m' with
  | log p' t' =>
    cases m with
    | log p t =>
      obtain ⟨h1, rfl⟩ := h
      have := (log_arrives h1 hv).decode (hl _ (List.mem_cons_self ..) _ rfl)
      simp only [wireMessageFields, stepAll]
      have h2 : wireEnvelopeProto.step z 4 (.bytes (logProto.encode (p', t'))) = some { z with message := some (.log p t') } := by
        change (logProto.decode _).map _ = _
        rw [this]; rfl
      simp only [h2]
    | _ => exact absurd h (by simp [SameMessage])
  | counter n d t =>
    have h : WireMessage.counter n d t = m := by cases m <;> exact h
    subst h
    have := (counter_arrives (n := n) hv).decode (hl _ (List.mem_cons_self ..) _ rfl)
    simp only [wireMessageFields, stepAll]
    have h2 : wireEnvelopeProto.step z 5 (.bytes (counterProto.encode (n, d, t))) = some { z with message := some (.counter n d t) } := by
      change (counterProto.decode _).map _ = _
      rw [this]; rfl
    simp only [h2]
  | gauge ms' =>
    cases m with
    | gauge ms =>
      have := (gauge_arrives h hv.1 hv.2).decode (hl _ (List.mem_cons_self ..) _ rfl)
      simp only [wireMessageFields, stepAll]
      have h2 : wireEnvelopeProto.step z 6 (.bytes (gaugeProto.encode ms')) = some { z with message := some (.gauge ms) } := by
        change (gaugeProto.decode _).map _ = _
        rw [this]; rfl
      simp only [h2]
    | _ => exact absurd h (by simp [SameMessage])
  | timer n a b =>
    have h : WireMessage.timer n a b = m := by cases m <;> exact h
    subst h
    have := (timer_arrives (n := n) hv).decode (hl _ (List.mem_cons_self ..) _ rfl)
    simp only [wireMessageFields, stepAll]
    have h2 : wireEnvelopeProto.step z 7 (.bytes (timerProto.encode (n, a, b))) = some { z with message := some (.timer n a b) } := by
      change (timerProto.decode _).map _ = _
      rw [this]; rfl
    simp only [h2]
  | event t b =>
    have h : WireMessage.event t b = m := by cases m <;> exact h
    subst h
    have := (event_arrives t b).decode (hl _ (List.mem_cons_self ..) _ rfl)
    simp only [wireMessageFields, stepAll]
    have h2 : wireEnvelopeProto.step z 10 (.bytes (eventProto.encode (t, b))) = some { z with message := some (.event t b) } := by
      change (eventProto.decode _).map _ = _
      rw [this]; rfl
    simp only [h2]

theorem envelope_arrives {e' e : WireEnvelope} (h : SameEnvelope e' e) (hv : ValidEnvelope e) : ArrivesAs wireEnvelopeProto e' e := by
  obtain ⟨ts', src', inst', dep', tags', msg'⟩ := e'
  obtain ⟨ts, src, inst, dep, tags, msg⟩ := e
  obtain ⟨h1, h2, h3, h4, h5, h6⟩ := h
  obtain ⟨v1, v2, v3, v4, v5⟩ := hv
  simp only at h1 h2 h3 h4 h5 h6 v1 v2 v3 v4 v5
  subst h1 h2 h3
  refine ⟨ok_app (ok_int (small (by omega))) (ok_app (ok_str (small (by omega))) (ok_app (ok_map (small (by omega)))
    (ok_app (ok_str (small (by omega))) (ok_app (ok_map (small (by omega))) ?_)))), fun hl => ?_⟩
  · cases msg' with
    | none => simp
    | some m => exact message_ok m
  have hp := part_len hl
  have sub : ∀ fs : List (Nat × WireVal), (∀ f ∈ fs, f ∈ wireEnvelopeProto.fields ⟨ts', src', inst', dep', tags', msg'⟩) →
      ∀ f ∈ fs, ∀ bs, f.2 = .bytes bs → bs.length < 2 ^ 64 := fun fs hs f hf => hp f (hs f hf)
  refine stepAll_then (step_int (fun n => { wireEnvelopeProto.zero with timestamp := n }) v1 (fun _ => rfl) rfl) ?_
  refine stepAll_then (step_str (fun s => ({ timestamp := ts', sourceId := s } : WireEnvelope)) (fun _ => rfl) rfl) ?_
  refine stepAll_then (step_map_perm (step := wireEnvelopeProto.step) (fun z => z.deprecatedTags) (fun z m => { z with deprecatedTags := m })
    (fun z bs => rfl) (fun _ _ => rfl) (fun _ _ _ => rfl) (fun _ => rfl) _ rfl v2 h4
    (fun p hp' hl' => (tagValue_arrives (v3 p hp')).merge hl') (sub _ fun f hf => ?_)) ?_
  · exact List.mem_append_right _ (List.mem_append_right _ (List.mem_append_left _ hf))
  refine stepAll_then (step_str (fun s => ({ timestamp := ts', sourceId := src', deprecatedTags := dep, instanceId := s } : WireEnvelope)) (fun _ => rfl) rfl) ?_
  refine stepAll_then (step_map_perm (step := wireEnvelopeProto.step) (fun z => z.tags) (fun z m => { z with tags := m })
    (fun z bs => rfl) (fun _ _ => rfl) (fun _ _ _ => rfl) (fun _ => rfl) _ rfl v4 h5
    (fun p hp' hl' => utf8_read p.2) (sub _ fun f hf => ?_)) ?_
  · exact List.mem_append_right _ (List.mem_append_right _ (List.mem_append_right _ (List.mem_append_right _ (List.mem_append_left _ hf))))
  cases msg' with
  | none =>
    cases msg with
    | none => rfl
    | some m => exact h6.elim
  | some m' =>
    cases msg with
    | none => exact h6.elim
    | some m =>
      refine (message_step _ h6 (v5 m rfl) (sub _ fun f hf => ?_)).trans rfl
      exact List.mem_append_right _ (List.mem_append_right _ (List.mem_append_right _ (List.mem_append_right _ (List.mem_append_right _ hf))))

theorem forall2_and {α : Type} {R : α → α → Prop} {V : α → Prop} {S : α → α → Prop} (f : ∀ x' x, R x' x → V x → S x' x) :
    ∀ {xs' xs : List α}, List.Forall₂ R xs' xs → (∀ x ∈ xs, V x) → List.Forall₂ S xs' xs
  | [], _, .nil, _ => .nil
  | _ :: _, _, .cons h hs, hv => .cons (f _ _ h (hv _ (List.mem_cons_self ..))) (forall2_and f hs fun x hx => hv x (List.mem_cons_of_mem _ hx))

theorem forall2_refl {α : Type} : ∀ (xs : List α), List.Forall₂ (· = ·) xs xs
  | [] => .nil
  | _ :: xs => .cons rfl (forall2_refl xs)

/-- A message that is a repeated field only. -/
theorem list_arrives {β : Type} {p : Proto β} {q : Proto (List β)} {k : Nat} (hk : k < 100)
    (hf : ∀ xs, q.fields xs = listFields k p.encode xs)
    (hz : q.zero = []) (hs : ∀ z bs, q.step z k (.bytes bs) = (p.decode bs).map fun x => z ++ [x])
    {xs' xs : List β} (h : List.Forall₂ (ArrivesAs p) xs' xs) : ArrivesAs q xs' xs := by
  refine ⟨by rw [hf]; exact ok_list (small hk), fun hl => ?_⟩
  have hp := part_len hl
  rw [hf] at hp ⊢
  rw [hz, step_list (step := q.step) (p := p) id (fun _ m => m) hs (fun _ _ => rfl) (fun _ _ _ => rfl) (fun _ => rfl) xs' xs [] h]
  · rfl
  · intro x hx
    exact hp (k, .bytes (p.encode x)) (List.mem_map.2 ⟨x, hx, rfl⟩) _ rfl

theorem batch_arrives {es' es : List WireEnvelope} (h : SameBatch es' es) (hv : ∀ e ∈ es, ValidEnvelope e) : ArrivesAs batchProto es' es :=
  list_arrives (k := 1) (p := wireEnvelopeProto) (by omega) (fun _ => rfl) rfl (fun _ _ => rfl) (forall2_and (R := SameEnvelope) (V := ValidEnvelope) (fun _ _ a b => envelope_arrives a b) h hv)

/-- A field that is a message. -/
theorem step_sub {α β : Type} {step : α → Nat → WireVal → Option α} {k : Nat} {p : Proto β} {z : α} {x' x : β} (f : β → α)
    (hs : ∀ bs, step z k (.bytes bs) = (p.merge p.zero bs).map f) (h : ArrivesAs p x' x)
    (hl : (p.encode x').length < 2 ^ 64) : stepAll step z (subField k p.encode (some x')) = some (f x) := by
  simp only [subField, Option.map_some, Option.getD_some, stepAll, hs, h.merge hl]

theorem sendReq_arrives {r' r : SendReq} (h : SameBatch? r'.envelopes r.envelopes) (hl : r'.localOnly = r.localOnly)
    (hv : ∀ es, r.envelopes = some es → ∀ e ∈ es, ValidEnvelope e) : ArrivesAs sendReqProto r' r := by
  obtain ⟨b', l'⟩ := r'
  obtain ⟨b, l⟩ := r
  simp only at h hl hv
  subst hl
  refine ⟨ok_app (ok_sub (small (by omega))) (ok_bool (small (by omega))), fun hl => ?_⟩
  cases b' with
  | none =>
    cases b with
    | none => exact stepAll_then (y := {}) rfl (step_bool (fun c => ({ envelopes := none, localOnly := c } : SendReq)) (fun _ => rfl) rfl)
    | some b => exact h.elim
  | some es' =>
    cases b with
    | none => exact h.elim
    | some es =>
      refine stepAll_then (step_sub (p := batchProto) (fun b => ({ envelopes := some b, localOnly := false } : SendReq)) (fun _ => rfl)
        (batch_arrives h (hv es rfl)) (part_len hl (1, .bytes (batchProto.encode es')) (List.mem_append_left _ (List.mem_cons_self ..)) _ rfl)) ?_
      exact step_bool (fun c => ({ envelopes := some es, localOnly := c } : SendReq)) (fun _ => rfl) rfl

theorem readResp_arrives {r' r : Option (List WireEnvelope)} (h : SameBatch? r' r)
    (hv : ∀ es, r = some es → ∀ e ∈ es, ValidEnvelope e) : ArrivesAs readRespProto r' r := by
  refine ⟨ok_sub (small (by omega)), fun hl => ?_⟩
  cases r' with
  | none =>
    cases r with
    | none => rfl
    | some b => exact h.elim
  | some es' =>
    cases r with
    | none => exact h.elim
    | some es =>
      exact step_sub (p := batchProto) some (fun _ => rfl)
        (batch_arrives h (hv es rfl)) (part_len hl (1, .bytes (batchProto.encode es')) (List.mem_cons_self ..) _ rfl)

/-! ## Requests to read -/

theorem enumOf_number {t : EType} (h : ValidType t) : enumOf (asUint64 (etypeNumber t)) = t := by
  have hf : FitsInt64 (etypeNumber t) := by
    unfold FitsInt64
    cases t <;> simp only [ValidType] at h <;> simp only [etypeNumber] <;> omega
  unfold enumOf
  rw [wrap_asUint hf]
  cases t with
  | other n =>
    simp only [ValidType] at h
    have : wrap32 n = n := by unfold wrap32; omega
    simp only [etypeNumber, this, etypeOfNumber]
    rw [if_neg (by omega), if_neg (by omega), if_neg (by omega), if_neg (by omega), if_neg (by omega), if_neg (by omega)]
  | _ => decide

theorem getEnums_put : ∀ (ts : List EType) (n : Nat), (∀ t ∈ ts, ValidType t) → (putEnums ts).length ≤ n → getEnums n (putEnums ts) = some ts
  | [], n, _, _ => by cases n <;> rfl
  | t :: ts, n, h, hn => by
    have hg := getVarint_put (asUint64 (etypeNumber t)) (putEnums ts) (asUint_lt _)
    have hpos := putVarint_pos (asUint64 (etypeNumber t))
    simp only [putEnums, List.length_append] at hn ⊢
    obtain ⟨n, rfl⟩ : ∃ m, n = m + 1 := ⟨n - 1, by omega⟩
    cases hb : putVarint (asUint64 (etypeNumber t)) ++ putEnums ts with
    | nil => rw [hb] at hg; simp [getVarint, getVarintN] at hg
    | cons b s =>
      rw [hb] at hg
      simp only [getEnums, hg]
      rw [getEnums_put ts n (fun x hx => h x (List.mem_cons_of_mem _ hx)) (by omega), enumOf_number (h t (List.mem_cons_self ..))]
      rfl

theorem readReq_arrives {r : ReadRequest} (h : ValidReadRequest r) : ArrivesAs readReqProto r r := by
  obtain ⟨src, a, b, l, ts, d, nf⟩ := r
  obtain ⟨h1, h2, h3, h4⟩ := h
  simp only at h1 h2 h3 h4
  refine ⟨ok_app (ok_str (small (by omega))) (ok_app (ok_int (small (by omega))) (ok_app (ok_int (small (by omega)))
    (ok_app (ok_int (small (by omega))) (ok_app (ok_opt ⟨small (by omega), trivial⟩) (ok_app (ok_bool (small (by omega)))
    (ok_str (small (by omega)))))))), fun _ => ?_⟩
  refine stepAll_then (step_str (fun s => { readReqProto.zero with sourceId := s }) (fun _ => rfl) rfl) ?_
  refine stepAll_then (step_int (fun n => { readReqProto.zero with sourceId := src, start := n }) h1 (fun _ => rfl) rfl) ?_
  refine stepAll_then (step_int (fun n => { readReqProto.zero with sourceId := src, start := a, stop := n }) h2 (fun _ => rfl) rfl) ?_
  refine stepAll_then (step_int (fun n => { readReqProto.zero with sourceId := src, start := a, stop := b, limit := n }) h3 (fun _ => rfl) rfl) ?_
  refine stepAll_then (stepAll_opt (y := { readReqProto.zero with sourceId := src, start := a, stop := b, limit := l, types := ts }) ?_ ?_) ?_
  · intro h; have : ts = [] := by simpa using h
    rw [this]; rfl
  · change (getEnums (putEnums ts).length (putEnums ts)).map _ = _
    rw [getEnums_put ts _ h4 (Nat.le_refl _)]
    rfl
  refine stepAll_then (step_bool (fun c => { readReqProto.zero with sourceId := src, start := a, stop := b, limit := l, types := ts, descending := c })
    (fun _ => rfl) rfl) ?_
  exact step_str (fun s => ({ sourceId := src, start := a, stop := b, limit := l, types := ts, descending := d, nameFilter := s } : ReadRequest))
    (fun _ => rfl) rfl

/-! ## Meta information -/

theorem metaReq_arrives (b : Bool) : ArrivesAs metaReqProto b b :=
  ⟨ok_bool (small (by omega)), fun _ => step_bool id (fun _ => rfl) rfl⟩

theorem wireMeta_arrives {m : WireMeta} (h : FitsInt64 m.count ∧ FitsInt64 m.expired ∧ FitsInt64 m.oldest ∧ FitsInt64 m.newest) :
    ArrivesAs wireMetaProto m m := by
  obtain ⟨c, e, o, n⟩ := m
  obtain ⟨h1, h2, h3, h4⟩ := h
  refine ⟨ok_app (ok_int (small (by omega))) (ok_app (ok_int (small (by omega))) (ok_app (ok_int (small (by omega)))
    (ok_int (small (by omega))))), fun _ => ?_⟩
  refine stepAll_then (step_int (fun k => { wireMetaProto.zero with count := k }) h1 (fun _ => rfl) rfl) ?_
  refine stepAll_then (step_int (fun k => { wireMetaProto.zero with count := c, expired := k }) h2 (fun _ => rfl) rfl) ?_
  refine stepAll_then (step_int (fun k => { wireMetaProto.zero with count := c, expired := e, oldest := k }) h3 (fun _ => rfl) rfl) ?_
  exact step_int (fun k => ({ count := c, expired := e, oldest := o, newest := k } : WireMeta)) h4 (fun _ => rfl) rfl

/-- A message that is a map only. -/
theorem map_arrives {β : Type} {p : Proto β} {q : Proto (List (Str × β))} {k : Nat} (hk : k < 100)
    (hf : ∀ m, q.fields m = mapFields k p.encode m) (hz : q.zero = [])
    (hs : ∀ z bs, q.step z k (.bytes bs) = readEntry p.zero p.merge z bs)
    {m' m : List (Str × β)} (h : SameMap m' m) (hm : KeysInOrder m) (hv : ∀ x ∈ m, ArrivesAs p x.2 x.2) : ArrivesAs q m' m := by
  refine ⟨by rw [hf]; exact ok_map (small hk), fun hl => ?_⟩
  have hp := part_len hl
  rw [hf] at hp ⊢
  rw [hz]
  exact step_map_perm (step := q.step) id (fun _ m => m) (fun z bs => by rw [hs]; simp) (fun _ _ => rfl) (fun _ _ _ => rfl)
    (fun _ => rfl) [] rfl hm h (fun x hx hl' => (hv x hx).merge hl') hp

theorem metaResp_arrives {m' m : List (Str × WireMeta)} (h : SameMap m' m) (hv : ValidMetaMap m) : ArrivesAs metaRespProto m' m :=
  map_arrives (k := 1) (p := wireMetaProto) (by omega) (fun _ => rfl) rfl (fun _ _ => rfl) h hv.1 fun x hx => wireMeta_arrives (hv.2 x hx)

/-! ## Ranges -/

theorem range_arrives {r : HRange} (h : ValidRange r) : ArrivesAs rangeProto r r := by
  obtain ⟨a, b⟩ := r
  refine ⟨ok_app (ok_uint (small (by omega)) h.1) (ok_uint (small (by omega)) h.2), fun _ => ?_⟩
  refine stepAll_then (step_uint (fun k => { rangeProto.zero with start := k }) (fun _ => rfl) rfl) ?_
  exact step_uint (fun k => ({ start := a, stop := k } : HRange)) (fun _ => rfl) rfl

theorem ranges_arrives {rs : List HRange} (h : ∀ r ∈ rs, ValidRange r) : ArrivesAs rangesProto rs rs :=
  list_arrives (k := 1) (p := rangeProto) (by omega) (fun _ => rfl) rfl (fun _ _ => rfl)
    (forall2_and (V := ValidRange) (fun _ _ e hv => by subst e; exact range_arrives hv) (forall2_refl rs) h)

theorem oneRange_arrives {r : Option HRange} (h : ∀ x, r = some x → ValidRange x) : ArrivesAs oneRangeProto r r := by
  refine ⟨ok_sub (small (by omega)), fun hl => ?_⟩
  cases r with
  | none => rfl
  | some x =>
    exact step_sub (p := rangeProto) some (fun _ => rfl) (range_arrives (h x rfl))
      (part_len hl (1, .bytes (rangeProto.encode x)) (List.mem_cons_self ..) _ rfl)

theorem setRanges_arrives {m' m : List (Str × List HRange)} (h : SameMap m' m) (hm : KeysInOrder m) (hv : ∀ x ∈ m, ∀ r ∈ x.2, ValidRange r) :
    ArrivesAs setRangesProto m' m :=
  map_arrives (k := 1) (p := rangesProto) (by omega) (fun _ => rfl) rfl (fun _ _ => rfl) h hm fun x hx => ranges_arrives (hv x hx)

/-! ## PromQL -/

theorem instantReq_arrives (r : InstantReq) : ArrivesAs instantReqProto r r := by
  obtain ⟨q, t⟩ := r
  refine ⟨ok_app (ok_str (small (by omega))) (ok_str (small (by omega))), fun _ => ?_⟩
  refine stepAll_then (step_str (fun s => { instantReqProto.zero with query := s }) (fun _ => rfl) rfl) ?_
  exact step_str (fun s => ({ query := q, time := s } : InstantReq)) (fun _ => rfl) rfl

theorem rangeReq_arrives (r : RangeReq) : ArrivesAs rangeReqProto r r := by
  obtain ⟨q, a, b, t⟩ := r
  refine ⟨ok_app (ok_str (small (by omega))) (ok_app (ok_str (small (by omega))) (ok_app (ok_str (small (by omega)))
    (ok_str (small (by omega))))), fun _ => ?_⟩
  refine stepAll_then (step_str (fun s => { rangeReqProto.zero with query := s }) (fun _ => rfl) rfl) ?_
  refine stepAll_then (step_str (fun s => { rangeReqProto.zero with query := q, start := s }) (fun _ => rfl) rfl) ?_
  refine stepAll_then (step_str (fun s => { rangeReqProto.zero with query := q, start := a, stop := s }) (fun _ => rfl) rfl) ?_
  exact step_str (fun s => ({ query := q, start := a, stop := b, step := s } : RangeReq)) (fun _ => rfl) rfl

theorem point_arrives {p : PPoint F64} (h : Binary64 p.value) : ArrivesAs pointProto p p := by
  obtain ⟨t, x⟩ := p
  refine ⟨ok_app (ok_str (small (by omega))) (ok_float (small (by omega)) h), fun _ => ?_⟩
  refine stepAll_then (step_str (fun s => { pointProto.zero with time := s }) (fun _ => rfl) rfl) ?_
  exact step_float (fun x => ({ time := t, value := x } : PPoint F64)) h (fun _ => rfl) rfl

theorem sample_arrives {s' s : PSample F64} (h : SameSample s' s) (hv : ValidSample s) : ArrivesAs sampleProto s' s := by
  obtain ⟨m', p'⟩ := s'
  obtain ⟨m, p⟩ := s
  obtain ⟨h1, h2⟩ := h
  simp only at h1 h2
  subst h2
  refine ⟨ok_app (ok_map (small (by omega))) (ok_sub (small (by omega))), fun hl => ?_⟩
  have hp := part_len hl
  refine stepAll_then (step_map_perm (step := sampleProto.step) (fun z => z.metric) (fun z m => { z with metric := m })
    (fun z bs => rfl) (fun _ _ => rfl) (fun _ _ _ => rfl) (fun _ => rfl) _ rfl hv.1 h1
    (fun p hp' hl' => utf8_read p.2) (fun f hf => hp f (List.mem_append_left _ hf))) ?_
  exact step_sub (p := pointProto) (fun p => ({ metric := m, point := p } : PSample F64)) (fun _ => rfl) (point_arrives hv.2)
    (hp (2, .bytes (pointProto.encode p')) (List.mem_append_right _ (List.mem_cons_self ..)) _ rfl)

theorem series_arrives {s' s : PSeries F64} (h : SameSeries s' s) (hv : ValidSeries s) : ArrivesAs seriesProto s' s := by
  obtain ⟨m', p'⟩ := s'
  obtain ⟨m, p⟩ := s
  obtain ⟨h1, h2⟩ := h
  simp only at h1 h2
  subst h2
  refine ⟨ok_app (ok_map (small (by omega))) (ok_list (small (by omega))), fun hl => ?_⟩
  have hp := part_len hl
  refine stepAll_then (step_map_perm (step := seriesProto.step) (fun z => z.metric) (fun z m => { z with metric := m })
    (fun z bs => rfl) (fun _ _ => rfl) (fun _ _ _ => rfl) (fun _ => rfl) _ rfl hv.1 h1
    (fun p hp' hl' => utf8_read p.2) (fun f hf => hp f (List.mem_append_left _ hf))) ?_
  exact step_list (step := seriesProto.step) (p := pointProto) (fun z => z.points) (fun z ps => { z with points := ps }) (fun _ _ => rfl)
    (fun _ _ => rfl) (fun _ _ _ => rfl) (fun _ => rfl) p' p' _
    (forall2_and (V := fun p : PPoint F64 => Binary64 p.value) (fun _ _ e hv => by subst e; exact point_arrives hv) (forall2_refl p') hv.2)
    fun x hx => hp (2, .bytes (pointProto.encode x)) (List.mem_append_right _ (List.mem_map.2 ⟨x, hx, rfl⟩)) _ rfl

theorem vector_arrives {xs' xs : List (PSample F64)} (h : List.Forall₂ SameSample xs' xs) (hv : ∀ x ∈ xs, ValidSample x) :
    ArrivesAs vectorProto xs' xs :=
  list_arrives (k := 1) (p := sampleProto) (by omega) (fun _ => rfl) rfl (fun _ _ => rfl) (forall2_and (R := SameSample) (V := ValidSample) (fun _ _ a b => sample_arrives a b) h hv)

theorem matrix_arrives {xs' xs : List (PSeries F64)} (h : List.Forall₂ SameSeries xs' xs) (hv : ∀ x ∈ xs, ValidSeries x) :
    ArrivesAs matrixProto xs' xs :=
  list_arrives (k := 1) (p := seriesProto) (by omega) (fun _ => rfl) rfl (fun _ _ => rfl) (forall2_and (R := SameSeries) (V := ValidSeries) (fun _ _ a b => series_arrives a b) h hv)

theorem instantResult_arrives {r' r : PResult F64} (h : SameResult r' r) (hv : ValidResult r) :
    ArrivesAs instantResultProto (some r') (some r) := by
  cases r' with
  | scalar p =>
    have h : PResult.scalar p = r := by cases r <;> exact h
    subst h
    refine ⟨ok_one (small (by omega)), fun hl => ?_⟩
    exact step_sub (p := pointProto) (fun p => some (PResult.scalar p)) (fun _ => rfl) (point_arrives hv)
      (part_len hl (1, .bytes (pointProto.encode p)) (List.mem_cons_self ..) _ rfl)
  | vector xs' =>
    cases r with
    | vector xs =>
      refine ⟨ok_one (small (by omega)), fun hl => ?_⟩
      exact step_sub (p := vectorProto) (fun p => some (PResult.vector p)) (fun _ => rfl) (vector_arrives h hv)
        (part_len hl (2, .bytes (vectorProto.encode xs')) (List.mem_cons_self ..) _ rfl)
    | _ => exact absurd h (by simp [SameResult])
  | matrix xs' =>
    cases r with
    | matrix xs =>
      refine ⟨ok_one (small (by omega)), fun hl => ?_⟩
      exact step_sub (p := matrixProto) (fun p => some (PResult.matrix p)) (fun _ => rfl) (matrix_arrives h hv)
        (part_len hl (3, .bytes (matrixProto.encode xs')) (List.mem_cons_self ..) _ rfl)
    | _ => exact absurd h (by simp [SameResult])

theorem rangeResult_arrives {xs' xs : List (PSeries F64)} (h : List.Forall₂ SameSeries xs' xs) (hv : ∀ x ∈ xs, ValidSeries x) :
    ArrivesAs rangeResultProto (some xs') (some xs) := by
  refine ⟨ok_one (small (by omega)), fun hl => ?_⟩
  exact step_sub (p := matrixProto) some (fun _ => rfl) (matrix_arrives h hv)
    (part_len hl (1, .bytes (matrixProto.encode xs')) (List.mem_cons_self ..) _ rfl)

end LogCache
