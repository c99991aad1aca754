import Verif.Spec.EnvelopeFormat
import Verif.Props.EnvelopeJson
import Verif.Props.Float

/-! # The format of the API's answers (C113) -/

namespace LogCache
open Spec

/-! ## Base64 -/

theorem digit_char : ∀ n : Fin 64, b64Char n = base64Digit n := by decide +kernel

theorem digit_char' {n : Nat} (h : n < 64) : b64Char n = base64Digit n := digit_char ⟨n, h⟩

theorem bits_six_two : ∀ a : Fin 256, lowDigits 8 a = lowDigits 6 (a.1 / 4) ++ lowDigits 2 (a.1 % 4) := by decide +kernel

theorem bits_four_four : ∀ a : Fin 256, lowDigits 8 a = lowDigits 4 (a.1 / 16) ++ lowDigits 4 (a.1 % 16) := by decide +kernel

theorem bits_two_six : ∀ a : Fin 256, lowDigits 8 a = lowDigits 2 (a.1 / 64) ++ lowDigits 6 (a.1 % 64) := by decide +kernel

theorem bits_join_four : ∀ (x : Fin 4) (y : Fin 16), lowDigits 6 (x.1 * 16 + y.1) = lowDigits 2 x ++ lowDigits 4 y := by
  decide +kernel

theorem bits_join_two : ∀ (x : Fin 16) (y : Fin 4), lowDigits 6 (x.1 * 4 + y.1) = lowDigits 4 x ++ lowDigits 2 y := by
  decide +kernel

theorem byte_lt (a : UInt8) : a.toNat < 256 := a.toNat_lt

theorem b64Encode_spec : ∀ bs : List UInt8, IsBase64 bs (b64Encode bs)
  | [] => ⟨[], 0, 0, by simp, by decide, by decide, rfl, rfl, rfl⟩
  | [a] => by
    have ha := byte_lt a
    refine ⟨[a.toNat / 4, a.toNat % 4 * 16], 4, 2, ?_, by decide, by decide, ?_, ?_, by rw [b64Encode]; simp⟩
    · intro d hd
      simp only [List.mem_cons, List.not_mem_nil, or_false] at hd
      omega
    · have h1 := bits_six_two ⟨a.toNat, ha⟩
      have h2 := bits_join_four ⟨a.toNat % 4, by omega⟩ ⟨0, by decide⟩
      simp only [Nat.add_zero] at h1 h2
      simp only [List.flatMap_cons, List.flatMap_nil, List.append_nil, h1, h2, List.append_assoc]
      rfl
    · rw [b64Encode, digit_char' (by omega), digit_char' (by omega)]
      rfl
  | [a, b] => by
    have ha := byte_lt a
    have hb := byte_lt b
    refine ⟨[a.toNat / 4, a.toNat % 4 * 16 + b.toNat / 16, b.toNat % 16 * 4], 2, 1, ?_, by decide, by decide, ?_, ?_, by rw [b64Encode]; simp⟩
    · intro d hd
      simp only [List.mem_cons, List.not_mem_nil, or_false] at hd
      omega
    · have h1 := bits_six_two ⟨a.toNat, ha⟩
      have h2 := bits_join_four ⟨a.toNat % 4, by omega⟩ ⟨b.toNat / 16, by omega⟩
      have h3 := bits_four_four ⟨b.toNat, hb⟩
      have h4 := bits_join_two ⟨b.toNat % 16, by omega⟩ ⟨0, by decide⟩
      simp only [Nat.add_zero] at h1 h2 h3 h4
      simp only [List.flatMap_cons, List.flatMap_nil, List.append_nil, h1, h2, h3, h4, List.append_assoc]
      rfl
    · rw [b64Encode, digit_char' (by omega), digit_char' (by omega), digit_char' (by omega)]
      rfl
  | a :: b :: c :: r => by
    have ha := byte_lt a
    have hb := byte_lt b
    have hc := byte_lt c
    obtain ⟨ds, zeros, pads, i1, i2, i3, i4, i5, i6⟩ := b64Encode_spec r
    refine ⟨a.toNat / 4 :: (a.toNat % 4 * 16 + b.toNat / 16) :: (b.toNat % 16 * 4 + c.toNat / 64) ::
      c.toNat % 64 :: ds, zeros, pads, ?_, i2, i3, ?_, ?_, ?_⟩
    · intro d hd
      simp only [List.mem_cons] at hd
      rcases hd with h | h | h | h | h
      · omega
      · omega
      · omega
      · omega
      · exact i1 d h
    · have h1 := bits_six_two ⟨a.toNat, ha⟩
      have h2 := bits_join_four ⟨a.toNat % 4, by omega⟩ ⟨b.toNat / 16, by omega⟩
      have h3 := bits_four_four ⟨b.toNat, hb⟩
      have h4 := bits_join_two ⟨b.toNat % 16, by omega⟩ ⟨c.toNat / 64, by omega⟩
      have h5 := bits_two_six ⟨c.toNat, hc⟩
      simp only at h1 h2 h3 h4 h5
      simp only [List.flatMap_cons, h1, h2, h3, h4, h5, i4, List.append_assoc]
    · rw [b64Encode, digit_char' (by omega), digit_char' (by omega), digit_char' (by omega), digit_char' (by omega), i5]
      simp only [List.map_cons, List.cons_append]
    · rw [b64Encode]
      simp only [List.length_cons]
      omega

/-! ## Objects -/

theorem member_obj {fs : List (Str × Json)} {k : String} {v : Json}
    (h : (fs.filter fun f => decide (f.1 = k.toList)).map Prod.snd = [v]) : Member (.obj fs) k v := ⟨fs, rfl, h⟩

theorem noMember_obj {fs : List (Str × Json)} {k : String} (h : k.toList ∉ fs.map Prod.fst) : NoMember (.obj fs) k :=
  ⟨fs, rfl, fun _ hf hk => h (List.mem_map.2 ⟨_, hf, hk⟩)⟩

theorem mapJson_shown {α : Type} {shown : α → Json → Prop} {f : α → Json} {m : List (Str × α)}
    (h : ∀ p ∈ m, shown p.2 (f p.2)) : MapShown shown m (mapJson f m) := by
  refine ⟨_, rfl, ?_⟩
  induction m with
  | nil => exact .nil
  | cons p m ih =>
    exact .cons ⟨rfl, h p (List.mem_cons_self ..)⟩ (ih fun q hq => h q (List.mem_cons_of_mem _ hq))

theorem floatJson_shown {x : F64} (h : Binary64 x) : FloatShown x (floatJson x) := by
  cases x with
  | nan => rfl
  | inf neg => rfl
  | fin neg m e =>
    obtain ⟨_, hp⟩ := jsonFloat_read h
    have hne : parseFloat (jsonFloatText neg m e) ≠ none := by rw [hp]; simp
    rw [Ne, C96_errors, not_and_or] at hne
    rcases hne with hw | hs
    · exfalso
      rw [not_forall] at hw
      obtain ⟨x, hx⟩ := hw
      rw [not_not] at hx
      have := C96_words hx
      rw [hp] at this
      injection this with this
      subst this
      rcases hx with ⟨_, h⟩ | ⟨_, h⟩ | ⟨_, h⟩ <;> cases h
    · simp only [not_forall, not_le] at hs
      obtain ⟨neg', q, hs, hq⟩ := hs
      obtain ⟨m', e', h1, h2⟩ := C96_numbers hs hq
      rw [hp] at h1
      injection h1 with h1
      injection h1 with a b c
      subst a; subst b; subst c
      exact ⟨_, q, rfl, hs, h2⟩

theorem tagValue_shown {v : TagValue} (h : ValidTagValue v) : TagValueShown v (tagValueJson v) := by
  cases v with
  | unset => rfl
  | text s => exact member_obj rfl
  | integer n =>
    show Member (.obj [("integer".toList, .str (formatInt n))]) _ _
    rw [formatInt_eq]
    exact member_obj rfl
  | decimal x => exact ⟨_, member_obj rfl, floatJson_shown h⟩

theorem formatInt_nat (n : Nat) : formatInt n = dec n := by
  rw [formatInt_eq]
  unfold decInt
  rw [if_neg (by omega)]
  rfl

/-- The members of an envelope in JSON. -/
theorem envelope_shown {e : WireEnvelope} (h : ValidEnvelope e) : EnvelopeShown e (wireEnvelopeJson e) := by
  obtain ⟨_, _, h3, _, h5⟩ := h
  have key : ∀ (j1 j2 j3 j4 j5 : Json) (m : Option (Str × Json)),
      (∀ p, m = some p → p.1 ∈ ["log".toList, "counter".toList, "gauge".toList, "timer".toList, "event".toList]) →
      ∀ j, j = Json.obj ([("timestamp".toList, j1), ("source_id".toList, j2), ("instance_id".toList, j3),
        ("deprecated_tags".toList, j4), ("tags".toList, j5)] ++ m.toList) →
      Member j "timestamp" j1 ∧ Member j "source_id" j2 ∧ Member j "instance_id" j3 ∧ Member j "deprecated_tags" j4 ∧
        Member j "tags" j5 ∧ (m = none → ∀ n ∈ messageNames, NoMember j n) ∧
        ∀ n v, m = some (n.toList, v) → OnlyMember j n v := by
    rintro j1 j2 j3 j4 j5 m hm j rfl
    have hfil : ∀ k ∈ ["timestamp", "source_id", "instance_id", "deprecated_tags", "tags"],
        m.toList.filter (fun f : Str × Json => decide (f.1 = k.toList)) = [] := by
      intro k hk
      cases m with
      | none => rfl
      | some p =>
        have h1 := hm p rfl
        have h2 : ∀ k ∈ ["timestamp", "source_id", "instance_id", "deprecated_tags", "tags"],
          ∀ x ∈ ["log".toList, "counter".toList, "gauge".toList, "timer".toList, "event".toList], ¬ x = k.toList := by decide
        simp [h2 k hk p.1 h1]
    refine ⟨member_obj ?_, member_obj ?_, member_obj ?_, member_obj ?_, member_obj ?_, ?_, ?_⟩
    iterate 5 (rw [List.filter_append, hfil _ (by simp), List.append_nil]; rfl)
    · rintro rfl n hn
      apply noMember_obj
      revert n
      show ∀ n ∈ messageNames, n.toList ∉ ["timestamp".toList, "source_id".toList, "instance_id".toList,
        "deprecated_tags".toList, "tags".toList]
      decide
    · rintro n v rfl
      have hn := hm _ rfl
      simp only at hn
      refine ⟨member_obj ?_, ?_⟩
      · rw [List.filter_append, List.map_append]
        have h1 : ([("timestamp".toList, j1), ("source_id".toList, j2), ("instance_id".toList, j3),
            ("deprecated_tags".toList, j4), ("tags".toList, j5)].filter fun f : Str × Json => decide (f.1 = n.toList)) = [] := by
          rw [List.filter_eq_nil_iff]
          intro f hf
          have hf1 : f.1 ∈ ["timestamp".toList, "source_id".toList, "instance_id".toList, "deprecated_tags".toList,
            "tags".toList] := List.mem_map.2 ⟨f, hf, rfl⟩
          have h2 : ∀ k ∈ ["timestamp".toList, "source_id".toList, "instance_id".toList, "deprecated_tags".toList,
            "tags".toList], ∀ x ∈ ["log".toList, "counter".toList, "gauge".toList, "timer".toList, "event".toList],
            ¬ k = x := by decide
          simpa using h2 _ hf1 _ hn
        rw [h1]
        simp
      · intro k hk hkn
        apply noMember_obj
        intro hin
        rw [List.map_append, List.mem_append] at hin
        rcases hin with hin | hin
        · have h2 : ∀ k ∈ messageNames, ¬ k.toList ∈ ["timestamp".toList, "source_id".toList, "instance_id".toList,
            "deprecated_tags".toList, "tags".toList] := by decide
          exact h2 k hk hin
        · simp only [Option.toList_some, List.map_cons, List.map_nil, List.mem_singleton] at hin
          exact hkn (String.toList_inj.1 hin)
  have hmem : ∀ p, e.message.map wireMessageJson = some p →
      p.1 ∈ ["log".toList, "counter".toList, "gauge".toList, "timer".toList, "event".toList] := by
    intro p hp
    rw [Option.map_eq_some_iff] at hp
    obtain ⟨m, -, rfl⟩ := hp
    cases m <;> simp [wireMessageJson]
  obtain ⟨k1, k2, k3, k4, k5, k6, k7⟩ := key _ _ _ _ _ _ hmem (wireEnvelopeJson e) rfl
  have hi : intJson e.timestamp = .str (decInt e.timestamp) := by unfold intJson; rw [formatInt_eq]
  rw [hi] at k1
  refine ⟨k1, k2, k3, ⟨_, k4, mapJson_shown fun p hp => tagValue_shown (h3 p hp)⟩,
    ⟨_, k5, mapJson_shown fun p _ => rfl⟩, ?_⟩
  cases hm : e.message with
  | none => exact k6 (by rw [hm]; rfl)
  | some m =>
    rw [hm] at k7
    have hv := h5 m hm
    cases m with
    | log p t =>
      refine ⟨_, k7 "log" _ rfl, ?_, ?_⟩
      · cases p with
        | none => exact member_obj rfl
        | some bs => exact ⟨_, member_obj rfl, b64Encode_spec bs⟩
      · refine ⟨_, member_obj rfl, ?_, ?_, ?_⟩
        · rintro rfl; rfl
        · rintro rfl; rfl
        · intro h0 h1
          unfold logTypeJson
          rw [if_neg h0, if_neg h1, formatInt_eq]
    | counter n d t =>
      refine ⟨_, k7 "counter" _ rfl, member_obj rfl, ?_, ?_⟩
      · unfold intJson
        rw [formatInt_nat]
        exact member_obj rfl
      · unfold intJson
        rw [formatInt_nat, formatInt_nat]
        exact member_obj rfl
    | gauge ms =>
      refine ⟨_, _, k7 "gauge" _ rfl, member_obj rfl, mapJson_shown fun p hp => ?_⟩
      exact ⟨member_obj rfl, _, member_obj rfl, floatJson_shown (hv.2 p hp)⟩
    | timer n a b =>
      refine ⟨_, k7 "timer" _ rfl, member_obj rfl, ?_, ?_⟩
      · unfold intJson
        rw [formatInt_eq]
        exact member_obj rfl
      · unfold intJson
        rw [formatInt_eq, formatInt_eq]
        exact member_obj rfl
    | event t b => exact ⟨_, k7 "event" _ rfl, member_obj rfl, member_obj rfl⟩

/-- The answer to a read is a JSON document in the documented format, whatever the envelopes
are: each value is under the name of its field, integers are decimal text, bytes are
base64, enumerations are names, and floats are numbers. -/
theorem C113_format (es : List WireEnvelope) (h : ∀ e ∈ es, ValidEnvelope e) :
    ∃ j, JsonDoc j (readAnswerText (some es)) ∧ ReadShown es j := by
  refine ⟨_, (C113_document (some es) (by rintro es' ⟨rfl⟩; exact h) []).1, _, es.map wireEnvelopeJson,
    member_obj rfl, member_obj rfl, ?_⟩
  induction es with
  | nil => exact .nil
  | cons e es ih =>
    exact .cons (envelope_shown (h e (List.mem_cons_self ..))) (ih fun x hx => h x (List.mem_cons_of_mem _ hx))

/-- So is the meta information. -/
theorem C113_meta_format (m : List (Str × WireMeta)) :
    ∃ j v, JsonDoc j (metaAnswerText m) ∧ Member j "meta" v ∧ MapShown MetaShown m v := by
  refine ⟨_, _, (C113_document none (by rintro es' ⟨⟩) m).2, member_obj rfl, mapJson_shown fun p _ => ?_⟩
  unfold wireMetaJson intJson
  simp only [formatInt_eq]
  exact ⟨member_obj rfl, member_obj rfl, member_obj rfl, member_obj rfl⟩

example : ∃ j, JsonDoc j (readAnswerText (some sampleEnvelopes)) ∧ ReadShown sampleEnvelopes j :=
  C113_format _ sample_valid

example : IsBase64 [77, 97] "TWE=".toList := b64Encode_spec [77, 97]

end LogCache
