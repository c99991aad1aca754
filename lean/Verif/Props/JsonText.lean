import Verif.Proof.JsonText
import Verif.Props.Marshal
import Verif.Props.Client
import Verif.Proof.Door

/-! # Query results as text (C76, C93), the information endpoint (C106) -/

namespace LogCache
open Spec
variable {F : Type}

private theorem skip_blank (ws s : Str) (h : Blank ws) : skipSpace (ws ++ s) = skipSpace s := by
  unfold skipSpace
  induction ws with
  | nil => rfl
  | cons c ws ih =>
    have hc : jsonSpace c = true := by
      unfold jsonSpace
      rcases h c (.head _) with rfl | rfl | rfl | rfl <;> decide
    rw [List.cons_append, List.dropWhile_cons, if_pos hc]
    exact ih fun x hx => h x (.tail _ hx)

private theorem readValue_skip (n : Nat) (s t : Str) (h : skipSpace s = skipSpace t) : readValue n s = readValue n t := by
  cases n with
  | zero => rfl
  | succ n => rw [readValue.eq_def, readValue.eq_def]; simp only; rw [h]

private theorem blank_end (ws : Str) (h : Blank ws) : NumEnd ws := by
  cases ws with
  | nil => trivial
  | cons c ws => rcases h c (.head _) with rfl | rfl | rfl | rfl <;> exact ⟨by decide, by decide, by decide, by decide⟩

/-- The text of a JSON document is read as that document by `Unmarshal`, and by a decoder
whatever follows on the next line; white space before it does not matter. -/
theorem C76_json {j : Json} (h : JsonOk j) (before after : Str) (hb : Blank before) :
    (Blank after → unmarshalJson (before ++ j.text ++ after) = some j) ∧
    decodeJson (before ++ j.line ++ after) = some j := by
  have hs := steps_le j h
  constructor
  · intro ha
    unfold unmarshalJson
    rw [readValue_skip _ _ (j.text ++ after) (by rw [List.append_assoc, skip_blank _ _ hb]),
      readValue_text j _ after (by simp only [List.length_append]; omega) h (blank_end _ ha)]
    simp only
    have := skip_blank after [] ha
    rw [List.append_nil] at this
    rw [this]
    rfl
  · unfold decodeJson Json.line
    rw [readValue_skip _ _ (j.text ++ '\n' :: after) (by rw [List.append_assoc, skip_blank _ _ hb]; simp),
      readValue_text j _ ('\n' :: after) (by simp only [List.length_append]; omega) h
        ⟨by decide, by decide, by decide, by decide⟩]
    rfl

/-! ## Results -/

private theorem traverse_elems {α : Type} (f : α → Option Json) (hf : ∀ a j, f a = some j → JsonOk j) :
    ∀ (l : List α) (js : List Json), traverse f l = some js → ElemsOk js := by
  intro l
  induction l with
  | nil => intro js h; cases h; trivial
  | cons a l ih =>
    intro js h
    rw [traverse] at h
    cases h1 : f a with
    | none => rw [h1] at h; cases h
    | some y =>
      rw [h1] at h
      cases h2 : traverse f l with
      | none => rw [h2] at h; cases h
      | some ys =>
        rw [h2] at h
        cases h
        rw [ElemsOk]
        exact ⟨hf a y h1, ih ys h2⟩

private theorem point_ok (fl : FloatLib F) (p : PPoint F) (j : Json) (h : assemblePoint fl p = some j) : JsonOk j := by
  unfold assemblePoint at h
  split at h
  · cases h
  · split at h
    · rename_i hv
      cases h
      simp only [JsonOk, ElemsOk, and_true]
      exact (validNumber_iff _).1 hv
    · cases h

private theorem metric_ok (m : List (Str × Str)) : JsonOk (assembleMetric m) := by
  unfold assembleMetric
  rw [JsonOk]
  induction m with
  | nil => trivial
  | cons a m ih => rw [List.map_cons, MembersOk]; exact ⟨by simp [JsonOk], ih⟩

private theorem sample_ok (fl : FloatLib F) (s : PSample F) (j : Json) (h : assembleSample fl s = some j) : JsonOk j := by
  unfold assembleSample at h
  split at h
  · cases h
  · rename_i p hp
    cases h
    simp only [JsonOk, MembersOk, and_true]
    exact ⟨metric_ok _, point_ok fl _ _ hp⟩

private theorem series_ok (fl : FloatLib F) (s : PSeries F) (j : Json) (h : assembleSeries fl s = some j) : JsonOk j := by
  unfold assembleSeries at h
  split at h
  · cases h
  · cases h
    simp only [JsonOk, MembersOk, and_true]
    exact metric_ok _
  · rename_i ps hne hp
    cases h
    simp only [JsonOk, MembersOk, and_true]
    exact ⟨metric_ok _, traverse_elems _ (point_ok fl) _ _ hp⟩

/-- What is marshalled is a JSON document. -/
theorem marshal_ok (fl : FloatLib F) (r : Option (PResult F)) (j : Json) (h : marshalResult fl r = some j) : JsonOk j := by
  unfold marshalResult at h
  cases hd : assembleData fl r with
  | none => rw [hd] at h; cases h
  | some d =>
    rw [hd] at h
    cases h
    simp only [JsonOk, MembersOk, and_true, true_and]
    unfold assembleData at hd
    split at hd
    · cases hd; simp [JsonOk, MembersOk]
    · rw [Option.map_eq_some_iff] at hd
      obtain ⟨p, h1, rfl⟩ := hd
      simp only [JsonOk, MembersOk, and_true, true_and]
      exact point_ok fl _ _ h1
    · rw [Option.map_eq_some_iff] at hd
      obtain ⟨p, h1, rfl⟩ := hd
      simp only [JsonOk, MembersOk, and_true, true_and]
      exact traverse_elems _ (sample_ok fl) _ _ h1
    · rw [Option.map_eq_some_iff] at hd
      obtain ⟨p, h1, rfl⟩ := hd
      simp only [JsonOk, MembersOk, and_true, true_and]
      exact traverse_elems _ (series_ok fl) _ _ h1

/-- Reading the text of a result is reading the result. -/
theorem text_read (fl : FloatLib F) {r : Option (PResult F)} {j : Json} (h : marshalResult fl r = some j)
    (un : Json → Option (PResult F)) (after : Str) :
    marshalText fl r = some j.line ∧ decodeText un (j.line ++ after) = un j ∧ unmarshalText un j.line = un j := by
  have hj := marshal_ok fl r j h
  have hc := C76_json hj [] after (fun _ h => nomatch h)
  have hc' := C76_json hj [] ['\n'] (fun _ h => nomatch h)
  refine ⟨by unfold marshalText; rw [h]; rfl, ?_, ?_⟩
  · unfold decodeText; rw [show j.line ++ after = [] ++ j.line ++ after from rfl, hc.2]; rfl
  · unfold unmarshalText Json.line
    rw [show j.text ++ ['\n'] = [] ++ j.text ++ ['\n'] from rfl,
      hc'.1 (fun c hc => .inr (.inr (.inr (by simpa using hc))))]
    rfl

/-- A result whose times have three decimals arrives unchanged as text, for all label
names and values and any number of series and points: with the decoder, whatever
follows, and with `Unmarshal`. -/
theorem C76_text {fl : FloatLib F} (hl : FloatLaws fl) (r : PResult F)
    (h : ∀ p ∈ points r, ThreeDecimals fl p.time) :
    ∃ t, marshalText fl (some r) = some t ∧
      (∀ after, decodeText (unmarshalInstant fl) (t ++ after) = some r) ∧
      unmarshalText (unmarshalInstant fl) t = some r ∧
      ((∃ ss, r = .matrix ss) → (∀ after, decodeText (unmarshalRange fl) (t ++ after) = some r) ∧
        unmarshalText (unmarshalRange fl) t = some r) := by
  obtain ⟨j, h1, h2, h3⟩ := C76_exact hl r h
  refine ⟨j.line, (text_read fl h1 (unmarshalInstant fl) []).1, fun after => ?_, ?_, fun hm => ⟨fun after => ?_, ?_⟩⟩
  · rw [(text_read fl h1 _ after).2.1, h2]
  · rw [(text_read fl h1 _ []).2.2, h2]
  · rw [(text_read fl h1 _ after).2.1, h3 hm]
  · rw [(text_read fl h1 _ []).2.2, h3 hm]

/-! ### One line without special characters -/

/-- Characters that need no care: no control characters, and none that HTML knows. -/
def Tame (c : Char) : Prop := 32 ≤ c.toNat ∧ c ≠ '<' ∧ c ≠ '>' ∧ c ≠ '&'

private theorem hex_tame : ∀ n : Fin 16, Tame (hexDigit n) := by
  intro n
  refine ⟨?_, ?_, ?_, ?_⟩ <;> revert n <;> decide

private theorem char_tame (c : Char) : ∀ x ∈ jsonChar c, Tame x := by
  have b : ∀ x : Char, x = '\\' ∨ x = 'n' ∨ x = 'r' ∨ x = 't' ∨ x = 'u' ∨ x = '0' ∨ x = '2' ∨ x = '"' → Tame x := by
    intro x hx
    rcases hx with rfl | rfl | rfl | rfl | rfl | rfl | rfl | rfl <;> exact ⟨by decide, by decide, by decide, by decide⟩
  unfold jsonChar
  by_cases h1 : c = '"' ∨ c = '\\'
  · rw [if_pos h1]; intro x hx; simp only [List.mem_cons, List.not_mem_nil, or_false] at hx
    rcases hx with rfl | rfl
    · exact b _ (by simp)
    · exact b _ (by rcases h1 with rfl | rfl <;> simp)
  rw [if_neg h1]
  by_cases h2 : c = '\n'
  · rw [if_pos h2]; intro x hx; simp only [List.mem_cons, List.not_mem_nil, or_false] at hx
    exact b _ (by rcases hx with rfl | rfl <;> simp)
  rw [if_neg h2]
  by_cases h3 : c = '\r'
  · rw [if_pos h3]; intro x hx; simp only [List.mem_cons, List.not_mem_nil, or_false] at hx
    exact b _ (by rcases hx with rfl | rfl <;> simp)
  rw [if_neg h3]
  by_cases h4 : c = '\t'
  · rw [if_pos h4]; intro x hx; simp only [List.mem_cons, List.not_mem_nil, or_false] at hx
    exact b _ (by rcases hx with rfl | rfl <;> simp)
  rw [if_neg h4]
  by_cases h5 : c.toNat < 32 ∨ c = '<' ∨ c = '>' ∨ c = '&'
  · rw [if_pos h5]
    have hlt : c.toNat < 256 := by
      rcases h5 with h | rfl | rfl | rfl
      · omega
      · decide
      · decide
      · decide
    intro x hx
    simp only [List.mem_cons, List.not_mem_nil, or_false] at hx
    rcases hx with h | h | h | h | h | h
    · exact b _ (by simp [h])
    · exact b _ (by simp [h])
    · exact b _ (by simp [h])
    · exact b _ (by simp [h])
    · rw [h]; exact hex_tame ⟨c.toNat / 16, by omega⟩
    · rw [h]; exact hex_tame ⟨c.toNat % 16, by omega⟩
  rw [if_neg h5]
  by_cases h6 : c.toNat = 0x2028 ∨ c.toNat = 0x2029
  · rw [if_pos h6]
    intro x hx
    simp only [List.mem_cons, List.not_mem_nil, or_false] at hx
    rcases hx with h | h | h | h | h | h
    · exact b _ (by simp [h])
    · exact b _ (by simp [h])
    · exact b _ (by simp [h])
    · exact b _ (by simp [h])
    · exact b _ (by simp [h])
    · rw [h]; exact hex_tame ⟨c.toNat % 16, by omega⟩
  rw [if_neg h6]
  intro x hx
  rw [List.mem_singleton.1 hx]
  refine ⟨?_, fun h => h5 (.inr (.inl h)), fun h => h5 (.inr (.inr (.inl h))), fun h => h5 (.inr (.inr (.inr h)))⟩
  exact Nat.le_of_not_lt fun h => h5 (.inl h)

private theorem tail_tame (s : Str) : ∀ x ∈ jsonTail s, Tame x := by
  induction s with
  | nil => intro x hx; rw [List.mem_singleton.1 hx]; exact ⟨by decide, by decide, by decide, by decide⟩
  | cons c s ih =>
    intro x hx
    rw [jsonTail, List.mem_append] at hx
    exact hx.elim (char_tame c x) (ih x)

private theorem digit_tame {c : Char} (h : isDigit c = true) : Tame c := by
  have h0 : digitVal c ≠ none := by
    unfold isDigit at h; intro h'; rw [h'] at h; cases h
  refine ⟨?_, ?_, ?_, ?_⟩
  · unfold digitVal at h0
    split at h0
    · rename_i hc
      have : '0'.toNat ≤ c.toNat := hc.1
      have e : '0'.toNat = 48 := by decide
      omega
    · exact absurd rfl h0
  all_goals (rintro rfl; revert h; decide)

private theorem digits_tame {s : Str} (h : s.all isDigit = true) : ∀ x ∈ s, Tame x :=
  fun x hx => digit_tame (List.all_eq_true.1 h x hx)

private theorem dot_tame : Tame '.' := ⟨by decide, by decide, by decide, by decide⟩

private theorem run_tame {s : Str} (h : DigitRun s) : ∀ x ∈ s, Tame x :=
  fun x hx => digit_tame (by
    have := h.2 x hx
    unfold isDigit digitVal
    rw [if_pos (show '0'.toNat ≤ x.toNat ∧ x.toNat ≤ '9'.toNat from this)]; rfl)

private theorem number_tame {s : Str} (h : NumText s) : ∀ x ∈ s, Tame x := by
  obtain ⟨sg, w, f, e, rfl, hs, hw, hf, he⟩ := h
  intro x hx
  simp only [List.mem_append] at hx
  rcases hx with ((hx | hx) | hx) | hx
  · rcases hs with rfl | rfl
    · cases hx
    · rw [List.mem_singleton] at hx; subst hx; exact ⟨by decide, by decide, by decide, by decide⟩
  · rcases hw with rfl | hw
    · rw [List.mem_singleton] at hx; subst hx; exact ⟨by decide, by decide, by decide, by decide⟩
    · exact run_tame hw.1 x hx
  · rcases hf with rfl | ⟨d, hd, rfl⟩
    · cases hx
    · rcases List.mem_cons.1 hx with rfl | hx
      · exact dot_tame
      · exact run_tame hd x hx
  · rcases he with rfl | ⟨c, g, d, hc, hg, hd, rfl⟩
    · cases hx
    · rcases List.mem_cons.1 hx with rfl | hx
      · rcases hc with rfl | rfl <;> exact ⟨by decide, by decide, by decide, by decide⟩
      · rcases List.mem_append.1 hx with hx | hx
        · rcases hg with rfl | rfl | rfl
          · cases hx
          all_goals (rw [List.mem_singleton] at hx; subst hx; exact ⟨by decide, by decide, by decide, by decide⟩)
        · exact run_tame hd x hx

private theorem lit_tame (s : Str) (h : s.all (fun c => decide (32 ≤ c.toNat) && c ≠ '<' && c ≠ '>' && c ≠ '&') = true) :
    ∀ x ∈ s, Tame x := by
  intro x hx
  have := List.all_eq_true.1 h x hx
  simp only [Bool.and_eq_true, decide_eq_true_eq, ne_eq, decide_not, Bool.not_eq_true', decide_eq_false_iff_not] at this
  exact ⟨this.1.1.1, this.1.1.2, this.1.2, this.2⟩

private theorem cons_tame {c : Char} {s : Str} (hc : Tame c) (hs : ∀ x ∈ s, Tame x) : ∀ x ∈ c :: s, Tame x := by
  intro x hx
  rcases List.mem_cons.1 hx with rfl | hx
  · exact hc
  · exact hs x hx

private theorem append_tame {s t : Str} (hs : ∀ x ∈ s, Tame x) (ht : ∀ x ∈ t, Tame x) : ∀ x ∈ s ++ t, Tame x :=
  fun x hx => (List.mem_append.1 hx).elim (hs x) (ht x)

mutual
private theorem text_tame : ∀ j : Json, JsonOk j → ∀ x ∈ j.text, Tame x
  | .null, _ => by rw [Json.text]; exact lit_tame _ (by decide)
  | .bool true, _ => by rw [Json.text]; exact lit_tame _ (by decide)
  | .bool false, _ => by rw [Json.text]; exact lit_tame _ (by decide)
  | .num t, h => by rw [JsonOk] at h; rw [Json.text]; exact number_tame h
  | .str s, _ => by rw [Json.text]; exact cons_tame ⟨by decide, by decide, by decide, by decide⟩ (tail_tame s)
  | .arr [], _ => by rw [Json.text]; exact lit_tame _ (by decide)
  | .arr (x :: xs), h => by
    rw [JsonOk, ElemsOk] at h
    rw [Json.text]
    exact cons_tame ⟨by decide, by decide, by decide, by decide⟩ (append_tame (text_tame x h.1) (elems_tame xs h.2))
  | .obj [], _ => by rw [Json.text]; exact lit_tame _ (by decide)
  | .obj ((k, v) :: fs), h => by
    rw [JsonOk, MembersOk] at h
    rw [Json.text]
    exact cons_tame ⟨by decide, by decide, by decide, by decide⟩ (cons_tame ⟨by decide, by decide, by decide, by decide⟩
      (append_tame (tail_tame k) (cons_tame ⟨by decide, by decide, by decide, by decide⟩
        (append_tame (text_tame v h.1) (members_tame fs h.2)))))
private theorem elems_tame : ∀ xs : List Json, ElemsOk xs → ∀ x ∈ textElems xs, Tame x
  | [], _ => by rw [textElems]; exact lit_tame _ (by decide)
  | x :: xs, h => by
    rw [ElemsOk] at h
    rw [textElems]
    exact cons_tame ⟨by decide, by decide, by decide, by decide⟩ (append_tame (text_tame x h.1) (elems_tame xs h.2))
private theorem members_tame : ∀ fs : List (Str × Json), MembersOk fs → ∀ x ∈ textMembers fs, Tame x
  | [], _ => by rw [textMembers]; exact lit_tame _ (by decide)
  | (k, v) :: fs, h => by
    rw [MembersOk] at h
    rw [textMembers]
    exact cons_tame ⟨by decide, by decide, by decide, by decide⟩ (cons_tame ⟨by decide, by decide, by decide, by decide⟩
      (append_tame (tail_tame k) (cons_tame ⟨by decide, by decide, by decide, by decide⟩
        (append_tame (text_tame v h.1) (members_tame fs h.2)))))
end

/-- A result is one line of text, whatever its labels contain, and it holds nothing HTML
would take for markup. -/
theorem C76_line (fl : FloatLib F) (r : Option (PResult F)) (t : Str) (h : marshalText fl r = some t) :
    ∃ l, t = l ++ ['\n'] ∧ '\n' ∉ l ∧ '<' ∉ l ∧ '>' ∉ l ∧ '&' ∉ l := by
  unfold marshalText at h
  rw [Option.map_eq_some_iff] at h
  obtain ⟨j, hj, rfl⟩ := h
  have ht := text_tame j (marshal_ok fl r j hj)
  refine ⟨j.text, rfl, fun h => ?_, fun h => (ht _ h).2.1 rfl, fun h => (ht _ h).2.2.1 rfl, fun h => (ht _ h).2.2.2 rfl⟩
  exact absurd (ht _ h).1 (by decide)

/-- A document with everything in it that needs care. -/
example : JsonOk (.obj [("a<b".toList, .arr [.num "-1.500".toList, .str "x\n\"\\".toList, .null, .bool true, .arr [], .obj []])]) ∧
    (Json.obj [("a<b".toList, .arr [.num "-1.500".toList, .str "x\n\"\\".toList, .null])]).text =
      "{\"a\\u003cb\":[-1.500,\"x\\n\\\"\\\\\",null]}".toList := by
  constructor
  · simp only [JsonOk, MembersOk, ElemsOk, and_true, true_and]; rw [← validNumber_iff]; decide
  · decide

/-! ## The information endpoint (C106) -/

private theorem units_plain (v : Str) (h : PlainText v) (r : Str) :
    readUnits (v ++ '"' :: r) = some (v.map .lit, r) := by
  induction v with
  | nil => rw [List.nil_append, readUnits.eq_def]; rfl
  | cons c v ih =>
    have hc := h c (.head _)
    rw [List.cons_append, readUnits.eq_def]
    simp only
    rw [if_neg hc.2.1, if_neg hc.2.2, if_neg (Nat.not_lt.2 hc.1), ih fun x hx => h x (.tail _ hx)]
    rfl

private theorem join_lit (v : Str) : joinUnits (v.map .lit) = v := by
  induction v with
  | nil => rfl
  | cons c v ih => rw [List.map_cons, joinUnits, ih]

private theorem str_plain (v : Str) (h : PlainText v) (r : Str) : readJsonStr (v ++ '"' :: r) = some (v, r) := by
  unfold readJsonStr
  rw [units_plain v h]
  simp only [Option.map_some, join_lit]

private theorem plain_lit (s : Str) (h : s.all (fun c => decide (32 ≤ c.toNat) && c ≠ '"' && c ≠ '\\') = true) : PlainText s := by
  intro x hx
  have := List.all_eq_true.1 h x hx
  simp only [Bool.and_eq_true, decide_eq_true_eq, ne_eq, decide_not, Bool.not_eq_true', decide_eq_false_iff_not] at this
  exact ⟨this.1.1, this.1.2, this.2⟩

private theorem value_plain (n : Nat) (v : Str) (h : PlainText v) (r : Str) :
    readValue (n + 1) ('"' :: (v ++ '"' :: r)) = some (.str v, r) := by
  rw [readValue.eq_def]
  simp only
  rw [show skipSpace ('"' :: (v ++ '"' :: r)) = '"' :: (v ++ '"' :: r) from rfl]
  simp only
  rw [if_pos trivial, str_plain v h]
  rfl

private theorem member_plain (n : Nat) (k v : Str) (hk : PlainText k) (hv : PlainText v) (r : Str) :
    readMember (n + 2) ('"' :: (k ++ '"' :: ':' :: '"' :: (v ++ '"' :: r))) = some ((k, .str v), r) := by
  rw [readMember.eq_def]
  simp only
  rw [show skipSpace ('"' :: (k ++ '"' :: ':' :: '"' :: (v ++ '"' :: r))) = '"' :: (k ++ '"' :: ':' :: '"' :: (v ++ '"' :: r)) from rfl]
  simp only
  rw [if_pos trivial, str_plain k hk]
  simp only
  rw [show skipSpace (':' :: '"' :: (v ++ '"' :: r)) = ':' :: '"' :: (v ++ '"' :: r) from rfl]
  simp only
  rw [if_pos trivial, value_plain n v hv]
  rfl

private theorem int_plain (n : Int) : PlainText (formatInt n) := by
  intro c hc
  have := formatInt_chars n c hc
  have hp : PlainText "-0123456789".toList := plain_lit _ (by decide)
  exact hp c this

theorem info_read (v : Str) (n : Int) (h : PlainText v) (after : Str) :
    decodeJson (infoText v n ++ after) = some (.obj [("version".toList, .str v), ("vm_uptime".toList, .str (formatInt n))]) := by
  have e : infoText v n ++ after = '{' :: '"' :: ("version".toList ++ '"' :: ':' :: '"' :: (v ++ '"' ::
      (',' :: '"' :: ("vm_uptime".toList ++ '"' :: ':' :: '"' :: (formatInt n ++ '"' :: ('}' :: '\n' :: after)))))) := by
    unfold infoText; simp [List.append_assoc]
  have hlen : 6 ≤ (infoText v n ++ after).length := by
    rw [e]; simp only [List.length_cons, List.length_append]; omega
  unfold decodeJson
  obtain ⟨m, hm⟩ : ∃ m, (infoText v n ++ after).length + 1 = m + 6 := ⟨(infoText v n ++ after).length - 5, by omega⟩
  rw [hm, e, readValue.eq_def]
  simp only
  rw [show skipSpace ('{' :: '"' :: ("version".toList ++ '"' :: ':' :: '"' :: (v ++ '"' ::
      (',' :: '"' :: ("vm_uptime".toList ++ '"' :: ':' :: '"' :: (formatInt n ++ '"' :: ('}' :: '\n' :: after))))))) =
    '{' :: '"' :: ("version".toList ++ '"' :: ':' :: '"' :: (v ++ '"' ::
      (',' :: '"' :: ("vm_uptime".toList ++ '"' :: ':' :: '"' :: (formatInt n ++ '"' :: ('}' :: '\n' :: after)))))) from rfl]
  generalize hk : "version".toList = k
  generalize hk' : "vm_uptime".toList = k'
  have pk : PlainText k := hk ▸ plain_lit _ (by decide)
  have pk' : PlainText k' := hk' ▸ plain_lit _ (by decide)
  simp only
  rw [if_neg (by decide), if_neg (by decide), if_pos trivial]
  rw [show skipSpace ('"' :: (k ++ '"' :: ':' :: '"' :: (v ++ '"' ::
      (',' :: '"' :: (k' ++ '"' :: ':' :: '"' :: (formatInt n ++ '"' :: ('}' :: '\n' :: after))))))) =
    '"' :: (k ++ '"' :: ':' :: '"' :: (v ++ '"' ::
      (',' :: '"' :: (k' ++ '"' :: ':' :: '"' :: (formatInt n ++ '"' :: ('}' :: '\n' :: after)))))) from rfl]
  simp only
  rw [if_neg (by decide), member_plain (m + 3) k v pk h]
  simp only
  rw [readMembers.eq_def]
  simp only
  rw [show skipSpace (',' :: '"' :: (k' ++ '"' :: ':' :: '"' :: (formatInt n ++ '"' :: ('}' :: '\n' :: after)))) =
    ',' :: '"' :: (k' ++ '"' :: ':' :: '"' :: (formatInt n ++ '"' :: ('}' :: '\n' :: after))) from rfl]
  simp only
  rw [if_neg (by decide), if_pos trivial, member_plain (m + 2) k' _ pk' (int_plain n)]
  simp only
  rw [readMembers.eq_def]
  simp only
  rw [show skipSpace ('}' :: '\n' :: after) = '}' :: '\n' :: after from rfl]
  simp only
  rw [if_pos trivial]
  rfl

/-- The client library sees the version and the uptime that the gateway has, for every
version without quotes, backslashes and control characters and every uptime. -/
theorem C106_info {v : Str} (hv : PlainText v) {n : Int} (hn : FitsInt64 n) (parse : Str → Option Semver) :
    logCacheVersion parse (infoAns v n "version") = parse v ∧ vmUptime (infoAns v n "vm_uptime") = (n, true) := by
  have h := info_read v n hv []
  rw [List.append_nil] at h
  have h1 : decodeField "version" (infoText v n) = some v := by
    unfold decodeField; rw [h]; rfl
  have h2 : decodeField "vm_uptime" (infoText v n) = some (formatInt n) := by
    unfold decodeField; rw [h]; rfl
  unfold infoAns
  rw [h1, h2]
  refine ⟨rfl, ?_⟩
  unfold vmUptime
  simp only
  rw [if_neg (by decide), parse_format hn, if_neg]
  intro he
  have := parse_format hn
  rw [he] at this
  cases this

/-- So a read goes to the path that the gateway's version has. -/
theorem C106_read {v : Str} (hv : PlainText v) (n : Int) (parse : Str → Option Semver) (ans : HttpAns (List Envelope))
    (sourceId : Str) (start : Int) (opts : List ReadOpt) :
    (∀ w, parse v = some w → (httpRead parse (infoAns v n "version") ans sourceId start opts).1 =
      [{ path := "/api/v1/info".toList },
       { path := (if w.major < 2 ∨ w = ⟨2, 0, 0, true⟩ then "/v1/read/".toList else "/api/v1/read/".toList) ++ sourceId,
         params := httpReadParams start opts }]) ∧
    (parse v = none → httpRead parse (infoAns v n "version") ans sourceId start opts =
      ([{ path := "/api/v1/info".toList }], none)) := by
  have h := info_read v n hv []
  rw [List.append_nil] at h
  have h1 : infoAns v n "version" = .resp 200 (some v) := by
    unfold infoAns decodeField; rw [h]; rfl
  rw [h1]
  obtain ⟨reads, e1, e2, -, e4, e5⟩ := C51_path parse (.resp 200 (some v)) ans sourceId start opts
  constructor
  · intro w hw
    rw [e1, e2 v w rfl hw]
  · intro hw
    have hr : reads = [] := Classical.byContradiction fun hne => by
      rcases e4 hne with ⟨s, w, hs, hp⟩ | ⟨b, hb⟩
      · cases hs; rw [hw] at hp; cases hp
      · cases hb
    have h2 : (httpRead parse (.resp 200 (some v)) ans sourceId start opts).2 = none := by
      cases hx : (httpRead parse (.resp 200 (some v)) ans sourceId start opts).2 with
      | none => rfl
      | some es => exact absurd hr ((e5 es).1 hx).1
    rw [hr] at e1
    exact Prod.ext e1 h2

/-- The version is not escaped: with a quote in it there is no answer, not even for the
uptime, and with a backslash the client sees another version. -/
theorem C106_escape_false :
    decodeField "version" (infoText "2.1.0-\"x".toList 5) = none ∧
    decodeField "vm_uptime" (infoText "2.1.0-\"x".toList 5) = none ∧
    decodeField "version" (infoText "a\\tb".toList 5) = some "a\tb".toList := by
  refine ⟨by decide +kernel, by decide +kernel, by decide +kernel⟩

/-- A release. -/
example : PlainText "2.3.1".toList ∧ FitsInt64 86400 := ⟨plain_lit _ (by decide), by decide, by decide⟩

end LogCache
