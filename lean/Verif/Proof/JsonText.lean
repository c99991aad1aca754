import Verif.Spec.JsonText
import Verif.Proof.JsonNumber

/-! # Reading what was written -/

namespace LogCache
open Spec

/-! ## Strings -/

private theorem hexVal_hexDigit : ∀ n : Fin 16, hexVal (hexDigit n) = some n.1 := by decide

private theorem hex_low (n : Nat) (h : n < 256) :
    hex4 '0' '0' (hexDigit (n / 16)) (hexDigit (n % 16)) = some n := by
  unfold hex4
  have h0 : hexVal '0' = some 0 := by decide
  have h1 := hexVal_hexDigit ⟨n / 16, by omega⟩
  have h2 := hexVal_hexDigit ⟨n % 16, by omega⟩
  simp only at h1 h2
  rw [h0, h1, h2]
  simp only [Option.some.injEq]
  omega

private theorem hex_sep (n : Nat) (h : n = 0x2028 ∨ n = 0x2029) :
    hex4 '2' '0' '2' (hexDigit (n % 16)) = some n := by
  rcases h with rfl | rfl <;> decide

private theorem ofNat_toNat (c : Char) : Char.ofNat c.toNat = c := Char.ofNat_toNat c

/-- What one written character is read as. -/
private theorem units_char (c : Char) (r : Str) : ∃ u, readUnits (jsonChar c ++ r) = (readUnits r).map (fun p => (u :: p.1, p.2)) ∧
    ∀ us, joinUnits (u :: us) = c :: joinUnits us := by
  unfold jsonChar
  by_cases h1 : c = '"' ∨ c = '\\'
  · rw [if_pos h1]
    refine ⟨.lit c, ?_, fun us => rfl⟩
    rcases h1 with rfl | rfl
    · show readUnits ('\\' :: '"' :: r) = _
      rw [readUnits.eq_def]; rfl
    · show readUnits ('\\' :: '\\' :: r) = _
      rw [readUnits.eq_def]; rfl
  rw [if_neg h1]
  by_cases h2 : c = '\n'
  · rw [if_pos h2]; refine ⟨.lit c, ?_, fun us => rfl⟩
    subst h2; show readUnits ('\\' :: 'n' :: r) = _; rw [readUnits.eq_def]; rfl
  rw [if_neg h2]
  by_cases h3 : c = '\r'
  · rw [if_pos h3]; refine ⟨.lit c, ?_, fun us => rfl⟩
    subst h3; show readUnits ('\\' :: 'r' :: r) = _; rw [readUnits.eq_def]; rfl
  rw [if_neg h3]
  by_cases h4 : c = '\t'
  · rw [if_pos h4]; refine ⟨.lit c, ?_, fun us => rfl⟩
    subst h4; show readUnits ('\\' :: 't' :: r) = _; rw [readUnits.eq_def]; rfl
  rw [if_neg h4]
  by_cases h5 : c.toNat < 32 ∨ c = '<' ∨ c = '>' ∨ c = '&'
  · rw [if_pos h5]
    have hlt : c.toNat < 256 := by
      rcases h5 with h | rfl | rfl | rfl
      · omega
      · decide
      · decide
      · decide
    refine ⟨.code c.toNat, ?_, fun us => ?_⟩
    · show readUnits ('\\' :: 'u' :: '0' :: '0' :: _ :: _ :: r) = _
      rw [readUnits.eq_def]
      simp only [show ¬ ('\\' : Char) = '"' by decide, if_false, if_true, hex_low _ hlt]
    · rw [joinUnits, if_neg (by omega), if_neg (by omega), ofNat_toNat]
  rw [if_neg h5]
  by_cases h6 : c.toNat = 0x2028 ∨ c.toNat = 0x2029
  · rw [if_pos h6]
    refine ⟨.code c.toNat, ?_, fun us => ?_⟩
    · show readUnits ('\\' :: 'u' :: '2' :: '0' :: '2' :: _ :: r) = _
      rw [readUnits.eq_def]
      simp only [show ¬ ('\\' : Char) = '"' by decide, if_false, if_true, hex_sep _ h6]
    · rw [joinUnits, if_neg (by omega), if_neg (by omega), ofNat_toNat]
  rw [if_neg h6]
  refine ⟨.lit c, ?_, fun us => rfl⟩
  show readUnits (c :: r) = _
  rw [readUnits.eq_def]
  simp only
  rw [if_neg (fun h => h1 (.inl h)), if_neg (fun h => h1 (.inr h)), if_neg (fun h => h5 (.inl h))]

private theorem units_tail (s : Str) (r : Str) : ∃ us, readUnits (jsonTail s ++ r) = some (us, r) ∧ joinUnits us = s := by
  induction s with
  | nil => exact ⟨[], by show readUnits ('"' :: r) = _; rw [readUnits.eq_def]; rfl, rfl⟩
  | cons c s ih =>
    obtain ⟨us, h1, h2⟩ := ih
    obtain ⟨u, h3, h4⟩ := units_char c (jsonTail s ++ r)
    refine ⟨u :: us, ?_, by rw [h4, h2]⟩
    rw [jsonTail, List.append_assoc, h3, h1]
    rfl

/-- A string is read as it was written. -/
theorem readJsonStr_tail (s r : Str) : readJsonStr (jsonTail s ++ r) = some (s, r) := by
  obtain ⟨us, h1, h2⟩ := units_tail s r
  unfold readJsonStr
  rw [h1]
  show some (joinUnits us, r) = _
  rw [h2]

/-! ## Trees -/

mutual
/-- The number of steps reading takes. -/
def jsonSteps : Json → Nat
  | .arr (x :: xs) => 1 + jsonSteps x + elemSteps xs
  | .obj ((_, v) :: fs) => 2 + jsonSteps v + memberSteps fs
  | _ => 1
def elemSteps : List Json → Nat
  | [] => 1
  | x :: xs => 1 + jsonSteps x + elemSteps xs
def memberSteps : List (Str × Json) → Nat
  | [] => 1
  | (_, v) :: fs => 2 + jsonSteps v + memberSteps fs
end

/-- A text begins with a character that is no white space and closes nothing. -/
theorem text_head {j : Json} (h : JsonOk j) : ∃ c r, j.text = c :: r ∧ jsonSpace c = false ∧ c ≠ ']' := by
  cases j with
  | null => exact ⟨'n', "ull".toList, by rw [Json.text]; rfl, by decide, by decide⟩
  | bool b =>
    cases b with
    | true => exact ⟨'t', "rue".toList, by rw [Json.text]; rfl, by decide, by decide⟩
    | false => exact ⟨'f', "alse".toList, by rw [Json.text]; rfl, by decide, by decide⟩
  | num t =>
    rw [JsonOk] at h
    obtain ⟨c, r, rfl, hc⟩ := numText_head h
    refine ⟨c, r, by rw [Json.text], ?_, ?_⟩
    · cases hs : jsonSpace c with
      | false => rfl
      | true =>
        unfold jsonSpace at hs
        simp only [Bool.or_eq_true, decide_eq_true_eq] at hs
        rcases hs with ((rfl | rfl) | rfl) | rfl <;> (rcases hc with h' | h' <;> revert h' <;> decide)
    · rintro rfl
      rcases hc with h' | h' <;> revert h' <;> decide
  | str s => exact ⟨'"', jsonTail s, by rw [Json.text], by decide, by decide⟩
  | arr xs =>
    cases xs with
    | nil => exact ⟨'[', [']'], by rw [Json.text]; rfl, by decide, by decide⟩
    | cons x xs => exact ⟨'[', _, by rw [Json.text], by decide, by decide⟩
  | obj fs =>
    cases fs with
    | nil => exact ⟨'{', ['}'], by rw [Json.text]; rfl, by decide, by decide⟩
    | cons f fs =>
      obtain ⟨k, v⟩ := f
      exact ⟨'{', _, by rw [Json.text], by decide, by decide⟩

private theorem skip_head {c : Char} {r : Str} (h : jsonSpace c = false) : skipSpace (c :: r) = c :: r := by
  unfold skipSpace; simp [h]

private theorem skip_text {j : Json} (h : JsonOk j) (r : Str) : skipSpace (j.text ++ r) = j.text ++ r := by
  obtain ⟨c, r', h1, h2, -⟩ := text_head h
  rw [h1]; exact skip_head h2

mutual
/-- A tree is read as it was written. -/
theorem readValue_text : ∀ (j : Json) (n : Nat) (r : Str), jsonSteps j ≤ n → JsonOk j → NumEnd r →
    readValue n (j.text ++ r) = some (j, r)
  | _, 0, _, hn, _, _ => by
    exfalso
    revert hn
    unfold jsonSteps
    split <;> omega
  | .null, n + 1, r, _, _, _ => by rw [Json.text, readValue.eq_def]; rfl
  | .bool true, n + 1, r, _, _, _ => by rw [Json.text, readValue.eq_def]; rfl
  | .bool false, n + 1, r, _, _, _ => by rw [Json.text, readValue.eq_def]; rfl
  | .num t, n + 1, r, _, ht, hr => by
    rw [JsonOk] at ht
    rw [readValue.eq_def]
    simp only
    have hs := skip_text (j := .num t) (by rw [JsonOk]; exact ht) r
    rw [hs, Json.text]
    have hread := readJsonNum_complete ht hr
    obtain ⟨c, t', rfl, hc⟩ := numText_head ht
    have hne : c ≠ '"' ∧ c ≠ '[' ∧ c ≠ '{' ∧ c ≠ 'n' ∧ c ≠ 't' ∧ c ≠ 'f' := by
      refine ⟨?_, ?_, ?_, ?_, ?_, ?_⟩ <;> (rintro rfl; rcases hc with h' | h' <;> revert h' <;> decide)
    rw [List.cons_append] at hread ⊢
    simp only [hne.1, hne.2.1, hne.2.2.1, hne.2.2.2.1, hne.2.2.2.2.1, hne.2.2.2.2.2, if_false, hread, Option.map_some]
  | .str s, n + 1, r, _, _, _ => by
    rw [Json.text, readValue.eq_def]
    simp only
    rw [List.cons_append, skip_head (by decide)]
    simp only [if_true, readJsonStr_tail, Option.map_some]
  | .arr [], n + 1, r, _, _, _ => by rw [Json.text, readValue.eq_def]; rfl
  | .arr (x :: xs), n + 1, r, hn, ht, hr => by
    rw [jsonSteps] at hn
    rw [JsonOk, ElemsOk] at ht
    rw [Json.text, readValue.eq_def]
    simp only
    rw [List.cons_append, skip_head (by decide), List.append_assoc]
    simp only [show ¬ ('[' : Char) = '"' by decide, if_false, if_true]
    rw [skip_text ht.1]
    obtain ⟨c, t, h1, h2, h3⟩ := text_head ht.1
    have hx := readValue_text x n (textElems xs ++ r) (by omega) ht.1 (by
      cases xs with
      | nil => rw [textElems]; exact ⟨by decide, by decide, by decide, by decide⟩
      | cons y ys => rw [textElems]; exact ⟨by decide, by decide, by decide, by decide⟩)
    have hxs := readElems_text xs n r (by omega) ht.2 hr
    rw [h1, List.cons_append] at hx ⊢
    simp only [h3, if_false, hx, hxs, Option.map_some]
  | .obj [], n + 1, r, _, _, _ => by rw [Json.text, readValue.eq_def]; rfl
  | .obj ((k, v) :: fs), n + 1, r, hn, ht, hr => by
    rw [jsonSteps] at hn
    rw [JsonOk, MembersOk] at ht
    rw [Json.text, readValue.eq_def]
    simp only
    rw [List.cons_append, skip_head (by decide)]
    simp only [show ¬ ('{' : Char) = '"' by decide, show ¬ ('{' : Char) = '[' by decide, if_false, if_true, List.cons_append]
    rw [skip_head (by decide)]
    obtain ⟨n, rfl⟩ : ∃ k, n = k + 1 := ⟨n - 1, by omega⟩
    have hv := readValue_text v n (textMembers fs ++ r) (by omega) ht.1 (by
      cases fs with
      | nil => rw [textMembers]; exact ⟨by decide, by decide, by decide, by decide⟩
      | cons y ys => obtain ⟨_, _⟩ := y; rw [textMembers]; exact ⟨by decide, by decide, by decide, by decide⟩)
    have hfs := readMembers_text fs (n + 1) r (by omega) ht.2 hr
    have hm : readMember (n + 1) ('"' :: (jsonTail k ++ ':' :: (v.text ++ textMembers fs) ++ r)) =
        some ((k, v), textMembers fs ++ r) := by
      rw [readMember.eq_def]
      simp only
      rw [List.append_assoc, skip_head (by decide)]
      simp only [if_true, readJsonStr_tail, List.cons_append, List.append_assoc]
      rw [skip_head (by decide)]
      simp only [if_true, hv, Option.map_some]
    simp only [show ¬ ('"' : Char) = '}' by decide, if_false, hm, hfs, Option.map_some]
/-- The same for the rest of an array. -/
theorem readElems_text : ∀ (xs : List Json) (n : Nat) (r : Str), elemSteps xs ≤ n → ElemsOk xs → NumEnd r →
    readElems n (textElems xs ++ r) = some (xs, r)
  | xs, 0, _, hn, _, _ => by
    exfalso
    revert hn
    cases xs <;> (rw [elemSteps]; omega)
  | [], n + 1, r, _, _, _ => by rw [textElems, readElems.eq_def]; rfl
  | x :: xs, n + 1, r, hn, ht, hr => by
    rw [elemSteps] at hn
    rw [ElemsOk] at ht
    have hx := readValue_text x n (textElems xs ++ r) (by omega) ht.1 (by
      cases xs with
      | nil => rw [textElems]; exact ⟨by decide, by decide, by decide, by decide⟩
      | cons y ys => rw [textElems]; exact ⟨by decide, by decide, by decide, by decide⟩)
    have hxs := readElems_text xs n r (by omega) ht.2 hr
    rw [textElems, readElems.eq_def]
    simp only
    rw [List.cons_append, skip_head (by decide), List.append_assoc]
    simp only [show ¬ (',' : Char) = ']' by decide, if_false, if_true, hx, hxs, Option.map_some]
/-- The same for the rest of an object. -/
theorem readMembers_text : ∀ (fs : List (Str × Json)) (n : Nat) (r : Str), memberSteps fs ≤ n → MembersOk fs → NumEnd r →
    readMembers n (textMembers fs ++ r) = some (fs, r)
  | fs, 0, _, hn, _, _ => by
    exfalso
    revert hn
    cases fs with
    | nil => rw [memberSteps]; omega
    | cons f fs => obtain ⟨_, _⟩ := f; rw [memberSteps]; omega
  | [], n + 1, r, _, _, _ => by rw [textMembers, readMembers.eq_def]; rfl
  | (k, v) :: fs, n + 1, r, hn, ht, hr => by
    rw [memberSteps] at hn
    rw [MembersOk] at ht
    obtain ⟨n, rfl⟩ : ∃ k, n = k + 1 := ⟨n - 1, by omega⟩
    have hv := readValue_text v n (textMembers fs ++ r) (by omega) ht.1 (by
      cases fs with
      | nil => rw [textMembers]; exact ⟨by decide, by decide, by decide, by decide⟩
      | cons y ys => obtain ⟨_, _⟩ := y; rw [textMembers]; exact ⟨by decide, by decide, by decide, by decide⟩)
    have hfs := readMembers_text fs (n + 1) r (by omega) ht.2 hr
    have hm : readMember (n + 1) ('"' :: (jsonTail k ++ ':' :: (v.text ++ textMembers fs) ++ r)) =
        some ((k, v), textMembers fs ++ r) := by
      rw [readMember.eq_def]
      simp only
      rw [List.append_assoc, skip_head (by decide)]
      simp only [if_true, readJsonStr_tail, List.cons_append, List.append_assoc]
      rw [skip_head (by decide)]
      simp only [if_true, hv, Option.map_some]
    rw [textMembers, readMembers.eq_def]
    simp only
    rw [List.cons_append, skip_head (by decide)]
    simp only [show ¬ (',' : Char) = '}' by decide, if_false, if_true, List.cons_append, hm, hfs, Option.map_some]
end

private theorem tail_length (s : Str) : 1 ≤ (jsonTail s).length := by
  cases s with
  | nil => decide
  | cons c s =>
    rw [jsonTail, List.length_append]
    have : 1 ≤ (jsonChar c).length := by
      unfold jsonChar
      repeat' split
      all_goals simp
    omega

mutual
/-- A text is at least as long as reading it takes. -/
theorem steps_le : ∀ j : Json, JsonOk j → jsonSteps j ≤ j.text.length
  | .null, _ => by rw [Json.text]; decide
  | .bool true, _ => by rw [Json.text]; decide
  | .bool false, _ => by rw [Json.text]; decide
  | .num t, h => by
    rw [JsonOk] at h
    obtain ⟨c, r, rfl, -⟩ := numText_head h
    rw [Json.text]; simp [jsonSteps]
  | .str s, _ => by rw [Json.text]; simp [jsonSteps]
  | .arr [], _ => by rw [Json.text]; decide
  | .arr (x :: xs), h => by
    rw [JsonOk, ElemsOk] at h
    rw [Json.text, jsonSteps]
    have h1 := steps_le x h.1
    have h2 := elems_le xs h.2
    simp only [List.length_cons, List.length_append]
    omega
  | .obj [], _ => by rw [Json.text]; decide
  | .obj ((k, v) :: fs), h => by
    rw [JsonOk, MembersOk] at h
    rw [Json.text, jsonSteps]
    have h1 := steps_le v h.1
    have h2 := members_le fs h.2
    simp only [List.length_cons, List.length_append]
    omega
theorem elems_le : ∀ xs : List Json, ElemsOk xs → elemSteps xs ≤ (textElems xs).length
  | [], _ => by rw [elemSteps, textElems]; decide
  | x :: xs, h => by
    rw [ElemsOk] at h
    rw [elemSteps, textElems]
    have h1 := steps_le x h.1
    have h2 := elems_le xs h.2
    simp only [List.length_cons, List.length_append]
    omega
theorem members_le : ∀ fs : List (Str × Json), MembersOk fs → memberSteps fs ≤ (textMembers fs).length
  | [], _ => by rw [memberSteps, textMembers]; decide
  | (k, v) :: fs, h => by
    rw [MembersOk] at h
    rw [memberSteps, textMembers]
    have h1 := steps_le v h.1
    have h2 := members_le fs h.2
    simp only [List.length_cons, List.length_append]
    omega
end

end LogCache
