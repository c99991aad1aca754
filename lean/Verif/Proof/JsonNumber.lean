import Verif.Model.Marshal
import Verif.Spec.JsonNumber

/-! # The reader of numbers accepts the grammar, and nothing else -/

namespace LogCache
open Spec

/-- What may follow a number. -/
def NumEnd : Str → Prop
  | [] => True
  | c :: _ => isDigit c = false ∧ c ≠ '.' ∧ c ≠ 'e' ∧ c ≠ 'E'

private theorem isDigit_range (c : Char) : isDigit c = true ↔ '0' ≤ c ∧ c ≤ '9' := by
  have e : ('0' ≤ c ∧ c ≤ '9') ↔ '0'.toNat ≤ c.toNat ∧ c.toNat ≤ '9'.toNat := Iff.rfl
  rw [e]
  unfold isDigit digitVal
  split
  · rename_i h; exact ⟨fun _ => h, fun _ => rfl⟩
  · rename_i h; exact ⟨fun h' => by simp at h', fun h' => absurd h' h⟩

/-- The text does not begin with a digit. -/
private def NoDigit (s : Str) : Prop := ∀ c r, s = c :: r → isDigit c = false

private theorem take_run (d r : Str) (hd : ∀ c ∈ d, '0' ≤ c ∧ c ≤ '9') (hr : NoDigit r) :
    (d ++ r).takeWhile isDigit = d ∧ (d ++ r).dropWhile isDigit = r := by
  induction d with
  | nil =>
    cases r with
    | nil => exact ⟨rfl, rfl⟩
    | cons c r => simp [hr c r rfl]
  | cons x d ih =>
    obtain ⟨h1, h2⟩ := ih fun c hc => hd c (.tail _ hc)
    have hx := (isDigit_range x).2 (hd x (.head _))
    simp [hx, h1, h2]

private theorem run_take (s : Str) : s = s.takeWhile isDigit ++ s.dropWhile isDigit ∧
    (∀ c ∈ s.takeWhile isDigit, '0' ≤ c ∧ c ≤ '9') := by
  refine ⟨List.takeWhile_append_dropWhile.symm, ?_⟩
  induction s with
  | nil => intro c hc; cases hc
  | cons x s ih =>
    intro c hc
    rw [List.takeWhile_cons] at hc
    split at hc
    · rcases List.mem_cons.1 hc with h | h
      · subst h; rw [← isDigit_range]; assumption
      · exact ih c h
    · cases hc

private theorem readDigits_sound {s d r : Str} (h : readDigits s = some (d, r)) : s = d ++ r ∧ DigitRun d := by
  unfold readDigits at h
  obtain ⟨h1, h2⟩ := run_take s
  split at h
  · cases h
  · rename_i hne
    cases h
    exact ⟨h1, by simpa using hne, h2⟩

private theorem readDigits_complete {d r : Str} (hd : DigitRun d) (hr : NoDigit r) : readDigits (d ++ r) = some (d, r) := by
  unfold readDigits
  obtain ⟨h1, h2⟩ := take_run d r hd.2 hr
  rw [h1, h2, if_neg (by simpa using hd.1)]

private theorem readWhole_sound {s w r : Str} (h : readWhole s = some (w, r)) :
    s = w ++ r ∧ (w = ['0'] ∨ DigitRun w ∧ w.head? ≠ some '0') := by
  cases s with
  | nil => cases h
  | cons c s =>
    rw [readWhole] at h
    by_cases h0 : c = '0'
    · rw [if_pos h0] at h; cases h; subst h0; exact ⟨rfl, .inl rfl⟩
    · rw [if_neg h0] at h
      split at h
      · rename_i hc
        cases h
        obtain ⟨h1, h2⟩ := run_take s
        refine ⟨by rw [List.cons_append, ← h1], .inr ⟨⟨by simp, ?_⟩, by simpa using h0⟩⟩
        intro x hx
        rcases List.mem_cons.1 hx with rfl | hx
        · exact (isDigit_range _).1 hc
        · exact h2 x hx
      · cases h

private theorem readWhole_complete {w r : Str} (hw : w = ['0'] ∨ DigitRun w ∧ w.head? ≠ some '0') (hr : NoDigit r) :
    readWhole (w ++ r) = some (w, r) := by
  rcases hw with rfl | ⟨⟨h1, h2⟩, h3⟩
  · rfl
  · cases w with
    | nil => exact absurd rfl h1
    | cons c w =>
      obtain ⟨h4, h5⟩ := take_run w r (fun x hx => h2 x (.tail _ hx)) hr
      rw [List.cons_append, readWhole, if_neg (by simpa using h3), if_pos ((isDigit_range c).2 (h2 c (.head _))), h4, h5]

private def FracText (f : Str) : Prop := f = [] ∨ ∃ d, DigitRun d ∧ f = '.' :: d
private def ExpText (x : Str) : Prop := x = [] ∨ ∃ (e : Char) (sg d : Str), (e = 'e' ∨ e = 'E') ∧
  (sg = [] ∨ sg = ['+'] ∨ sg = ['-']) ∧ DigitRun d ∧ x = e :: (sg ++ d)

private theorem readFrac_sound {s f r : Str} (h : readFrac s = some (f, r)) : s = f ++ r ∧ FracText f := by
  cases s with
  | nil => cases h; exact ⟨rfl, .inl rfl⟩
  | cons c s =>
    rw [readFrac] at h
    by_cases hc : c = '.'
    · rw [if_pos hc, Option.map_eq_some_iff] at h
      obtain ⟨⟨d, r'⟩, h1, h2⟩ := h
      cases h2
      obtain ⟨rfl, h3⟩ := readDigits_sound h1
      subst hc
      exact ⟨rfl, .inr ⟨d, h3, rfl⟩⟩
    · rw [if_neg hc] at h; cases h; exact ⟨rfl, .inl rfl⟩

private theorem readFrac_complete {f r : Str} (hf : FracText f) (hr : NoDigit r) (hd : ∀ c r', r = c :: r' → c ≠ '.') :
    readFrac (f ++ r) = some (f, r) := by
  rcases hf with rfl | ⟨d, h1, rfl⟩
  · cases r with
    | nil => rfl
    | cons c r => rw [List.nil_append, readFrac, if_neg (hd c r rfl)]
  · rw [List.cons_append, readFrac, if_pos rfl, readDigits_complete h1 hr]; rfl

private theorem readExp_sound {s x r : Str} (h : readExp s = some (x, r)) : s = x ++ r ∧ ExpText x := by
  cases s with
  | nil => cases h; exact ⟨rfl, .inl rfl⟩
  | cons c s =>
    rw [readExp.eq_def] at h
    simp only at h
    by_cases hc : c = 'e' ∨ c = 'E'
    · rw [if_pos hc] at h
      cases s with
      | nil => cases h
      | cons d s =>
        simp only at h
        by_cases hd : d = '+' ∨ d = '-'
        · rw [if_pos hd, Option.map_eq_some_iff] at h
          obtain ⟨⟨ds, r'⟩, h1, h2⟩ := h
          cases h2
          obtain ⟨rfl, h3⟩ := readDigits_sound h1
          refine ⟨rfl, .inr ⟨c, [d], ds, hc, .inr (hd.imp ?_ ?_), h3, rfl⟩⟩ <;> (rintro rfl; rfl)
        · rw [if_neg hd, Option.map_eq_some_iff] at h
          obtain ⟨⟨ds, r'⟩, h1, h2⟩ := h
          cases h2
          obtain ⟨h4, h3⟩ := readDigits_sound h1
          exact ⟨by rw [h4]; rfl, .inr ⟨c, [], ds, hc, .inl rfl, h3, rfl⟩⟩
    · rw [if_neg hc] at h; cases h; exact ⟨rfl, .inl rfl⟩

private theorem readExp_complete {x r : Str} (hx : ExpText x) (hr : NumEnd r) : readExp (x ++ r) = some (x, r) := by
  have hn : NoDigit r := by rintro c r' rfl; exact hr.1
  rcases hx with rfl | ⟨e, sg, d, he, hs, hd, rfl⟩
  · cases r with
    | nil => rfl
    | cons c r =>
      rw [List.nil_append, readExp.eq_def]
      simp only
      rw [if_neg (fun h => h.elim hr.2.2.1 hr.2.2.2)]
  · rw [List.cons_append, readExp.eq_def]
    simp only
    rw [if_pos he]
    have hrd := readDigits_complete hd hn
    rcases hs with rfl | hs
    · obtain ⟨hd1, hd2⟩ := hd
      cases d with
      | nil => exact absurd rfl hd1
      | cons y d =>
        have hy := hd2 y (.head _)
        rw [List.nil_append, List.cons_append] at *
        simp only
        rw [if_neg, hrd]
        · rfl
        · rintro (rfl | rfl) <;> revert hy <;> decide
    · obtain ⟨y, rfl, hy⟩ : ∃ y : Char, sg = [y] ∧ (y = '+' ∨ y = '-') := by
        rcases hs with rfl | rfl
        · exact ⟨_, rfl, .inl rfl⟩
        · exact ⟨_, rfl, .inr rfl⟩
      show (if y = '+' ∨ y = '-' then (readDigits (d ++ r)).map _ else _) = _
      rw [if_pos hy, hrd]; rfl

private theorem readUnsigned_sound {s t r : Str} (h : readUnsigned s = some (t, r)) :
    ∃ w f x, s = w ++ f ++ x ++ r ∧ t = w ++ f ++ x ∧ (w = ['0'] ∨ DigitRun w ∧ w.head? ≠ some '0') ∧ FracText f ∧ ExpText x := by
  unfold readUnsigned at h
  split at h
  · cases h
  · rename_i w r1 h1
    split at h
    · cases h
    · rename_i f r2 h2
      rw [Option.map_eq_some_iff] at h
      obtain ⟨⟨x, r'⟩, h3, h4⟩ := h
      cases h4
      obtain ⟨rfl, hw⟩ := readWhole_sound h1
      obtain ⟨rfl, hf⟩ := readFrac_sound h2
      obtain ⟨rfl, hx⟩ := readExp_sound h3
      exact ⟨w, f, x, by simp, rfl, hw, hf, hx⟩

private theorem readUnsigned_complete {w f x r : Str} (hw : w = ['0'] ∨ DigitRun w ∧ w.head? ≠ some '0') (hf : FracText f)
    (hx : ExpText x) (hr : NumEnd r) : readUnsigned (w ++ f ++ x ++ r) = some (w ++ f ++ x, r) := by
  have hxr : ∀ c r', x ++ r = c :: r' → isDigit c = false ∧ c ≠ '.' := by
    intro c r' h
    rcases hx with rfl | ⟨e, sg, d, he, -, -, rfl⟩
    · rw [List.nil_append] at h; subst h; exact ⟨hr.1, hr.2.1⟩
    · injection h with h _; subst h; rcases he with rfl | rfl <;> decide
  have hfr : NoDigit (f ++ (x ++ r)) := by
    intro c r' h
    rcases hf with rfl | ⟨d, -, rfl⟩
    · exact (hxr c r' h).1
    · injection h with h _; subst h; decide
  rw [List.append_assoc, List.append_assoc, readUnsigned, readWhole_complete hw hfr]
  simp only
  rw [readFrac_complete hf (fun c r' h => (hxr c r' h).1) (fun c r' h => (hxr c r' h).2)]
  simp only
  rw [readExp_complete hx hr]
  rfl

/-- What is read as a number is one, by the grammar. -/
theorem readJsonNum_sound {s t r : Str} (h : readJsonNum s = some (t, r)) : s = t ++ r ∧ NumText t := by
  cases s with
  | nil => cases h
  | cons c s =>
    rw [readJsonNum] at h
    by_cases hc : c = '-'
    · rw [if_pos hc, Option.map_eq_some_iff] at h
      obtain ⟨⟨t', r'⟩, h1, h2⟩ := h
      cases h2
      obtain ⟨w, f, x, rfl, rfl, hw, hf, hx⟩ := readUnsigned_sound h1
      subst hc
      exact ⟨rfl, ['-'], w, f, x, by simp, .inr rfl, hw, hf, hx⟩
    · rw [if_neg hc] at h
      obtain ⟨w, f, x, h1, rfl, hw, hf, hx⟩ := readUnsigned_sound h
      exact ⟨h1, [], w, f, x, by simp, .inl rfl, hw, hf, hx⟩

private theorem whole_head {w : Str} (hw : w = ['0'] ∨ DigitRun w ∧ w.head? ≠ some '0') : ∃ c w', w = c :: w' ∧ '0' ≤ c ∧ c ≤ '9' := by
  rcases hw with rfl | ⟨⟨h1, h2⟩, -⟩
  · exact ⟨_, _, rfl, by decide, by decide⟩
  · cases w with
    | nil => exact absurd rfl h1
    | cons c w => exact ⟨c, w, rfl, h2 c (.head _)⟩

/-- A number of the grammar is read as a number. -/
theorem readJsonNum_complete {t r : Str} (h : NumText t) (hr : NumEnd r) : readJsonNum (t ++ r) = some (t, r) := by
  obtain ⟨sg, w, f, x, rfl, hs, hw, hf, hx⟩ := h
  have hu := readUnsigned_complete (r := r) hw hf hx hr
  rcases hs with rfl | rfl
  · obtain ⟨c, w', rfl, hc⟩ := whole_head hw
    show readJsonNum (c :: _) = _
    rw [readJsonNum, if_neg (by rintro rfl; revert hc; decide)]
    exact hu
  · show readJsonNum ('-' :: (w ++ f ++ x ++ r)) = _
    rw [readJsonNum, if_pos rfl, hu]
    rfl

/-- A number begins with a digit or a minus sign. -/
theorem numText_head {t : Str} (h : NumText t) : ∃ c r, t = c :: r ∧ ('0' ≤ c ∧ c ≤ '9' ∨ c = '-') := by
  obtain ⟨sg, w, f, x, rfl, hs, hw, -, -⟩ := h
  rcases hs with rfl | rfl
  · obtain ⟨c, w', rfl, hc⟩ := whole_head hw
    exact ⟨c, _, rfl, .inl hc⟩
  · exact ⟨'-', _, rfl, .inr rfl⟩

theorem validNumber_iff (t : Str) : validNumber t = true ↔ NumText t := by
  unfold validNumber
  rw [decide_eq_true_iff]
  constructor
  · intro h
    obtain ⟨h1, h2⟩ := readJsonNum_sound h
    exact h2
  · intro h
    have := readJsonNum_complete (r := []) h trivial
    rwa [List.append_nil] at this

end LogCache
