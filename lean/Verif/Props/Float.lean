import Verif.Proof.FloatPrint
import Verif.Proof.FloatGrammar

/-! # Times and steps of queries (C96, C101) -/

namespace LogCache
open Spec

/-! ## C96 -/

/-- Decimal text is read as the nearest float64. -/
theorem C96_nearest {s : Str} {q : ℚ} (h : DecimalText s q) (hq : q < f64Limit) :
    ∃ x, parseFloat s = some x ∧ Nearest64 q x := by
  obtain ⟨num, den, hd, rfl, hp⟩ := parseFloat_text h
  have hf := f64Round_finite false num hd hq
  refine ⟨_, by rw [hp, f64Result_fin hf], f64Round_binary false num hd, hf, ?_⟩
  intro y hy _
  rcases Nat.eq_zero_or_pos num with hz | hn
  · subst hz
    have : f64Round false 0 den = .fin false 0 0 := by simp [f64Round]
    rw [this]
    simp [f64Value]
  · obtain ⟨m, e, hr, hv⟩ := f64Round_value false hn hd hf
    rw [hv]
    simp only [Bool.false_eq_true, if_false, one_mul]
    exact rounded_best hr (by positivity) hy

example : DecimalText "1700000000.123".toList (1700000000123 / 1000) := by
  right
  refine ⟨"1700000000".toList, "123".toList, 1700000000123, rfl, ?_, by rw [show "123".toList.length = 3 from rfl]; norm_num⟩
  rw [← parseDigits_iff]
  decide

theorem nearest_neg {q : ℚ} {x : F64} (h : ∀ y, Binary64 y → |f64Value x - q| ≤ |f64Value y - q|) :
    ∀ y, Binary64 y → |-f64Value x - -q| ≤ |f64Value y - -q| := by
  intro y hy
  have key : ∃ z, Binary64 z ∧ f64Value z = -f64Value y := by
    cases y with
    | nan => exact ⟨.nan, trivial, by simp [f64Value]⟩
    | inf n => exact ⟨.nan, trivial, by simp [f64Value]⟩
    | fin n m e =>
      refine ⟨.fin (!n) m e, hy, ?_⟩
      cases n <;> simp [f64Value]
  obtain ⟨z, hz, hv⟩ := key
  have := h z hz
  rw [hv] at this
  rw [show -f64Value x - -q = -(f64Value x - q) by ring, show f64Value y - -q = -(-f64Value y - q) by ring, abs_neg, abs_neg]
  exact this

/-- So is text with a sign or an exponent; and the number keeps its sign. -/
theorem C96_numbers {s : Str} {neg : Bool} {q : ℚ} (h : SignedText s neg q) (hq : q < f64Limit) :
    ∃ m e, parseFloat s = some (.fin neg m e) ∧ Nearest64 (if neg then -q else q) (.fin neg m e) := by
  obtain ⟨num, den, hd, rfl, hp⟩ := parseFloat_signed h
  have hf := f64Round_finite neg num hd hq
  have hb := f64Round_binary neg num hd
  have hs : ∃ m e, f64Round neg num den = .fin neg m e := by
    unfold f64Round f64Norm at hf ⊢
    split
    · exact ⟨_, _, rfl⟩
    · next h0 =>
      rw [if_neg h0] at hf
      split
      · exact ⟨_, _, rfl⟩
      · next h1 =>
        rw [if_neg h1] at hf
        split
        · next h2 =>
          rw [if_pos h2] at hf
          split
          · next h3 => rw [if_pos h3] at hf; exact hf.elim
          · exact ⟨_, _, rfl⟩
        · next h2 =>
          rw [if_neg h2] at hf
          split
          · next h3 => rw [if_pos h3] at hf; exact hf.elim
          · exact ⟨_, _, rfl⟩
  obtain ⟨m, e, hme⟩ := hs
  refine ⟨m, e, by rw [hp, f64Result_fin hf, hme], by rw [← hme]; exact hb, trivial, ?_⟩
  have hpos : ∀ y, Binary64 y → |f64Value (.fin false m e) - (num : ℚ) / den| ≤ |f64Value y - (num : ℚ) / den| := by
    intro y hy
    rcases Nat.eq_zero_or_pos num with hz | hn
    · subst hz
      have : f64Round neg 0 den = .fin neg 0 0 := by simp [f64Round]
      rw [this] at hme
      cases hme
      simp [f64Value]
    · obtain ⟨m', e', hr, hv⟩ := f64Round_value neg hn hd hf
      rw [hme] at hv
      have hv' : (m : ℚ) * 2 ^ e = m' * 2 ^ e' := by
        cases neg <;> simpa [f64Value] using hv
      simp only [f64Value, Bool.false_eq_true, if_false, one_mul]
      rw [hv']
      exact rounded_best hr (by positivity) hy
  intro y hy _
  cases neg with
  | false => exact hpos y hy
  | true =>
    have := nearest_neg hpos y hy
    simpa [f64Value] using this

/-- The words for infinity and not-a-number are read as such. -/
theorem C96_words {s : Str} {x : F64} (h : WordText s x) : parseFloat s = some x := by
  unfold parseFloat; rw [special_iff.2 h]

example : WordText "+INF".toList (.inf false) := .inl ⟨by decide, rfl⟩

/-- Everything else is an error: text that is neither such a word nor a number with or
without sign and exponent, and numbers that are too large. -/
theorem C96_errors {s : Str} :
    parseFloat s = none ↔ (∀ x, ¬ WordText s x) ∧ ∀ neg q, SignedText s neg q → f64Limit ≤ q := by
  constructor
  · intro h
    refine ⟨fun x hx => (by rw [C96_words hx] at h; cases h), ?_⟩
    intro neg q hs
    by_contra hq
    obtain ⟨m, e, h1, -⟩ := C96_numbers hs (not_le.1 hq)
    rw [h1] at h; cases h
  · rintro ⟨h1, h2⟩
    cases hw : f64Special s with
    | some y => exact absurd (special_iff.1 hw) (h1 y)
    | none =>
      cases hr : readDecimal (takeSign s).2 with
      | none => unfold parseFloat; rw [hw, hr]
      | some p =>
        obtain ⟨m, k⟩ := p
        have hq := h2 _ _ (signed_iff.2 ⟨rfl, scientific_iff.2 ⟨m, k, hr, rfl⟩⟩)
        rw [← pow10_split] at hq
        rw [parseFloat_decimal hw hr, f64Round_infinite _ (Nat.pow_pos (by norm_num)) hq]
        rfl

example : SignedText "-1.5e-3".toList true (3 / 2000) := by
  refine .inr ⟨rfl, "1.5e-3".toList, rfl, "1.5".toList, "e-3".toList, 15 / 10, -3, rfl, ?_, ?_, by norm_num⟩
  · refine .inr ⟨"1".toList, "5".toList, 15, rfl, ?_, by rw [show "5".toList.length = 1 from rfl]; norm_num⟩
    rw [← parseDigits_iff]; decide
  · refine .inr ⟨'e', "-3".toList, 3, rfl, .inl rfl, .inr (.inr ⟨"3".toList, rfl, ?_, rfl⟩)⟩
    rw [← parseDigits_iff]; decide

example : parseFloat "-1.5e-3".toList = some (.fin true 6917529027641082 (-62)) := by decide +kernel

/-- Whole seconds are exact. -/
theorem C96_seconds (rfc dur : Str → Option Int) {s : Str} {n : Nat} (h : DecimalText s n) (hn : n < 2 ^ 32) :
    parseTime rfc s = some (n * 1000000000) ∧ parseStep dur s = some (n * 1000000000) := by
  obtain ⟨x, t, h1, h2, h3, h4, _, h5⟩ := time_core h (by exact_mod_cast hn)
  have ht := h5 n rfl
  constructor
  · unfold parseTime; rw [h1]; simp only [h2, ht]; push_cast; rfl
  · unfold parseStep
    rw [h1]
    simp only [h3, h4, h2, ht]
    push_cast; rfl

/-- All other times and steps below `2^32` seconds are at most half a microsecond off. -/
theorem C96_near_partial (rfc dur : Str → Option Int) {s : Str} {q : ℚ} (h : DecimalText s q) (hq : q < 2 ^ 32) :
    ∃ t : Int, parseTime rfc s = some t ∧ parseStep dur s = some t ∧ 0 ≤ t ∧
      |(t : ℚ) - q * 1000000000| < 500 := by
  obtain ⟨x, t, h1, h2, h3, h4, h5, _⟩ := time_core h hq
  refine ⟨t, ?_, ?_, by omega, by exact_mod_cast h5⟩
  · unfold parseTime; rw [h1]; simp only [h2]
  · unfold parseStep; rw [h1]; simp [h3, h4, h2]

/-- A later time is never read as an earlier one. -/
theorem C96_order (rfc : Str → Option Int) {s1 s2 : Str} {q1 q2 : ℚ} (h1 : DecimalText s1 q1)
    (h2 : DecimalText s2 q2) (hq : q1 ≤ q2) (hlt : q2 < 2 ^ 32) :
    ∃ t1 t2, parseTime rfc s1 = some t1 ∧ parseTime rfc s2 = some t2 ∧ t1 ≤ t2 := by
  obtain ⟨x1, t1, a1, b1, _⟩ := time_core h1 (hq.trans_lt hlt)
  obtain ⟨x2, t2, a2, b2, _⟩ := time_core h2 hlt
  have := time_mono h1 h2 hq hlt a1 a2
  refine ⟨_, _, ?_, ?_, this⟩
  · unfold parseTime; rw [a1]
  · unfold parseTime; rw [a2]

/-- Text that is no number is read as a date or a duration, unchanged; what is neither is
an error. -/
theorem C96_dates (rfc dur : Str → Option Int) {s : Str} (h : parseFloat s = none) :
    parseTime rfc s = rfc s ∧ parseStep dur s = dur s := by
  unfold parseTime parseStep
  rw [h]
  exact ⟨rfl, rfl⟩

example : parseFloat "2019-05-15T15:00:00Z".toList = none := by decide +kernel
example : parseFloat "5m".toList = none := by decide +kernel

/-- A time with milliseconds may be read as one in the millisecond before. -/
theorem C96_millis_false (rfc : Str → Option Int) :
    DecimalText "1.001".toList (1001 / 1000) ∧ parseTime rfc "1.001".toList = some 1000999999 := by
  constructor
  · right
    refine ⟨"1".toList, "001".toList, 1001, rfl, ?_, by rw [show "001".toList.length = 3 from rfl]; norm_num⟩
    rw [← parseDigits_iff]
    decide
  · have : parseFloat "1.001".toList = some (.fin false 4508103226997866 (-52)) := by decide +kernel
    unfold parseTime
    rw [this]
    show some _ = _
    congr 1

/-- Times outside the range of int64 are not rejected: ten billion seconds are read as a
time before 1678, like not-a-number. -/
theorem C96_overflow_false (rfc : Str → Option Int) :
    parseTime rfc "1e10".toList = some (-2 ^ 63) ∧ parseTime rfc "nan".toList = some (-2 ^ 63) := by
  constructor
  · have : parseFloat "1e10".toList = some (.fin false 5242880000000000 (-19)) := by decide +kernel
    unfold parseTime
    rw [this]
    show some _ = _
    congr 1
  · have : parseFloat "nan".toList = some .nan := by decide +kernel
    unfold parseTime
    rw [this]
    rfl

/-- Steps that are zero, negative or not a number are accepted; and one just beyond
int64 is accepted as the most negative step. -/
theorem C96_step_false (dur : Str → Option Int) :
    parseStep dur "0".toList = some 0 ∧ parseStep dur "-1".toList = some (-1000000000) ∧
    parseStep dur "nan".toList = some (-2 ^ 63) ∧ parseStep dur "9223372036.854775808".toList = some (-2 ^ 63) := by
  have key : ∀ s x, parseFloat s = some x → (x.mul f64Billion).above63 = false → (x.mul f64Billion).below63 = false →
      parseStep dur s = some (x.mul f64Billion).toInt64 := by
    intro s x h1 h2 h3
    unfold parseStep
    rw [h1]
    simp [h2, h3]
  refine ⟨?_, ?_, ?_, ?_⟩
  · rw [key _ (.fin false 0 0) (by decide +kernel) (by decide +kernel) (by decide +kernel)]; congr 1
  · rw [key _ (.fin true 4503599627370496 (-52)) (by decide +kernel) (by decide +kernel) (by decide +kernel)]
    congr 1
  · rw [key _ .nan (by decide +kernel) rfl rfl]; rfl
  · rw [key _ (.fin false 4835703278458517 (-19)) (by decide +kernel) (by decide +kernel) (by decide +kernel)]
    congr 1

/-- Steps too large for int64 are errors. -/
theorem C96_step_overflow (dur : Str → Option Int) {s : Str} {x : F64} (hs : parseFloat s = some x)
    (h : (x.mul f64Billion).above63 = true ∨ (x.mul f64Billion).below63 = true) : parseStep dur s = none := by
  unfold parseStep
  rw [hs]
  rcases h with h | h <;> simp [h]

example : ∃ x, parseFloat "1e11".toList = some x ∧ (x.mul f64Billion).above63 = true :=
  ⟨.fin false 6553600000000000 (-16), by decide +kernel, by decide +kernel⟩

/-- The times of answers are exact: milliseconds written as seconds with three
decimals. -/
theorem C96_answer_time (ms : Int) (h : ms.natAbs < 2 ^ 43 * 1000) : formatMillis ms = thousandthsText ms :=
  formatMillis_eq ms h

/-! ## C101 -/

/-- A time given to the client library reaches the query engine: whole seconds exactly,
whole milliseconds within half a microsecond, others within 501.5 microseconds. -/
theorem C101_client_time (rfc : Str → Option Int) (t : Nat) (h : t < (2 ^ 32 - 1) * 1000000000) :
    ∃ u : Int, parseTime rfc (formatClientTime t) = some u ∧ |(u : ℚ) - t| < 501500 ∧
      (1000000 ∣ t → |(u : ℚ) - t| < 500) ∧ (1000000000 ∣ t → u = t) := by
  obtain ⟨n, h1, h2, h3⟩ := formatClient_core t (by omega)
  have hq : (t : ℚ) < 4294967295000000000 := by exact_mod_cast (by omega : t < 4294967295000000000)
  rw [abs_le] at h2
  have htext := three_text n
  have hlt : (n : ℚ) / 1000 < 2 ^ 32 := by
    have c0 : (2 : ℚ) ^ 32 = 4294967296 := by norm_num
    rw [div_lt_iff₀ (by norm_num), c0]
    linarith [h2.2]
  obtain ⟨u, a1, _, _, a4⟩ := C96_near_partial rfc (fun _ => none) htext hlt
  rw [h1]
  refine ⟨u, a1, ?_, ?_, ?_⟩
  · rw [abs_lt] at a4 ⊢
    constructor <;> linarith [a4.1, a4.2, h2.1, h2.2]
  · rintro ⟨ms, hms⟩
    have hn := h3 ms (by omega)
    have : (t : ℚ) = ms * 1000000 := by rw [hms]; push_cast; ring
    rw [this]
    rw [hn] at a4
    have e : (ms : ℚ) / 1000 * 1000000000 = ms * 1000000 := by ring
    rwa [e] at a4
  · rintro ⟨sec, hsec⟩
    have hn := h3 (1000 * sec) (by omega)
    rw [hn] at a1 htext
    have e : ((1000 * sec : Nat) : ℚ) / 1000 = (sec : Nat) := by push_cast; ring
    rw [e] at htext
    have := (C96_seconds rfc (fun _ => none) htext (by omega)).1
    rw [this] at a1
    injection a1 with a1
    rw [← a1, hsec]
    push_cast; ring

/-- It may still be early: a whole millisecond is not kept. -/
theorem C101_client_false (rfc : Str → Option Int) :
    ∃ u, parseTime rfc (formatClientTime 1700000000123000000) = some u ∧ u < 1700000000123000000 := by
  refine ⟨1700000000122999808, ?_, by decide⟩
  have e : formatClientTime 1700000000123000000 = "1700000000.123".toList := by decide +kernel
  have : parseFloat "1700000000.123".toList = some (.fin false 7130316800515899 (-22)) := by decide +kernel
  unfold parseTime
  rw [e, this]
  show some _ = _
  congr 1

end LogCache
