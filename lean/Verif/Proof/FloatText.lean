import Verif.Proof.Float

/-! # Reading and printing decimal numbers -/

namespace LogCache
open Spec

theorem digit_plain {d : Nat} (h : d < 10) :
    lowerChar (decDigit d) = decDigit d ∧ isDecimal (decDigit d) = true ∧ decDigit d ≠ '.' ∧
      decDigit d ≠ '-' ∧ decDigit d ≠ '+' ∧ decDigit d ∉ "+-infityna".toList := by
  have : ∀ d : Fin 10, lowerChar (decDigit d.val) = decDigit d.val ∧ isDecimal (decDigit d.val) = true ∧
      decDigit d.val ≠ '.' ∧ decDigit d.val ≠ '-' ∧ decDigit d.val ≠ '+' ∧
      decDigit d.val ∉ "+-infityna".toList := by decide
  exact this ⟨d, h⟩

theorem special_none {s : Str} {c : Char} (hc : c ∈ s) (hl : lowerChar c = c) (hn : c ∉ "+-infityna".toList) :
    f64Special s = none := by
  have hm : c ∈ s.map lowerChar := List.mem_map.2 ⟨c, hc, hl⟩
  have key : ∀ w : Str, (∀ x ∈ w, x ∈ "+-infityna".toList) → s.map lowerChar ≠ w := by
    intro w hw he
    rw [he] at hm
    exact hn (hw c hm)
  unfold f64Special
  simp only
  rw [if_neg, if_neg, if_neg]
  · exact key _ (by decide)
  · rintro (h | h)
    · exact key _ (by decide) h
    · exact key _ (by decide) h
  · rintro (h | h | h | h)
    · exact key _ (by decide) h
    · exact key _ (by decide) h
    · exact key _ (by decide) h
    · exact key _ (by decide) h

/-- Only digits. -/
def AllDigits (s : Str) : Prop := ∀ c ∈ s, ∃ d, d < 10 ∧ c = decDigit d

theorem takeWhile_digits {s : Str} (h : AllDigits s) (r : Str) (hr : ∀ c t, r = c :: t → isDecimal c = false) :
    (s ++ r).takeWhile isDecimal = s ∧ (s ++ r).dropWhile isDecimal = r := by
  induction s with
  | nil =>
    cases r with
    | nil => exact ⟨rfl, rfl⟩
    | cons c t =>
      have := hr c t rfl
      simp [List.takeWhile_cons, List.dropWhile_cons, this]
  | cons c s ih =>
    obtain ⟨d, hd, hc⟩ := h c (List.mem_cons_self ..)
    have h2 : isDecimal c = true := by rw [hc]; exact (digit_plain hd).2.1
    have h3 := ih (fun x hx => h x (List.mem_cons_of_mem _ hx))
    simp [List.takeWhile_cons, List.dropWhile_cons, h2, h3]

theorem readDecimal_point {ip fp : Str} {n : Nat} (h : Numeral (ip ++ fp) n) :
    readDecimal (ip ++ '.' :: fp) = some (n, -(fp.length : Int)) := by
  have hall := numeral_head h
  have hi : AllDigits ip := fun c hc => hall c (List.mem_append_left _ hc)
  have hf : AllDigits fp := fun c hc => hall c (List.mem_append_right _ hc)
  have h1 := takeWhile_digits hi ('.' :: fp) (by intro c t h; injection h with h _; subst h; decide)
  have h2 := takeWhile_digits hf [] (by intro c t h; cases h)
  rw [List.append_nil] at h2
  unfold readDecimal
  simp only [h1.1, h1.2, takeFraction, h2.1, h2.2, (parseDigits_iff _ _).2 h, readExponent]
  simp

theorem readDecimal_int {s : Str} {n : Nat} (h : Numeral s n) : readDecimal s = some (n, 0) := by
  have hall := numeral_head h
  have h1 := takeWhile_digits hall [] (by intro c t h; cases h)
  rw [List.append_nil] at h1
  unfold readDecimal
  simp only [h1.1, h1.2, takeFraction, List.append_nil, (parseDigits_iff _ _).2 h, readExponent]
  simp

theorem takeSign_plain {c : Char} {s : Str} (h1 : c ≠ '-') (h2 : c ≠ '+') : takeSign (c :: s) = (false, c :: s) := by
  unfold takeSign
  split
  · rename_i h; injection h with h _; exact absurd h h1
  · rename_i h; injection h with h _; exact absurd h h2
  · rfl

/-- What the reader returns for a number. -/
def f64Result (x : F64) : Option F64 := match x with
  | .inf _ => none
  | x => some x

theorem f64Result_fin {x : F64} (h : IsFinite64 x) : f64Result x = some x := by
  cases x with
  | fin => rfl
  | _ => exact h.elim

theorem parseFloat_decimal {s : Str} {m : Nat} {k : Int} (hs : f64Special s = none)
    (hr : readDecimal (takeSign s).2 = some (m, k)) :
    parseFloat s = f64Result (f64Round (takeSign s).1 (m * 10 ^ k.toNat) (10 ^ (-k).toNat)) := by
  unfold parseFloat
  rw [hs, hr]
  rfl

theorem dot_plain : lowerChar '.' = '.' ∧ '.' ∉ "+-infityna".toList := by decide

/-- Reading digits, a point and digits. -/
theorem parseFloat_point {ip fp : Str} {n : Nat} (h : Numeral (ip ++ fp) n) :
    parseFloat (ip ++ '.' :: fp) = f64Result (f64Round false n (10 ^ fp.length)) ∧
    parseFloat ('-' :: (ip ++ '.' :: fp)) = f64Result (f64Round true n (10 ^ fp.length)) := by
  have hall := numeral_head h
  constructor
  · have hsign : takeSign (ip ++ '.' :: fp) = (false, ip ++ '.' :: fp) := by
      cases ip with
      | nil => exact takeSign_plain (by decide) (by decide)
      | cons c cs =>
        obtain ⟨d, hd, hc⟩ := hall c (by simp)
        have := digit_plain hd
        rw [← hc] at this
        exact takeSign_plain this.2.2.2.1 this.2.2.2.2.1
    have hs := special_none (s := ip ++ '.' :: fp) (c := '.') (by simp) dot_plain.1 dot_plain.2
    rw [parseFloat_decimal hs (m := n) (k := -(fp.length : Int)) (by rw [hsign]; exact readDecimal_point h), hsign]
    simp
  · have hs := special_none (s := '-' :: (ip ++ '.' :: fp)) (c := '.') (by simp) dot_plain.1 dot_plain.2
    rw [parseFloat_decimal hs (m := n) (k := -(fp.length : Int)) (readDecimal_point h)]
    show f64Result (f64Round true _ _) = _
    simp

/-- Reading digits. -/
theorem parseFloat_int {s : Str} {n : Nat} (h : Numeral s n) :
    parseFloat s = f64Result (f64Round false n 1) := by
  have hall := numeral_head h
  cases s with
  | nil => exact absurd rfl (numeral_ne h)
  | cons c cs =>
    obtain ⟨d, hd, hc⟩ := hall c (List.mem_cons_self ..)
    have hp := digit_plain hd
    rw [← hc] at hp
    have hs := special_none (s := c :: cs) (c := c) (List.mem_cons_self ..) hp.1 hp.2.2.2.2.2
    have hsign := takeSign_plain (s := cs) hp.2.2.2.1 hp.2.2.2.2.1
    rw [parseFloat_decimal hs (m := n) (k := 0) (by rw [hsign]; exact readDecimal_int h), hsign]
    simp

theorem parseFloat_text {s : Str} {q : ℚ} (h : DecimalText s q) :
    ∃ num den : Nat, 0 < den ∧ q = (num : ℚ) / den ∧ parseFloat s = f64Result (f64Round false num den) := by
  rcases h with ⟨n, h, hq⟩ | ⟨ip, fp, n, rfl, h, hq⟩
  · exact ⟨n, 1, by omega, by simp [hq], parseFloat_int h⟩
  · exact ⟨n, 10 ^ fp.length, Nat.pow_pos (by omega), by rw [hq]; push_cast; rfl, (parseFloat_point h).1⟩

/-! ## Printing -/

theorem pad_length (k n : Nat) : (padDigits k n).length = k := by
  induction k generalizing n with
  | zero => rfl
  | succ k ih => rw [padDigits, List.length_append, ih]; rfl

theorem numeral_pad {s : Str} {a : Nat} (h : Numeral s a) (k n : Nat) (hn : n < 10 ^ k) :
    Numeral (s ++ padDigits k n) (a * 10 ^ k + n) := by
  induction k generalizing n with
  | zero =>
    have : n = 0 := by simpa using hn
    subst this; simpa [padDigits] using h
  | succ k ih =>
    rw [Nat.pow_succ] at hn
    have h1 := ih (n / 10) (Nat.div_lt_of_lt_mul (by rw [Nat.mul_comm]; exact hn))
    rw [padDigits, fmtDigit_eq (Nat.mod_lt _ (by decide)), ← List.append_assoc]
    have h2 := Numeral.snoc h1 (Nat.mod_lt n (by decide : 10 > 0))
    have : 10 * (a * 10 ^ k + n / 10) + n % 10 = a * 10 ^ (k + 1) + n := by
      rw [Nat.pow_succ, Nat.mul_add, Nat.add_assoc, Nat.div_add_mod]
      congr 1
      ac_rfl
    rwa [this] at h2

theorem fixed_text (n k : Nat) : ∃ ip fp, fp.length = k ∧ Numeral (ip ++ fp) n ∧
    fmtFixed false n k = ip ++ '.' :: fp ∧ fmtFixed true n k = '-' :: (ip ++ '.' :: fp) := by
  refine ⟨dec (n / 10 ^ k), padDigits k (n % 10 ^ k), pad_length _ _, ?_, ?_, ?_⟩
  · have := numeral_pad (numeral_dec (n / 10 ^ k)) k (n % 10 ^ k) (Nat.mod_lt _ (Nat.pow_pos (by omega)))
    rwa [Nat.mul_comm, Nat.div_add_mod] at this
  · simp [fmtFixed, fmtNat_eq]
  · simp [fmtFixed, fmtNat_eq]

/-- A number printed with decimals is read as the nearest float64. -/
theorem parse_fixed (neg : Bool) (n k : Nat) :
    parseFloat (fmtFixed neg n k) = f64Result (f64Round neg n (10 ^ k)) := by
  obtain ⟨ip, fp, hl, hn, h1, h2⟩ := fixed_text n k
  have := parseFloat_point hn
  rw [hl] at this
  cases neg with
  | false => rw [h1]; exact this.1
  | true => rw [h2]; exact this.2

end LogCache
