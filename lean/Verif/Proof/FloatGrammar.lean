import Verif.Proof.FloatText

/-! # Which text is read as a number -/

namespace LogCache
open Spec

theorem lowerChar_eq (c : Char) : lowerChar c = c.toLower := by
  unfold lowerChar Char.toLower
  have h1 : ('A' ≤ c ∧ c ≤ 'Z') ↔ (c.val ≥ 'A'.val ∧ c.val ≤ 'Z'.val) := Iff.rfl
  by_cases h : 'A' ≤ c ∧ c ≤ 'Z'
  · rw [if_pos h, dif_pos (h1.1 h)]
    have hn : 65 ≤ c.toNat ∧ c.toNat ≤ 90 := h
    apply Char.ext
    have hv : (c.toNat + 32).isValidChar := by left; omega
    unfold Char.ofNat
    rw [dif_pos hv]
    apply UInt32.toNat_inj.1
    show c.toNat + 32 = (c.val + 32).toNat
    rw [UInt32.toNat_add]
    show _ = (c.toNat + 32) % _
    omega
  · rw [if_neg h, dif_neg (fun hh => h (h1.2 hh))]

theorem special_iff {s : Str} {x : F64} : f64Special s = some x ↔ WordText s x := by
  have hm : s.map lowerChar = s.map Char.toLower := by
    apply List.map_congr_left; intro c _; exact lowerChar_eq c
  unfold f64Special WordText
  simp only [hm]
  generalize s.map Char.toLower = t
  simp only [List.mem_cons, List.not_mem_nil, or_false]
  have d1 : ∀ w : Str, w ∈ ["inf".toList, "+inf".toList, "infinity".toList, "+infinity".toList] →
      ¬ (w = "-inf".toList ∨ w = "-infinity".toList) ∧ w ≠ "nan".toList := by decide
  have d2 : ∀ w : Str, w ∈ ["-inf".toList, "-infinity".toList] → w ≠ "nan".toList := by decide
  constructor
  · intro h
    split at h
    · next h1 => cases h; exact .inl ⟨h1, rfl⟩
    · split at h
      · next h1 => cases h; exact .inr (.inl ⟨h1, rfl⟩)
      · split at h
        · next h1 => cases h; exact .inr (.inr ⟨h1, rfl⟩)
        · cases h
  · rintro (⟨h, rfl⟩ | ⟨h, rfl⟩ | ⟨h, rfl⟩)
    · rw [if_pos h]
    · rw [if_neg, if_pos h]
      intro h1
      exact (d1 t (by simpa using h1)).1 h
    · rw [if_neg, if_neg, if_pos h]
      · intro h1; exact d2 t (by simpa using h1) h
      · intro h1; exact (d1 t (by simpa using h1)).2 h

theorem takeSign_cases (s : Str) :
    (∃ u, s = '-' :: u ∧ takeSign s = (true, u)) ∨ (∃ u, s = '+' :: u ∧ takeSign s = (false, u)) ∨
    (takeSign s = (false, s) ∧ (∀ u, s ≠ '-' :: u) ∧ ∀ u, s ≠ '+' :: u) := by
  unfold takeSign
  split
  · exact .inl ⟨_, rfl, rfl⟩
  · exact .inr (.inl ⟨_, rfl, rfl⟩)
  · next h1 h2 => exact .inr (.inr ⟨rfl, fun u => h1 u, fun u => h2 u⟩)

theorem digit_not_sign {s : Str} {n : Nat} (h : Numeral s n) : takeSign s = (false, s) := by
  have hall := numeral_head h
  cases s with
  | nil => rfl
  | cons c s =>
    obtain ⟨d, hd, rfl⟩ := hall c (by simp)
    have := digit_plain hd
    exact takeSign_plain this.2.2.2.1 this.2.2.2.2.1

theorem readExponent_iff {s : Str} {k : Int} : readExponent s = some k ↔ ExponentText s k := by
  cases s with
  | nil =>
    constructor
    · intro h; cases h; exact .inl ⟨rfl, rfl⟩
    · rintro (⟨-, rfl⟩ | ⟨c, t, n, h, -⟩)
      · rfl
      · cases h
  | cons c t =>
    have hu : readExponent (c :: t) = if c = 'e' ∨ c = 'E' then
      (parseDigits (takeSign t).2).map (fun (n : Nat) => if (takeSign t).1 then -(n : Int) else (n : Int)) else none := rfl
    rw [hu]
    constructor
    · intro h
      split at h
      · next hc =>
        obtain ⟨n, hn, hk⟩ := Option.map_eq_some_iff.1 h
        rw [parseDigits_iff] at hn
        refine .inr ⟨c, t, n, rfl, hc, ?_⟩
        rcases takeSign_cases t with ⟨u, rfl, hs⟩ | ⟨u, rfl, hs⟩ | ⟨hs, -⟩
        · rw [hs] at hn hk
          exact .inr (.inr ⟨u, rfl, hn, hk.symm⟩)
        · rw [hs] at hn hk
          exact .inr (.inl ⟨u, rfl, hn, hk.symm⟩)
        · rw [hs] at hn hk
          exact .inl ⟨hn, hk.symm⟩
      · cases h
    · rintro (⟨h, -⟩ | ⟨c', t', n, h, hc, h2⟩)
      · cases h
      · cases h
        rw [if_pos hc]
        rcases h2 with ⟨h, rfl⟩ | ⟨u, rfl, h, rfl⟩ | ⟨u, rfl, h, rfl⟩
        · rw [digit_not_sign h, (parseDigits_iff _ _).2 h]; rfl
        · show (parseDigits u).map _ = _
          rw [(parseDigits_iff _ _).2 h]; rfl
        · show (parseDigits u).map _ = _
          rw [(parseDigits_iff _ _).2 h]; rfl

theorem exponent_head {x : Str} {k : Int} (h : ExponentText x k) : ∀ c t, x = c :: t → isDecimal c = false ∧ c ≠ '.' := by
  rintro c t rfl
  rcases h with ⟨h, -⟩ | ⟨c', t', n, h, hc, -⟩
  · cases h
  · cases h
    rcases hc with rfl | rfl <;> decide

theorem numeral_all {s : Str} {n : Nat} (h : Numeral s n) : AllDigits s := numeral_head h

theorem takeFraction_plain {r : Str} (h : ∀ t, r ≠ '.' :: t) : takeFraction r = ([], r) := by
  unfold takeFraction
  split
  · next t => exact absurd rfl (h t)
  · rfl

/-- What is read is the number the text means. -/
theorem scientific_iff {s : Str} {q : ℚ} :
    ScientificText s q ↔ ∃ m k, readDecimal s = some (m, k) ∧ q = m * (10 : ℚ) ^ k := by
  constructor
  · rintro ⟨b, x, q0, k, rfl, hb, hx, rfl⟩
    have hhead := exponent_head hx
    rcases hb with ⟨n, hn, rfl⟩ | ⟨ip, fp, n, rfl, hn, rfl⟩
    · refine ⟨n, k, ?_, rfl⟩
      have h1 := takeWhile_digits (numeral_all hn) x (fun c t h => (hhead c t h).1)
      have h2 : takeFraction x = ([], x) := takeFraction_plain (fun t h => (hhead _ t h).2 rfl)
      unfold readDecimal
      simp only [h1.1, h1.2, h2, List.append_nil, (parseDigits_iff _ _).2 hn, readExponent_iff.2 hx]
      simp
    · refine ⟨n, k - fp.length, ?_, ?_⟩
      · have hi : AllDigits ip := fun c hc => numeral_all hn c (List.mem_append_left _ hc)
        have hf : AllDigits fp := fun c hc => numeral_all hn c (List.mem_append_right _ hc)
        have h1 := takeWhile_digits hi ('.' :: (fp ++ x)) (by intro c t h; injection h with h _; subst h; decide)
        have h2 := takeWhile_digits hf x (fun c t h => (hhead c t h).1)
        unfold readDecimal
        rw [List.append_assoc, List.cons_append]
        simp only [h1.1, h1.2, takeFraction, h2.1, h2.2, (parseDigits_iff _ _).2 hn, readExponent_iff.2 hx]
      · rw [zpow_sub₀ (by norm_num), zpow_natCast]; ring
  · rintro ⟨m, k, h, rfl⟩
    unfold readDecimal at h
    simp only at h
    have hs : s = s.takeWhile isDecimal ++ s.dropWhile isDecimal := List.takeWhile_append_dropWhile.symm
    generalize s.takeWhile isDecimal = ip at h hs
    generalize hr : s.dropWhile isDecimal = r at h hs
    clear hr
    cases hm : parseDigits (ip ++ (takeFraction r).1) with
    | none => rw [hm] at h; cases h
    | some m' =>
      rw [hm] at h
      cases hk : readExponent (takeFraction r).2 with
      | none => rw [hk] at h; cases h
      | some k' =>
        rw [hk] at h
        simp only [Option.some.injEq, Prod.mk.injEq] at h
        obtain ⟨rfl, rfl⟩ := h
        rw [parseDigits_iff] at hm
        rw [readExponent_iff] at hk
        by_cases hd : ∃ t, r = '.' :: t
        · obtain ⟨t, rfl⟩ := hd
          have ht : t = t.takeWhile isDecimal ++ t.dropWhile isDecimal := List.takeWhile_append_dropWhile.symm
          simp only [takeFraction] at hm hk ⊢
          generalize t.takeWhile isDecimal = fp at hm hk ht ⊢
          generalize t.dropWhile isDecimal = x at hk ht
          subst ht
          refine ⟨ip ++ '.' :: fp, x, m' / (10 : ℚ) ^ fp.length, k', by rw [hs]; simp, .inr ⟨ip, fp, m', rfl, hm, rfl⟩, hk, ?_⟩
          rw [zpow_sub₀ (by norm_num), zpow_natCast]; ring
        · have h2 := takeFraction_plain (fun t h => hd ⟨t, h⟩)
          rw [h2] at hm hk ⊢
          rw [List.append_nil] at hm
          exact ⟨ip, r, m', k', hs, .inl ⟨m', hm, rfl⟩, hk, by simp⟩

theorem scientific_sign {s : Str} {q : ℚ} (h : ScientificText s q) :
    takeSign s = (false, s) ∧ ∃ c ∈ s, lowerChar c = c ∧ c ∉ "+-infityna".toList := by
  obtain ⟨b, x, q0, k, rfl, hb, -, -⟩ := h
  rcases hb with ⟨n, hn, rfl⟩ | ⟨ip, fp, n, rfl, hn, rfl⟩
  · cases b with
    | nil => exact absurd ((parseDigits_iff _ _).2 hn) (by simp [parseDigits])
    | cons c b =>
      obtain ⟨d, hd, rfl⟩ := numeral_all hn c (by simp)
      have := digit_plain hd
      exact ⟨takeSign_plain this.2.2.2.1 this.2.2.2.2.1, _, by simp, this.1, this.2.2.2.2.2⟩
  · refine ⟨?_, '.', by simp, dot_plain⟩
    cases ip with
    | nil => exact takeSign_plain (by decide) (by decide)
    | cons c ip =>
      obtain ⟨d, hd, rfl⟩ := numeral_all hn c (by simp)
      have := digit_plain hd
      exact takeSign_plain this.2.2.2.1 this.2.2.2.2.1

theorem signed_iff {s : Str} {neg : Bool} {q : ℚ} :
    SignedText s neg q ↔ (takeSign s).1 = neg ∧ ScientificText (takeSign s).2 q := by
  constructor
  · rintro (⟨rfl, h | ⟨t, rfl, h⟩⟩ | ⟨rfl, t, rfl, h⟩)
    · rw [(scientific_sign h).1]; exact ⟨rfl, h⟩
    · exact ⟨rfl, h⟩
    · exact ⟨rfl, h⟩
  · rintro ⟨rfl, h⟩
    rcases takeSign_cases s with ⟨u, rfl, hs⟩ | ⟨u, rfl, hs⟩ | ⟨hs, -⟩
    · exact .inr ⟨rfl, u, rfl, h⟩
    · exact .inl ⟨rfl, .inr ⟨u, rfl, h⟩⟩
    · rw [hs] at h ⊢; exact .inl ⟨rfl, .inl h⟩

theorem signed_special {s : Str} {neg : Bool} {q : ℚ} (h : SignedText s neg q) : f64Special s = none := by
  have key : ∀ {s t : Str}, ScientificText t q → (∀ c ∈ t, c ∈ s) → f64Special s = none := by
    intro s t ht hsub
    obtain ⟨-, c, hc, h1, h2⟩ := scientific_sign ht
    exact special_none (hsub c hc) h1 h2
  rcases h with ⟨rfl, h | ⟨t, rfl, h⟩⟩ | ⟨rfl, t, rfl, h⟩
  · exact key h (fun _ h => h)
  · exact key h (fun _ h => List.mem_cons_of_mem _ h)
  · exact key h (fun _ h => List.mem_cons_of_mem _ h)

theorem pow10_split (m : Nat) (k : Int) :
    ((m * 10 ^ k.toNat : Nat) : ℚ) / ((10 ^ (-k).toNat : Nat) : ℚ) = m * (10 : ℚ) ^ k := by
  rcases le_total 0 k with h | h
  · obtain ⟨j, rfl⟩ := Int.eq_ofNat_of_zero_le h
    simp
  · obtain ⟨j, hj⟩ := Int.eq_ofNat_of_zero_le (show 0 ≤ -k by omega)
    obtain rfl : k = -(j : Int) := by omega
    simp [div_eq_mul_inv]

/-- Reading a number. -/
theorem parseFloat_signed {s : Str} {neg : Bool} {q : ℚ} (h : SignedText s neg q) :
    ∃ num den : Nat, 0 < den ∧ q = num / den ∧ parseFloat s = f64Result (f64Round neg num den) := by
  obtain ⟨rfl, h2⟩ := signed_iff.1 h
  obtain ⟨m, k, hr, rfl⟩ := scientific_iff.1 h2
  exact ⟨_, _, Nat.pow_pos (by norm_num), (pow10_split m k).symm, parseFloat_decimal (signed_special h) hr⟩

/-- From half way beyond the largest float64 on, numbers are too large. -/
theorem f64Round_infinite (neg : Bool) {num den : Nat} (hd : 0 < den) (hq : f64Limit ≤ (num : ℚ) / den) :
    f64Round neg num den = .inf neg := by
  have hp : (0 : ℚ) < 2 ^ (970 : Int) := pow2_pos _
  have hn : 0 < num := by
    rcases Nat.eq_zero_or_pos num with h | h
    · exfalso
      rw [h] at hq
      have : (0 : ℚ) < f64Limit := by unfold f64Limit; exact mul_pos (by norm_num) hp
      rw [Nat.cast_zero, zero_div] at hq
      exact absurd hq (not_le.2 this)
    · exact h
  obtain ⟨k, hk, k1, k2⟩ := exp_bounds hn hd
  have hk971 : 971 ≤ k := by
    by_contra hlt
    have h1 : (2 : ℚ) ^ k ≤ 2 ^ (970 : Int) := pow2_le (by omega)
    have h2 : (num : ℚ) / den < 2 ^ 53 * 2 ^ (970 : Int) := by
      refine lt_of_lt_of_le k2 ?_
      exact mul_le_mul_of_nonneg_left h1 (by norm_num)
    unfold f64Limit at hq
    have : ((2 : ℚ) ^ 54 - 1) * 2 ^ (970 : Int) < 2 ^ 53 * 2 ^ (970 : Int) := lt_of_le_of_lt hq h2
    have := lt_of_mul_lt_mul_right this hp.le
    norm_num at this
  have he : f64Exp num den = k := by rw [hk]; exact max_eq_right (by omega)
  unfold f64Round
  rw [if_neg (by omega), he]
  have hden : 0 < den * 2 ^ k.toNat := Nat.mul_pos hd (Nat.pow_pos (by norm_num))
  have hsc := scaled num den k hd
  set n' := num * 2 ^ (-k).toNat
  set d' := den * 2 ^ k.toNat
  have hpk := pow2_pos k
  have hlow : (2 : ℚ) ^ 52 ≤ (n' : ℚ) / d' := by rw [hsc, le_div_iff₀ hpk]; exact k1
  have hnear := roundDiv_near n' hden
  have hm : 0 < roundDiv n' d' := by
    by_contra h0
    have h0 : roundDiv n' d' = 0 := by omega
    rw [h0] at hnear
    rw [abs_le] at hnear
    have := hnear.1
    norm_num at this hlow
    linarith
  unfold f64Norm
  rw [if_neg (by omega)]
  rcases Nat.lt_or_ge (roundDiv n' d') (2 ^ 53) with hlt | hge
  · rw [if_neg (by omega)]
    by_cases hk2 : 971 < k
    · rw [if_pos hk2]
    · exfalso
      obtain rfl : k = 971 := by omega
      -- the quotient is at least 2^53 - 1/2, and rounds up
      have hge : (2 : ℚ) ^ 53 - 1 / 2 ≤ (n' : ℚ) / d' := by
        rw [hsc, le_div_iff₀ hpk]
        refine le_trans (le_of_eq ?_) hq
        unfold f64Limit
        rw [show (971 : Int) = 1 + 970 by norm_num, pow2_add]
        ring
      have hdq : (0 : ℚ) < d' := by exact_mod_cast hden
      have hnat : 18014398509481983 * d' ≤ 2 * n' := by
        have : (18014398509481983 : ℚ) * d' ≤ 2 * n' := by
          rw [le_div_iff₀ hdq] at hge
          norm_num at hge
          linarith
        exact_mod_cast this
      have hdm : d' * (n' / d') + n' % d' = n' := Nat.div_add_mod n' d'
      have hml : n' % d' < d' := Nat.mod_lt n' hden
      have hq1 : 2 ^ 53 - 1 ≤ n' / d' := by
        rw [Nat.le_div_iff_mul_le hden]
        have : 2 * ((2 ^ 53 - 1) * d') ≤ 2 * n' := le_trans (by
          have : 2 * ((2 ^ 53 - 1) * d') + d' = 18014398509481983 * d' := by ring
          omega) hnat
        omega
      unfold roundDiv at hlt
      rcases Nat.lt_or_ge (n' / d') (2 ^ 53) with h1 | h1
      · have h2 : n' / d' = 2 ^ 53 - 1 := by omega
        have h3 : d' ≤ 2 * (n' % d') := by
          rw [h2] at hdm
          have e1 : 18014398509481983 * d' = 2 * (d' * (2 ^ 53 - 1)) + d' := by ring
          omega
        rw [if_neg (by omega)] at hlt
        split at hlt
        · omega
        · rw [if_neg (by rw [h2]; decide)] at hlt; omega
      · split at hlt
        · omega
        · split at hlt
          · omega
          · split at hlt <;> omega
  · rw [if_pos hge, if_pos (by omega)]

end LogCache
