import Verif.Model.FloatShort
import Verif.Proof.FloatOps
import Verif.Proof.FloatGrammar

/-! # Seventeen digits are enough -/

namespace LogCache
open Spec

/-- Different float64 numbers have a distance of at least `2^-53` of either. -/
theorem f64_gap {m m' : Nat} {e e' : Int} {s s' : Bool} (h : Binary64 (.fin s m e)) (h' : Binary64 (.fin s' m' e'))
    (hm : 0 < m) (hne : (m : ℚ) * 2 ^ e ≠ m' * 2 ^ e') :
    (m : ℚ) * 2 ^ e / 9007199254740992 ≤ |(m' : ℚ) * 2 ^ e' - m * 2 ^ e| := by
  rcases h with ⟨h0, -⟩ | ⟨-, h2, h3, h4, h5⟩
  · omega
  have hp := pow2_pos e
  have hp' := pow2_pos e'
  have hm2 : (m : ℚ) < 9007199254740992 := by exact_mod_cast h2
  have hmp : (0 : ℚ) < m := by exact_mod_cast hm
  rcases h' with ⟨h0', -⟩ | ⟨h1', h2', h3', h4', h5'⟩
  · subst h0'
    rw [Nat.cast_zero, zero_mul, zero_sub, abs_neg, abs_of_pos (by positivity)]
    have : (0 : ℚ) < m * 2 ^ e := by positivity
    linarith
  have hm2' : (m' : ℚ) ≤ 9007199254740991 := by exact_mod_cast (by omega : m' ≤ 9007199254740991)
  rcases lt_or_ge e' e with hlt | hge
  · have hfull : (4503599627370496 : ℚ) ≤ m := by
      exact_mod_cast (h5.resolve_left (by omega) : 2 ^ 52 ≤ m)
    have hpe : (2 : ℚ) * 2 ^ e' ≤ 2 ^ e := by
      have := pow2_le (show e' + 1 ≤ e by omega)
      rw [pow2_add] at this
      linarith [this, (by norm_num : (2 : ℚ) ^ (1 : Int) = 2)]
    have k1 : (m' : ℚ) * 2 ^ e' ≤ 9007199254740991 * 2 ^ e' := by nlinarith
    have k2 : (4503599627370496 : ℚ) * 2 ^ e ≤ m * 2 ^ e := by nlinarith
    generalize (m : ℚ) * 2 ^ e = v at *
    generalize (m' : ℚ) * 2 ^ e' = w at *
    rw [abs_sub_comm, abs_of_nonneg (by linarith)]
    linarith
  · have hsplit : (2 : ℚ) ^ e' = ((2 ^ (e' - e).toNat : Nat) : ℚ) * 2 ^ e := by
      have h6 : e' = ((e' - e).toNat : Int) + e := by omega
      conv_lhs => rw [h6, pow2_add, zpow_natCast]
      push_cast; rfl
    rw [hsplit, ← mul_assoc, ← sub_mul, abs_mul, abs_of_pos hp]
    have hz : (1 : ℚ) ≤ |(m' : ℚ) * ((2 ^ (e' - e).toNat : Nat) : ℚ) - m| := by
      have hi : ((m' : Int) * (2 ^ (e' - e).toNat : Nat) - m) ≠ 0 := by
        intro hc
        apply hne
        rw [hsplit, ← mul_assoc]
        have : (m : Int) = (m' : Int) * (2 ^ (e' - e).toNat : Nat) := by omega
        have hq : (m : ℚ) = (m' : ℚ) * ((2 ^ (e' - e).toNat : Nat) : ℚ) := by exact_mod_cast this
        rw [← hq]
      have := Int.one_le_abs hi
      have hq : (1 : ℚ) ≤ ((|(m' : Int) * (2 ^ (e' - e).toNat : Nat) - m| : Int) : ℚ) := by exact_mod_cast this
      rw [Int.cast_abs] at hq
      push_cast at hq ⊢
      exact hq
    nlinarith

/-- A number closer than `10^-16` of a float64, halved, is read as it. -/
theorem f64Round_close (s : Bool) {m : Nat} {e : Int} (h : Binary64 (.fin s m e)) (hm : 0 < m) {num den : Nat} (hd : 0 < den)
    (hq : |(num : ℚ) / den - m * 2 ^ e| * 20000000000000000 ≤ m * 2 ^ e) : f64Round s num den = .fin s m e := by
  have hv : (0 : ℚ) < m * 2 ^ e := by
    have := pow2_pos e
    have : (0 : ℚ) < m := by exact_mod_cast hm
    positivity
  have hb := h
  rcases h with ⟨h0, -⟩ | ⟨-, h2, h3, h4, h5⟩
  · omega
  have hle : (m : ℚ) * 2 ^ e ≤ 9007199254740991 * 2 ^ (971 : Int) := by
    have := pow2_le h4
    have hp := pow2_pos e
    have hmq : (m : ℚ) ≤ 9007199254740991 := by exact_mod_cast (by omega : m ≤ 9007199254740991)
    have : (m : ℚ) * 2 ^ e ≤ 9007199254740991 * 2 ^ e := by nlinarith
    linarith
  have hfin : IsFinite64 (f64Round s num den) := by
    apply f64Round_finite s num hd
    unfold f64Limit
    have e1 : (2 : ℚ) ^ (971 : Int) = 2 * 2 ^ (970 : Int) := by
      rw [show (971 : Int) = 1 + 970 by norm_num, pow2_add]; norm_num
    have hp := pow2_pos 970
    have := le_abs_self ((num : ℚ) / den - m * 2 ^ e)
    rw [e1] at hle
    generalize (2 : ℚ) ^ (970 : Int) = p at *
    generalize (m : ℚ) * 2 ^ e = v at *
    generalize (num : ℚ) / den = q at *
    generalize |q - v| = a at *
    have c : (2 : ℚ) ^ 54 = 18014398509481984 := by norm_num
    rw [c]
    clear e1 c h2 h5 hb
    have x1 : a ≤ v / 20000000000000000 := by linarith
    have x2 : v / 20000000000000000 ≤ 9007199254740991 * (2 * p) / 20000000000000000 := by linarith
    have x3 : (18014398509481984 - 1) * p = 18014398509481983 * p := by ring
    rw [x3]
    linarith
  cases hx : f64Round s num den with
  | nan => rw [hx] at hfin; exact hfin.elim
  | inf _ => rw [hx] at hfin; exact hfin.elim
  | fin s' m' e' =>
    have hbx : Binary64 (.fin s' m' e') := hx ▸ f64Round_binary s num hd
    have hs : s' = s := by
      unfold f64Round f64Norm at hx
      split at hx
      · injection hx with a; exact a.symm
      · split at hx
        · injection hx with a; exact a.symm
        · split at hx
          · split at hx
            · cases hx
            · injection hx with a; exact a.symm
          · split at hx
            · cases hx
            · injection hx with a; exact a.symm
    subst hs
    have hn := f64Round_nearest s' num hd hx (y := .fin false m e) hb
    have hval : (m : ℚ) * 2 ^ e = m' * 2 ^ e' := by
      by_contra hne
      have hg := f64_gap hb hbx hm hne
      simp only [f64Value, Bool.false_eq_true, if_false, one_mul] at hn
      have ht := abs_sub_le ((m' : ℚ) * 2 ^ e') ((num : ℚ) / den) (m * 2 ^ e)
      rw [abs_sub_comm ((m : ℚ) * 2 ^ e)] at hn
      generalize (m : ℚ) * 2 ^ e = v at *
      generalize (m' : ℚ) * 2 ^ e' = w at *
      generalize (num : ℚ) / den = q at *
      linarith
    have e1 := f64Round_exact hb (num := m * 2 ^ e.toNat) (den := 2 ^ (-e).toNat) (Nat.pow_pos (by omega))
      (by have := mag_eq m e 1; rw [Nat.mul_one] at this; rw [this]; simp)
    have e2 := f64Round_exact hbx (num := m * 2 ^ e.toNat) (den := 2 ^ (-e).toNat) (Nat.pow_pos (by omega))
      (by have := mag_eq m e 1; rw [Nat.mul_one] at this; rw [this, ← hval]; simp)
    rw [← e2, e1]

theorem digitCount_bounds (n : Nat) : n < 10 ^ digitCount n ∧ (0 < n → 10 ^ (digitCount n - 1) ≤ n) := by
  induction n using Nat.strongRecOn with
  | _ n ih =>
    rw [digitCount]
    split
    · rename_i h
      exact ⟨by omega, fun h => by rw [Nat.sub_self, Nat.pow_zero]; exact h⟩
    · rename_i h
      obtain ⟨h1, h2⟩ := ih (n / 10) (by omega)
      have h3 := h2 (by omega)
      have hc : 0 < digitCount (n / 10) := by rw [digitCount]; split <;> omega
      refine ⟨by rw [Nat.pow_succ]; omega, fun _ => ?_⟩
      rw [Nat.add_sub_cancel]
      calc 10 ^ digitCount (n / 10) = 10 ^ (digitCount (n / 10) - 1) * 10 := by
            rw [← Nat.pow_succ]; congr 1; omega
        _ ≤ n := by omega

theorem digitCount_pos (n : Nat) : 0 < digitCount n := by rw [digitCount]; split <;> omega

/-- The decimal point is where it belongs. -/
theorem decimalPoint_bounds {num den : Nat} (hd : 0 < den) (h : den ≤ num * 10 ^ 400) :
    (10 : ℚ) ^ (decimalPoint num den - 1) ≤ (num : ℚ) / den ∧ (num : ℚ) / den < (10 : ℚ) ^ decimalPoint num den := by
  have hdq : (0 : ℚ) < den := by exact_mod_cast hd
  have hN : 0 < num * 10 ^ 400 / den := Nat.div_pos h hd
  obtain ⟨b1, b2⟩ := digitCount_bounds (num * 10 ^ 400 / den)
  have b3 := b2 hN
  have hc := digitCount_pos (num * 10 ^ 400 / den)
  have d1 : num * 10 ^ 400 / den * den ≤ num * 10 ^ 400 := Nat.div_mul_le_self _ _
  have d2 : num * 10 ^ 400 < (num * 10 ^ 400 / den + 1) * den := by
    have := Nat.lt_div_mul_add hd (a := num * 10 ^ 400)
    rw [Nat.add_mul, Nat.one_mul]; omega
  unfold decimalPoint
  generalize num * 10 ^ 400 / den = N at *
  generalize digitCount N = L at *
  have hs : ((10 : ℚ) ^ (400 : Int)) = ((10 ^ 400 : Nat) : ℚ) := by
    rw [show (400 : Int) = ((400 : Nat) : Int) by rfl, zpow_natCast]; push_cast; rfl
  have hT : (0 : ℚ) < ((10 ^ 400 : Nat) : ℚ) := by exact_mod_cast Nat.pow_pos (n := 400) (show 0 < 10 by omega)
  have q1 : (N : ℚ) * den ≤ num * ((10 ^ 400 : Nat) : ℚ) := by exact_mod_cast d1
  have q2 : (num : ℚ) * ((10 ^ 400 : Nat) : ℚ) < (N + 1) * den := by exact_mod_cast d2
  have q3 : ((10 ^ (L - 1) : Nat) : ℚ) ≤ N := by exact_mod_cast b3
  have q4 : (N : ℚ) + 1 ≤ ((10 ^ L : Nat) : ℚ) := by exact_mod_cast b1
  have hten : (10 : ℚ) ≠ 0 := by norm_num
  have e1 : (10 : ℚ) ^ ((L : Int) - 400 - 1) = ((10 ^ (L - 1) : Nat) : ℚ) / ((10 ^ 400 : Nat) : ℚ) := by
    rw [show (L : Int) - 400 - 1 = ((L - 1 : Nat) : Int) - 400 by omega, zpow_sub₀ hten, hs, zpow_natCast]
    push_cast; rfl
  have e2 : (10 : ℚ) ^ ((L : Int) - 400) = ((10 ^ L : Nat) : ℚ) / ((10 ^ 400 : Nat) : ℚ) := by
    rw [zpow_sub₀ hten, hs, zpow_natCast]
    push_cast; rfl
  rw [e1, e2]
  generalize ((10 ^ 400 : Nat) : ℚ) = T at *
  generalize ((10 ^ (L - 1) : Nat) : ℚ) = A at *
  generalize ((10 ^ L : Nat) : ℚ) = B at *
  constructor
  · rw [div_le_div_iff₀ hT hdq]
    nlinarith
  · rw [div_lt_div_iff₀ hdq hT]
    nlinarith

theorem pow10_pos (k : Int) : (0 : ℚ) < 10 ^ k := zpow_pos (by norm_num) k

/-- Scaling by powers of ten. -/
theorem scaled10 (num den : Nat) (k : Int) (hd : 0 < den) :
    ((num * 10 ^ (-k).toNat : Nat) : ℚ) / ((den * 10 ^ k.toNat : Nat) : ℚ) = (num : ℚ) / den / 10 ^ k := by
  have h := pow10_split 1 k
  rw [Nat.one_mul, Nat.cast_one, one_mul] at h
  rw [← h]
  have h1 : (den : ℚ) ≠ 0 := by exact_mod_cast (by omega : den ≠ 0)
  have h2 : ((10 ^ k.toNat : Nat) : ℚ) ≠ 0 := by exact_mod_cast (Nat.pow_pos (by omega)).ne'
  have h3 : ((10 ^ (-k).toNat : Nat) : ℚ) ≠ 0 := by exact_mod_cast (Nat.pow_pos (by omega)).ne'
  rw [Nat.cast_mul, Nat.cast_mul]
  generalize ((10 ^ k.toNat : Nat) : ℚ) = x at *
  generalize ((10 ^ (-k).toNat : Nat) : ℚ) = y at *
  field_simp

/-- The decimal point of a float64 above zero. -/
theorem point_bounds {s : Bool} {m : Nat} {e : Int} (h : Binary64 (.fin s m e)) (hm : 0 < m) :
    (10 : ℚ) ^ (decimalPoint (m * 2 ^ e.toNat) (2 ^ (-e).toNat) - 1) ≤ m * 2 ^ e ∧
    (m : ℚ) * 2 ^ e < (10 : ℚ) ^ decimalPoint (m * 2 ^ e.toNat) (2 ^ (-e).toNat) := by
  have he : -1074 ≤ e := by
    rcases h with ⟨h0, -⟩ | ⟨-, -, h3, -⟩
    · omega
    · exact h3
  have h1 : 2 ^ (-e).toNat ≤ m * 2 ^ e.toNat * 10 ^ 400 := by
    calc 2 ^ (-e).toNat ≤ 2 ^ 1074 := Nat.pow_le_pow_right (by omega) (by omega)
      _ ≤ 10 ^ 400 := by decide +kernel
      _ = 1 * 10 ^ 400 := by rw [Nat.one_mul]
      _ ≤ m * 2 ^ e.toNat * 10 ^ 400 := Nat.mul_le_mul_right _ (Nat.mul_pos hm (Nat.pow_pos (by omega)))
  have := decimalPoint_bounds (Nat.pow_pos (by omega)) h1
  have hv := mag_eq m e 1
  rw [Nat.mul_one, Nat.cast_one, mul_one] at hv
  rwa [hv] at this

theorem roundDiv_or (a b : Nat) : roundDiv a b = a / b ∨ roundDiv a b = a / b + 1 := by
  unfold roundDiv; split
  · exact .inl rfl
  · split
    · exact .inr rfl
    · split
      · exact .inl rfl
      · exact .inr rfl

/-- What is found is read as the number. -/
theorem units_reads {m : Nat} {e : Int} {a b d : Nat} {k k' : Int} (h : shortUnits m e a b k' = some (d, k)) :
    readsAs m e d k = true := by
  unfold shortUnits at h
  have h3 := roundDiv_or a b
  generalize roundDiv a b = r at h h3
  split at h
  · split at h
    · cases h
      rcases h3 with h3 | h3 <;> rw [h3] <;> assumption
    · cases h; assumption
  · split at h
    · cases h; assumption
    · cases h

theorem units_some {m : Nat} {e : Int} {a b : Nat} {k : Int} (key : readsAs m e (roundDiv a b) k = true) :
    shortUnits m e a b k ≠ none := by
  unfold shortUnits
  have h3 := roundDiv_or a b
  generalize roundDiv a b = r at key h3
  rcases h3 with h3 | h3 <;> subst h3
  · rw [if_pos key]; split <;> simp
  · rw [if_pos key, if_pos key]; split <;> simp

theorem close_17 {m : Nat} {e : Int} (hb : Binary64 (.fin false m e)) (hm : 0 < m) (k : Int)
    (b1 : 10000000000000000 * (10 : ℚ) ^ k ≤ m * 2 ^ e) :
    readsAs m e (roundDiv (m * 2 ^ e.toNat * 10 ^ (-k).toNat) (2 ^ (-e).toNat * 10 ^ k.toNat)) k = true := by
  have hn := roundDiv_near (m * 2 ^ e.toNat * 10 ^ (-k).toNat)
    (d := 2 ^ (-e).toNat * 10 ^ k.toNat) (Nat.mul_pos (Nat.pow_pos (by omega)) (Nat.pow_pos (by omega)))
  rw [scaled10 _ _ _ (Nat.pow_pos (by omega))] at hn
  have hv := mag_eq m e 1
  rw [Nat.mul_one, Nat.cast_one, mul_one] at hv
  rw [hv] at hn
  generalize roundDiv (m * 2 ^ e.toNat * 10 ^ (-k).toNat) (2 ^ (-e).toNat * 10 ^ k.toNat) = r at hn ⊢
  unfold readsAs
  rw [decide_eq_true_eq]
  apply f64Round_close false hb hm (Nat.pow_pos (by omega))
  rw [pow10_split]
  have hp := pow10_pos k
  clear hv hm hb
  generalize (10 : ℚ) ^ k = t at hp b1 hn ⊢
  generalize (m : ℚ) * 2 ^ e = v at b1 hn ⊢
  have e2 : (r : ℚ) * t - v = (r - v / t) * t := by field_simp
  rw [e2, abs_mul, abs_of_pos hp]
  generalize |(r : ℚ) - v / t| = x at hn ⊢
  nlinarith

/-- Seventeen digits are enough. -/
theorem shortAt_17 {s : Bool} {m : Nat} {e : Int} (h : Binary64 (.fin s m e)) (hm : 0 < m) : shortAt m e 17 ≠ none := by
  obtain ⟨b1, -⟩ := point_bounds h hm
  apply units_some
  apply close_17 h hm
  refine le_trans (le_of_eq ?_) b1
  generalize decimalPoint (m * 2 ^ e.toNat) (2 ^ (-e).toNat) = p
  rw [show p - 1 = 16 + (p - ((17 : Nat) : Int)) by push_cast; ring, zpow_add₀ (by norm_num : (10 : ℚ) ≠ 0)]
  norm_num

/-- The digits that are written are read as the number. -/
theorem shortDigits_reads {s : Bool} {m : Nat} {e : Int} (h : Binary64 (.fin s m e)) (hm : 0 < m) :
    readsAs m e (shortDigits m e).1 (shortDigits m e).2 = true := by
  unfold shortDigits
  cases hf : (List.range 17).findSome? fun (i : Nat) => shortAt m e (i + 1) with
  | none =>
    rw [List.findSome?_eq_none_iff] at hf
    exact absurd (hf 16 (by simp)) (shortAt_17 h hm)
  | some dk =>
    obtain ⟨i, -, hi⟩ := List.exists_of_findSome?_eq_some hf
    exact units_reads hi

/-! ## The text -/

theorem trimZeros_value (d j : Nat) :
    ((trimZeros d j).1 : ℚ) / 10 ^ (trimZeros d j).2 = d / 10 ^ j := by
  induction j generalizing d with
  | zero => rw [trimZeros]
  | succ j ih =>
    rw [trimZeros]
    split
    · rename_i h
      rw [ih]
      have : (d : ℚ) = ((d / 10 : Nat) : ℚ) * 10 := by exact_mod_cast (by omega : d = d / 10 * 10)
      rw [this, pow_succ]
      field_simp
    · rfl

/-- The text is read as the number it was made from. -/
theorem parse_plain (neg : Bool) (d : Nat) (k : Int) :
    parseFloat (fmtPlain neg d k) = f64Result (f64Round neg (d * 10 ^ k.toNat) (10 ^ (-k).toNat)) := by
  have hval := trimZeros_value (d * 10 ^ k.toNat) (-k).toNat
  unfold fmtPlain
  simp only
  generalize trimZeros (d * 10 ^ k.toNat) (-k).toNat = p at *
  obtain ⟨c, j⟩ := p
  simp only at hval ⊢
  have hgoal : f64Round neg c (10 ^ j) = f64Round neg (d * 10 ^ k.toNat) (10 ^ (-k).toNat) := by
    apply f64Round_congr neg (Nat.pow_pos (by omega)) (Nat.pow_pos (by omega))
    push_cast at hval ⊢
    exact hval
  rw [← hgoal]
  by_cases hj : j = 0
  · subst hj
    rw [if_pos rfl, fmtNat_eq, List.append_nil]
    have hdec : DecimalText (dec c) c := .inl ⟨c, numeral_dec c, rfl⟩
    have hsci : ScientificText (dec c) c := ⟨dec c, [], c, 0, by simp, hdec, .inl ⟨rfl, rfl⟩, by simp⟩
    have hsig : SignedText ((if neg then ['-'] else []) ++ dec c) neg c := by
      cases neg
      · exact .inl ⟨rfl, .inl hsci⟩
      · exact .inr ⟨rfl, dec c, rfl, hsci⟩
    obtain ⟨num, den, h1, h2, h3⟩ := parseFloat_signed hsig
    rw [h3]
    congr 1
    apply f64Round_congr neg h1 (by simp)
    rw [← h2]; simp
  · rw [if_neg hj, parse_fixed]

/-- The shortest notation of a float64 is read as that float64. -/
theorem short_read (x : F64) (hx : Binary64 x) : parseFloat x.fmtShort = some x := by
  cases x with
  | nan => show parseFloat "NaN".toList = some .nan; decide +kernel
  | inf s =>
    cases s
    · show parseFloat "+Inf".toList = some (.inf false); decide +kernel
    · show parseFloat "-Inf".toList = some (.inf true); decide +kernel
  | fin s m e =>
    unfold F64.fmtShort
    by_cases hm : m = 0
    · have he : e = 0 := by rcases hx with ⟨-, h⟩ | ⟨h, -⟩ <;> omega
      subst hm; subst he
      simp only [if_true]
      cases s <;> decide +kernel
    · simp only
      rw [if_neg hm, parse_plain]
      have := shortDigits_reads hx (Nat.pos_of_ne_zero hm)
      unfold readsAs at this
      rw [decide_eq_true_eq] at this
      have hs : f64Round s ((shortDigits m e).1 * 10 ^ (shortDigits m e).2.toNat) (10 ^ (-(shortDigits m e).2).toNat) = .fin s m e := by
        revert this
        generalize (shortDigits m e).1 * 10 ^ (shortDigits m e).2.toNat = num
        generalize 10 ^ (-(shortDigits m e).2).toNat = den
        unfold f64Round f64Norm
        intro h
        split at h
        · rw [if_pos (by assumption)]; cases h; rfl
        rw [if_neg (by assumption)]
        split at h
        · rw [if_pos (by assumption)]; cases h; rfl
        rw [if_neg (by assumption)]
        split at h
        · rw [if_pos (by assumption)]
          split at h
          · cases h
          · rw [if_neg (by assumption)]; cases h; rfl
        · rw [if_neg (by assumption)]
          split at h
          · cases h
          · rw [if_neg (by assumption)]; cases h; rfl
      rw [hs]
      rfl

end LogCache
