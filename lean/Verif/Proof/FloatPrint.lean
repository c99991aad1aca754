import Verif.Proof.FloatOps

/-! # float64: printing times -/

namespace LogCache
open Spec

theorem fixed3_eq (s : Bool) (n : Nat) :
    fmtFixed s n 3 = (if s then ['-'] else []) ++ three n := by
  unfold fmtFixed three
  rw [fmtNat_eq]
  congr 2
  simp only [padDigits, List.nil_append, List.cons_append]
  rw [fmtDigit_eq (Nat.mod_lt _ (by decide)), fmtDigit_eq (Nat.mod_lt _ (by decide)), fmtDigit_eq (Nat.mod_lt _ (by decide))]
  have h1 : n % 10 ^ 3 / 10 / 10 % 10 = n / 100 % 10 := by omega
  have h2 : n % 10 ^ 3 / 10 % 10 = n / 10 % 10 := by omega
  have h3 : n % 10 ^ 3 % 10 = n % 10 := by omega
  rw [h1, h2, h3]

theorem fmt3_fin (s : Bool) (m : Nat) (e : Int) :
    ∃ n : Nat, (F64.fin s m e).fmt3 = fmtFixed s n 3 ∧ |(n : ℚ) - m * 2 ^ e * 1000| ≤ 1 / 2 ∧
      ∀ k : Nat, |(k : ℚ) - m * 2 ^ e * 1000| < 1 / 2 → n = k := by
  have hd : 0 < 2 ^ (-e).toNat := Nat.pow_pos (by omega)
  refine ⟨_, rfl, ?_, ?_⟩
  · have := roundDiv_near (m * 2 ^ e.toNat * 1000) hd
    rwa [mag_eq] at this
  · intro k hk
    apply roundDiv_unique _ hd
    rw [mag_eq]; exact hk

theorem divNat_fin (s : Bool) (m : Nat) (e : Int) {c : Nat} (hc : 0 < c) {b : Int} (hb : -1074 ≤ b) (hb2 : b ≤ 900)
    (hq : (m : ℚ) * 2 ^ e / c < 2 ^ 52 * 2 ^ (b + 1)) :
    ∃ m' e', (F64.fin s m e).divNat c = .fin s m' e' ∧ RoundsTo ((m : ℚ) * 2 ^ e / c) b (m' * 2 ^ e') := by
  have hd : 0 < c * 2 ^ (-e).toNat := Nat.mul_pos hc (Nat.pow_pos (by omega))
  have := f64Round_to s (m * 2 ^ e.toNat) hd hb hb2 (by rw [mag_div]; exact hq)
  rw [mag_div] at this
  exact this

theorem ofInt_fin (i : Int) {b : Int} (hb : -1074 ≤ b) (hb2 : b ≤ 900) (hq : (i.natAbs : ℚ) < 2 ^ 52 * 2 ^ (b + 1)) :
    ∃ m e, f64OfInt i = .fin (decide (i < 0)) m e ∧ RoundsTo (i.natAbs : ℚ) b (m * 2 ^ e) := by
  have := f64Round_to (decide (i < 0)) i.natAbs (den := 1) (by omega) hb hb2 (by simpa using hq)
  simpa [f64OfInt] using this

/-- Milliseconds are printed as seconds with three decimals. -/
theorem formatMillis_eq (i : Int) (h : i.natAbs < 2 ^ 43 * 1000) :
    formatMillis i = thousandthsText i := by
  have hq : (i.natAbs : ℚ) < 2 ^ 43 * 1000 := by exact_mod_cast h
  obtain ⟨m, e, h1, r1⟩ := ofInt_fin i (b := 0) (by norm_num) (by norm_num) (by norm_num at hq ⊢; linarith)
  have hv : (m : ℚ) * 2 ^ e = i.natAbs := r1.exact i.natAbs (by simp)
  obtain ⟨m', e', h2, r2⟩ := divNat_fin (decide (i < 0)) m e (c := 1000) (by omega) (b := -10) (by norm_num) (by norm_num)
    (by rw [hv]; norm_num at hq ⊢; linarith)
  unfold formatMillis
  rw [h1, h2]
  obtain ⟨n, h3, _, h4⟩ := fmt3_fin (decide (i < 0)) m' e'
  have hn : n = i.natAbs := by
    apply h4
    have := r2.near
    rw [hv] at this
    have c : (2 : ℚ) ^ (-10 : Int) = 1 / 1024 := by norm_num
    rw [c, abs_le] at this
    push_cast at this
    rw [abs_lt]
    constructor <;> linarith [this.1, this.2]
  rw [h3, hn, fixed3_eq]
  unfold thousandthsText
  by_cases hneg : i < 0 <;> simp [hneg]

/-- Nanoseconds are printed as seconds, rounded to three decimals. -/
theorem formatClient_core (t : Nat) (h : t < 2 ^ 32 * 1000000000) :
    ∃ n : Nat, formatClientTime t = three n ∧ |(n : ℚ) * 1000000 - t| ≤ 501000 ∧
      ∀ ms : Nat, t = ms * 1000000 → n = ms := by
  have hq : (t : ℚ) < 2 ^ 32 * 1000000000 := by exact_mod_cast h
  obtain ⟨m, e, h1, r1⟩ := ofInt_fin t (b := 9) (by norm_num) (by norm_num)
    (by simp only [Int.natAbs_natCast]; norm_num at hq ⊢; linarith)
  have hs : decide ((t : Int) < 0) = false := by simp
  rw [hs] at h1
  simp only [Int.natAbs_natCast] at r1
  have n1 := r1.near
  have c4 : (2 : ℚ) ^ (9 : Int) = 512 := by norm_num
  rw [c4, abs_le] at n1
  have c0 : (2 : ℚ) ^ 32 = 4294967296 := by norm_num
  rw [c0] at hq
  have c5 : (2 : ℚ) ^ 52 * 2 ^ (-20 + 1 : Int) = 8589934592 := by norm_num
  obtain ⟨m', e', h2, r2⟩ := divNat_fin false m e (c := 1000000000) (by omega) (b := -20) (by norm_num) (by norm_num)
    (by rw [c5]; push_cast; linarith [n1.2])
  have n2 := r2.near
  have c6 : (2 : ℚ) ^ (-20 : Int) = 1 / 1048576 := by norm_num
  rw [c6, abs_le] at n2
  push_cast at n2
  obtain ⟨n, h3, h4, h5⟩ := fmt3_fin false m' e'
  unfold formatClientTime
  rw [h1, h2, h3, fixed3_eq]
  refine ⟨n, by simp, ?_, ?_⟩
  · rw [abs_le] at h4 ⊢
    constructor <;> linarith [h4.1, h4.2, n1.1, n1.2, n2.1, n2.2]
  · intro ms hms
    apply h5
    have : (t : ℚ) = ms * 1000000 := by exact_mod_cast hms
    rw [abs_lt]
    constructor <;> linarith [n1.1, n1.2, n2.1, n2.2]

theorem three_text (n : Nat) : DecimalText (three n) ((n : ℚ) / 1000) := by
  right
  obtain ⟨ip, fp, hl, hn, h1, _⟩ := fixed_text n 3
  rw [fixed3_eq] at h1
  refine ⟨ip, fp, n, by simpa using h1, hn, ?_⟩
  rw [hl]; norm_num

theorem no_five (N : Nat) : 2 ^ N % 5 ≠ 0 := by
  induction N with
  | zero => decide
  | succ N ih => rw [Nat.pow_succ]; omega

/-- No two binary numbers differ by a thousandth. -/
theorem no_thousandth (m' m : Nat) (e' e : Int) (h : |((m' : ℚ) * 2 ^ e') - m * 2 ^ e| * 1000 = 1) : False := by
  have hK : ((m' : ℚ) * 2 ^ e') - m * 2 ^ e =
      ((m' * 2 ^ e'.toNat * 2 ^ (-e).toNat - m * 2 ^ e.toNat * 2 ^ (-e').toNat : Int) : ℚ) /
        2 ^ ((-e').toNat + (-e).toNat) := by
    rw [zpow_split e, zpow_split e', pow_add]; push_cast; field_simp
  rw [hK] at h
  generalize (m' * 2 ^ e'.toNat * 2 ^ (-e).toNat - m * 2 ^ e.toNat * 2 ^ (-e').toNat : Int) = K at h
  generalize (-e').toNat + (-e).toNat = N at h
  have hN : (0 : ℚ) < 2 ^ N := by positivity
  rw [abs_div, abs_of_pos hN, div_mul_eq_mul_div, div_eq_one_iff_eq hN.ne'] at h
  have h2 : |K| * 1000 = 2 ^ N := by exact_mod_cast h
  have h3 : K.natAbs * 1000 = 2 ^ N := by
    have : ((K.natAbs * 1000 : Nat) : Int) = ((2 ^ N : Nat) : Int) := by
      push_cast; exact h2
    exact_mod_cast this
  have := no_five N
  omega

/-- Reading a printed number and printing it again gives the same text. -/
theorem three_stable (s : Bool) (m : Nat) (e : Int) (hb : Binary64 (.fin s m e)) :
    ∃ m' e', parseFloat (F64.fin s m e).fmt3 = some (.fin s m' e') ∧ Binary64 (.fin s m' e') ∧
      (F64.fin s m' e').fmt3 = (F64.fin s m e).fmt3 := by
  obtain ⟨n, h1, h2, _⟩ := fmt3_fin s m e
  have hp := pow2_pos e
  have hd : 0 < 10 ^ 3 := by norm_num
  have hlim : ((n : Nat) : ℚ) / ((10 ^ 3 : Nat) : ℚ) < f64Limit := by
    rw [div_lt_iff₀ (by norm_num)]
    rw [abs_le] at h2
    have hm : (m : ℚ) * 2 ^ e ≤ (2 ^ 53 - 1) * 2 ^ (971 : Int) := by
      rcases hb with ⟨a, b⟩ | ⟨a, b, c, d, _⟩
      · subst a; rw [Nat.cast_zero, zero_mul]; exact mul_nonneg (by norm_num) (pow2_pos _).le
      · have h3 : (2 : ℚ) ^ e ≤ 2 ^ (971 : Int) := pow2_le d
        have h4 : (m : ℚ) ≤ 2 ^ 53 - 1 := by
          have : (m : ℚ) + 1 ≤ 2 ^ 53 := by exact_mod_cast b
          linarith
        have h5 : (0 : ℚ) ≤ 2 ^ 53 - 1 := by norm_num
        exact mul_le_mul h4 h3 hp.le h5
    unfold f64Limit
    have h6 : (2 : ℚ) ^ (971 : Int) = 2 * 2 ^ (970 : Int) := by
      have : (971 : Int) = 1 + 970 := by norm_num
      rw [this, pow2_add, zpow_one]
    have h7 : (2 : ℚ) ^ (0 : Int) ≤ 2 ^ (970 : Int) := pow2_le (by norm_num)
    rw [zpow_zero] at h7
    rw [h6] at hm
    clear h6
    generalize (2 : ℚ) ^ (970 : Int) = X at *
    generalize (m : ℚ) * 2 ^ e = V at *
    norm_num at hm ⊢
    linarith [h2.2]
  have hfin := f64Round_finite s n hd hlim
  have hparse : parseFloat (F64.fin s m e).fmt3 = some (f64Round s n (10 ^ 3)) := by
    rw [h1, parse_fixed, f64Result_fin hfin]
  have hbin := f64Round_binary s n hd
  obtain ⟨m', e', hx⟩ : ∃ m' e', f64Round s n (10 ^ 3) = .fin s m' e' := by
    rcases hx : f64Round s n (10 ^ 3) with _ | _ | ⟨s', m', e'⟩
    · rw [hx] at hfin; exact hfin.elim
    · rw [hx] at hfin; exact hfin.elim
    · have hs : s' = s := by
        unfold f64Round at hx
        split at hx
        · injection hx with a; exact a.symm
        · unfold f64Norm at hx
          split at hx
          · injection hx with a; exact a.symm
          · split at hx
            · split at hx
              · cases hx
              · injection hx with a; exact a.symm
            · split at hx
              · cases hx
              · injection hx with a; exact a.symm
      exact ⟨m', e', by rw [hs]⟩
  rw [hx] at hparse hbin
  refine ⟨m', e', hparse, hbin, ?_⟩
  -- the number read is at least as near to the printed one as the number printed
  have hb' : Binary64 (.fin false m e) := hb
  have hnear := f64Round_nearest s n hd hx hb'
  simp only [f64Value, Bool.false_eq_true, if_false, one_mul] at hnear
  have hcast : ((n : Nat) : ℚ) / ((10 ^ 3 : Nat) : ℚ) = n / 1000 := by norm_num
  rw [hcast] at hnear
  obtain ⟨n', g1, g2, g3⟩ := fmt3_fin s m' e'
  have habs : ∀ v : ℚ, |(n : ℚ) - v * 1000| = |v - n / 1000| * 1000 := by
    intro v
    rw [abs_sub_comm, ← abs_of_pos (show (0 : ℚ) < 1000 by norm_num), ← abs_mul, abs_of_pos (show (0 : ℚ) < 1000 by norm_num)]
    congr 1; ring
  have hle : |(n : ℚ) - m' * 2 ^ e' * 1000| ≤ |(n : ℚ) - m * 2 ^ e * 1000| := by
    rw [habs, habs]; linarith
  rcases (hle.trans h2).lt_or_eq with hlt | heq
  · rw [g1, h1, g3 n hlt]
  · -- a tie: both numbers are half a thousandth away
    have heq2 : |(n : ℚ) - m * 2 ^ e * 1000| = 1 / 2 := le_antisymm h2 (heq ▸ hle)
    have hsame : (m' : ℚ) * 2 ^ e' = m * 2 ^ e := by
      by_contra hne
      -- otherwise they differ by a thousandth
      have hdiff : |((m' : ℚ) * 2 ^ e') - m * 2 ^ e| * 1000 = 1 := by
        rcases abs_cases ((n : ℚ) - m' * 2 ^ e' * 1000) with ⟨a, _⟩ | ⟨a, _⟩ <;>
          rcases abs_cases ((n : ℚ) - m * 2 ^ e * 1000) with ⟨b, _⟩ | ⟨b, _⟩ <;>
          rcases abs_cases ((m' : ℚ) * 2 ^ e' - m * 2 ^ e) with ⟨c, _⟩ | ⟨c, _⟩
        all_goals first
          | (exfalso; apply hne; linarith)
          | linarith
      exact no_thousandth m' m e' e hdiff
    have hd2 : 0 < 2 ^ (-e).toNat := Nat.pow_pos (by omega)
    have hv := mag_eq m e 1
    rw [Nat.mul_one, Nat.cast_one, mul_one] at hv
    have x1 := f64Round_exact hb hd2 hv
    have x2 := f64Round_exact hbin hd2 (by rw [hv, hsame])
    rw [← x1, ← x2]

end LogCache
