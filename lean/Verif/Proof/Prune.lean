import Verif.Model.Prune
import Verif.Proof.FloatPrint
/-! # float64: subtraction, division, comparison -/
namespace LogCache
open Spec

theorem mag_one (m : Nat) (e : Int) :
    ((m * 2 ^ e.toNat : Nat) : ℚ) / ((2 ^ (-e).toNat : Nat) : ℚ) = m * 2 ^ e := by
  have := mag_eq m e 1
  simpa using this

/-- The rounding of a number that is not negative. -/
structure Fl (q v : ℚ) : Prop where
  nonneg : 0 ≤ v
  up : ∀ m e, Binary64 (.fin false m e) → q ≤ (m : ℚ) * 2 ^ e → v ≤ (m : ℚ) * 2 ^ e
  down : ∀ m e, Binary64 (.fin false m e) → (m : ℚ) * 2 ^ e ≤ q → (m : ℚ) * 2 ^ e ≤ v
  err : ∀ y : ℚ, q ≤ y → (2 : ℚ) ^ (-1022 : Int) ≤ y → |v - q| ≤ y / 2 ^ 53

theorem round_fl (s : Bool) (num : Nat) {den : Nat} (hd : 0 < den) (hq : (num : ℚ) / den < f64Limit) :
    ∃ m e, f64Round s num den = .fin s m e ∧ Binary64 (.fin s m e) ∧ Fl ((num : ℚ) / den) (m * 2 ^ e) := by
  have hf := f64Round_finite s num hd hq
  have hb := f64Round_binary s num hd
  have hs : ∃ m e, f64Round s num den = .fin s m e := by
    unfold f64Round f64Norm at hf ⊢
    split
    · exact ⟨_, _, rfl⟩
    · next h0 =>
      rw [if_neg h0] at hf
      split
      · exact ⟨_, _, rfl⟩
      · next h1 =>
        rw [if_neg h1] at hf
        split
        · next h2 =>
          rw [if_pos h2] at hf
          split
          · next h3 => rw [if_pos h3] at hf; exact hf.elim
          · exact ⟨_, _, rfl⟩
        · next h2 =>
          rw [if_neg h2] at hf
          split
          · next h3 => rw [if_pos h3] at hf; exact hf.elim
          · exact ⟨_, _, rfl⟩
  obtain ⟨m, e, hme⟩ := hs
  rw [hme] at hb
  have hp := pow2_pos e
  refine ⟨m, e, hme, hb, by positivity, ?_, ?_, ?_⟩
  · intro m' e' hb' hle
    have := f64Round_nearest s num hd hme hb'
    simp only [f64Value, Bool.false_eq_true, if_false, one_mul] at this
    rw [abs_of_nonneg (by linarith : (0 : ℚ) ≤ m' * 2 ^ e' - num / den)] at this
    have := le_abs_self ((m : ℚ) * 2 ^ e - num / den)
    linarith
  · intro m' e' hb' hle
    have := f64Round_nearest s num hd hme hb'
    simp only [f64Value, Bool.false_eq_true, if_false, one_mul] at this
    rw [abs_of_nonpos (by linarith : (m' : ℚ) * 2 ^ e' - num / den ≤ 0)] at this
    have := neg_abs_le ((m : ℚ) * 2 ^ e - num / den)
    linarith
  · intro y hy hy2
    rcases Nat.eq_zero_or_pos num with hz | hn
    · subst hz
      unfold f64Round at hme
      rw [if_pos rfl] at hme
      injection hme with _ hm he
      rw [← hm, ← he]
      have := pow2_pos (-1022)
      have hy0 : 0 ≤ y := this.le.trans hy2
      simp only [Nat.cast_zero, zero_mul, zero_div, sub_zero, abs_zero]
      positivity
    · obtain ⟨m', e', hr, hv⟩ := f64Round_value s hn hd hf
      rw [hme] at hv
      have hv' : (m : ℚ) * 2 ^ e = m' * 2 ^ e' := by
        simp only [f64Value] at hv
        cases s <;> simpa using hv
      rw [hv']
      refine hr.near.trans ?_
      have key : (2 : ℚ) ^ 52 * 2 ^ e' ≤ y := by
        rcases hr.above with h | h
        · rw [h]
          refine le_trans (le_of_eq ?_) hy2
          rw [show (-1022 : Int) = 52 + -1074 by norm_num, pow2_add]
          norm_num
        · exact h.trans hy
      rw [le_div_iff₀ (by norm_num)]
      have : (2 : ℚ) ^ e' / 2 * 2 ^ 53 = 2 ^ 52 * 2 ^ e' := by ring
      linarith

/-- Units. -/
theorem units_value (m : Nat) (e e0 : Int) (h : e0 ≤ e) :
    ((f64Units false m e e0 : Int) : ℚ) * 2 ^ e0 = m * 2 ^ e := by
  unfold f64Units
  simp only [Bool.false_eq_true, if_false]
  have h6 : e = ((e - e0).toNat : Int) + e0 := by omega
  have h7 : (2 : ℚ) ^ e = 2 ^ (e - e0).toNat * 2 ^ e0 := by
    conv_lhs => rw [h6, pow2_add, zpow_natCast]
  rw [h7]; push_cast; ring

theorem gt_fin (m : Nat) (e : Int) (m' : Nat) (e' : Int) :
    (F64.fin false m e).gt (.fin false m' e') = true ↔ (m' : ℚ) * 2 ^ e' < m * 2 ^ e := by
  have hp := pow2_pos (min e e')
  simp only [F64.gt, decide_eq_true_eq]
  rw [← units_value m e (min e e') (min_le_left _ _), ← units_value m' e' (min e e') (min_le_right _ _)]
  rw [mul_lt_mul_iff_left₀ hp]
  exact_mod_cast Iff.rfl

theorem sub_fin (m : Nat) (e : Int) (m' : Nat) (e' : Int) (h : (m' : ℚ) * 2 ^ e' < m * 2 ^ e) :
    ∃ num den : Nat, 0 < den ∧ (F64.fin false m e).sub (.fin false m' e') = f64Round false num den ∧
      (num : ℚ) / den = m * 2 ^ e - m' * 2 ^ e' := by
  have hp := pow2_pos (min e e')
  have h1 := units_value m e (min e e') (min_le_left _ _)
  have h2 := units_value m' e' (min e e') (min_le_right _ _)
  simp only [F64.sub]
  generalize min e e' = e0 at *
  generalize hd : f64Units false m e e0 - f64Units false m' e' e0 = d
  have hdq : (d : ℚ) * 2 ^ e0 = m * 2 ^ e - m' * 2 ^ e' := by
    rw [← hd, ← h1, ← h2]; push_cast; ring
  have hd0 : 0 < d := by
    have : (0 : ℚ) < d := by
      by_contra hc
      push Not at hc
      nlinarith
    exact_mod_cast this
  rw [if_neg (by omega), show decide (d < 0) = false by simp; omega]
  unfold f64Pow
  refine ⟨_, _, Nat.pow_pos (by omega), rfl, ?_⟩
  rw [mag_one, ← hdq]
  congr 1
  rw [Nat.cast_natAbs, abs_of_pos hd0]

theorem div_fin (m : Nat) (e : Int) (m' : Nat) (e' : Int) (h : 0 < m') :
    ∃ num den : Nat, 0 < den ∧ (F64.fin false m e).div (.fin false m' e') = f64Round false num den ∧
      (num : ℚ) / den = m * 2 ^ e / (m' * 2 ^ e') := by
  simp only [F64.div]
  rw [if_neg (by omega)]
  refine ⟨_, _, ?_, rfl, ?_⟩
  · exact Nat.mul_pos (Nat.mul_pos h (Nat.pow_pos (by omega))) (Nat.pow_pos (by omega))
  · rw [zpow_split e, zpow_split e']
    push_cast
    have : (0 : ℚ) < m' := by exact_mod_cast h
    field_simp

theorem mul_fin (m : Nat) (e : Int) (m' : Nat) (e' : Int) :
    ∃ num den : Nat, 0 < den ∧ (F64.fin false m e).mul (.fin false m' e') = f64Round false num den ∧
      (num : ℚ) / den = m * 2 ^ e * (m' * 2 ^ e') := by
  simp only [F64.mul, f64Pow]
  refine ⟨_, _, Nat.pow_pos (by omega), rfl, ?_⟩
  rw [mag_one, pow2_add]
  push_cast; ring

theorem limit_big : (2 : ℚ) ^ 200 < f64Limit := by
  unfold f64Limit
  have : (2 : ℚ) ^ (200 : Int) ≤ 2 ^ (970 : Int) := pow2_le (by norm_num)
  have h2 : (2 : ℚ) ^ (200 : Int) = 2 ^ 200 := by norm_cast
  rw [h2] at this
  have h3 : (0 : ℚ) < 2 ^ 200 := by positivity
  generalize (2 : ℚ) ^ (970 : Int) = X at *
  generalize (2 : ℚ) ^ 200 = Y at *
  linarith

/-- Integers of at most 53 binary digits are float64 numbers. -/
theorem nat_binary (n : Nat) (h : n < 2 ^ 53) : ∃ m e, Binary64 (.fin false m e) ∧ (m : ℚ) * 2 ^ e = n := by
  obtain ⟨m, e, h1, h2⟩ := f64Round_to false n (den := 1) (by omega) (b := 0) (by norm_num) (by norm_num)
    (by simp only [Nat.cast_one, div_one, zero_add, zpow_one]
        have : (n : ℚ) < 2 ^ 53 := by exact_mod_cast h
        linarith)
  have hb := f64Round_binary false n (den := 1) (by omega)
  rw [h1] at hb
  refine ⟨m, e, hb, ?_⟩
  have := h2.exact n (by simp)
  simpa using this

theorem ofNat_fl (n : Nat) (h : n < 2 ^ 64) :
    ∃ m e, f64OfInt (n : Int) = .fin false m e ∧ Binary64 (.fin false m e) ∧ Fl n (m * 2 ^ e) := by
  unfold f64OfInt
  rw [show decide ((n : Int) < 0) = false by simp, Int.natAbs_natCast]
  have hq : (n : ℚ) / (1 : Nat) < f64Limit := by
    have : (n : ℚ) < 2 ^ 64 := by exact_mod_cast h
    have := limit_big
    simp only [Nat.cast_one, div_one]
    linarith
  have := round_fl false n (den := 1) (by omega) hq
  simpa using this

theorem fl_exact {n : Nat} {v : ℚ} (hn : n < 2 ^ 53) (h : Fl n v) : v = n := by
  obtain ⟨m, e, hb, hv⟩ := nat_binary n hn
  exact le_antisymm (hv ▸ h.up m e hb hv.ge) (hv ▸ h.down m e hb hv.le)

theorem one_binary : Binary64 (.fin false (2 ^ 52) (-52)) ∧ (((2 ^ 52 : Nat) : ℚ)) * 2 ^ (-52 : Int) = 1 := by
  constructor
  · right; norm_num
  · norm_num

theorem max_binary : Binary64 (.fin false (2 ^ 52) 12) ∧ (((2 ^ 52 : Nat) : ℚ)) * 2 ^ (12 : Int) = 2 ^ 64 := by
  constructor
  · right; norm_num
  · norm_num

/-- The percentage of the heap. -/
theorem percent_fl (heap total : Nat) (ht : 0 < total) (ht2 : total < 2 ^ 64) :
    ∃ m e, (f64OfInt ((heap * 100 % 2 ^ 64 : Nat) : Int)).div (f64OfInt (total : Int)) = .fin false m e ∧
      Binary64 (.fin false m e) ∧ (m : ℚ) * 2 ^ e ≤ 2 ^ 64 ∧
      (heap * 100 < 2 ^ 53 → total < 2 ^ 53 → Fl (100 * (heap : ℚ) / total) (m * 2 ^ e)) := by
  obtain ⟨m1, e1, a1, b1, f1⟩ := ofNat_fl (heap * 100 % 2 ^ 64) (Nat.mod_lt _ (by norm_num))
  obtain ⟨m2, e2, a2, b2, f2⟩ := ofNat_fl total ht2
  rw [a1, a2]
  have hB : (1 : ℚ) ≤ m2 * 2 ^ e2 := by
    have := f2.down _ _ one_binary.1 (by rw [one_binary.2]; exact_mod_cast ht)
    rwa [one_binary.2] at this
  have hA : (m1 : ℚ) * 2 ^ e1 ≤ 2 ^ 64 := by
    have := f1.up _ _ max_binary.1 (by
      rw [max_binary.2]
      have := Nat.mod_lt (heap * 100) (show 2 ^ 64 > 0 by norm_num)
      exact_mod_cast this.le)
    rwa [max_binary.2] at this
  have hm2 : 0 < m2 := by
    rcases Nat.eq_zero_or_pos m2 with h | h
    · rw [h] at hB; norm_num at hB
    · exact h
  obtain ⟨num, den, hd, hr, hv⟩ := div_fin m1 e1 m2 e2 hm2
  rw [hr]
  have hle : (num : ℚ) / den ≤ 2 ^ 64 := by
    rw [hv, div_le_iff₀ (by linarith)]
    have : (0 : ℚ) ≤ 2 ^ 64 := by positivity
    nlinarith
  have hlim : (num : ℚ) / den < f64Limit := by
    have := limit_big
    have h3 : (2 : ℚ) ^ 64 < 2 ^ 200 := by norm_num
    linarith
  obtain ⟨m, e, h1, h2, h3⟩ := round_fl false num hd hlim
  refine ⟨m, e, h1, h2, ?_, ?_⟩
  · have := h3.up _ _ max_binary.1 (by rw [max_binary.2]; exact hle)
    rwa [max_binary.2] at this
  · intro hh ht3
    rw [hv] at h3
    rw [Nat.mod_eq_of_lt (by omega)] at f1
    rw [fl_exact hh f1, fl_exact ht3 f2] at h3
    push_cast at h3
    rwa [mul_comm] at h3

/-- The quantity above the limit. -/
theorem prune_core {m mp : Nat} {e ep : Int} (hb : Binary64 (.fin false m e)) (hle : (m : ℚ) * 2 ^ e ≤ 2 ^ 64)
    (hgt : (mp : ℚ) * 2 ^ ep < m * 2 ^ e) (c : Nat) (hc : c < 2 ^ 53) :
    ∃ (d r x : ℚ) (k : Nat),
      ((f64OfInt (c : Int)).mul (((F64.fin false m e).sub (.fin false mp ep)).div (.fin false m e))).toInt64 = k ∧
      Fl (m * 2 ^ e - mp * 2 ^ ep) d ∧ Fl (d / (m * 2 ^ e)) r ∧ Fl (c * r) x ∧ d ≤ m * 2 ^ e ∧ r ≤ 1 ∧ x ≤ c ∧
      (k : ℚ) ≤ x ∧ x < k + 1 := by
  have hp0 : (0 : ℚ) ≤ mp * 2 ^ ep := by have := pow2_pos ep; positivity
  have hh0 : (0 : ℚ) < m * 2 ^ e := lt_of_le_of_lt hp0 hgt
  have hm0 : 0 < m := by
    rcases Nat.eq_zero_or_pos m with h | h
    · rw [h] at hh0; norm_num at hh0
    · exact h
  have hlim : ∀ q : ℚ, q ≤ 2 ^ 64 → q < f64Limit := by
    intro q hq
    have := limit_big
    have h3 : (2 : ℚ) ^ 64 < 2 ^ 200 := by norm_num
    linarith
  obtain ⟨n1, d1, p1, r1, v1⟩ := sub_fin m e mp ep hgt
  obtain ⟨md, ed, s1, b1, f1⟩ := round_fl false n1 p1 (hlim _ (by rw [v1]; linarith))
  rw [v1] at f1
  have hd := f1.up m e hb (by linarith)
  obtain ⟨n2, d2, p2, r2, v2⟩ := div_fin md ed m e hm0
  have hr1 : (md : ℚ) * 2 ^ ed / (m * 2 ^ e) ≤ 1 := (div_le_one hh0).2 hd
  obtain ⟨mr, er, s2, b2, f2⟩ := round_fl false n2 p2 (hlim _ (by rw [v2]; linarith))
  rw [v2] at f2
  have hr := f2.up _ _ one_binary.1 (by rw [one_binary.2]; exact hr1)
  rw [one_binary.2] at hr
  obtain ⟨mc, ec, ac, bc, fc⟩ := ofNat_fl c (by omega)
  have hcv := fl_exact hc fc
  have hr0 := f2.nonneg
  obtain ⟨n3, d3, p3, r3, v3⟩ := mul_fin mc ec mr er
  rw [hcv] at v3
  have hcq : (c : ℚ) < 2 ^ 53 := by exact_mod_cast hc
  have hc0 : (0 : ℚ) ≤ c := by positivity
  have hcr : (c : ℚ) * (mr * 2 ^ er) ≤ c := by nlinarith
  have h64 : (2 : ℚ) ^ 53 ≤ 2 ^ 63 ∧ (2 : ℚ) ^ 63 ≤ 2 ^ 64 := by norm_num
  obtain ⟨mx, ex, s3, b3, f3⟩ := round_fl false n3 p3 (hlim _ (by rw [v3]; linarith [h64.1, h64.2]))
  rw [v3] at f3
  have hx := f3.up mc ec bc (by rw [hcv]; exact hcr)
  rw [hcv] at hx
  obtain ⟨k, k1, k2, k3⟩ := toInt64_floor mx ex (by linarith [h64.1])
  refine ⟨md * 2 ^ ed, mr * 2 ^ er, mx * 2 ^ ex, k, ?_, f1, f2, f3, hd, hr, hx, k2, k3⟩
  rw [r1, s1, r2, s2, ac, r3, s3, k1]

/-- The roundings together are less than half an envelope. -/
theorem prune_error {c P q H d r x E : ℚ} (hc0 : 0 ≤ c) (hcq : c < 2 ^ 50) (hpp : 0 ≤ P) (hPH : P ≤ H) (hH0 : 0 < H)
    (hq0 : 0 < q) (hE : c * (1 - P / q) = E) (d1 : |H - q| ≤ q / 2 ^ 53) (g1 : |d - (H - P)| ≤ H / 2 ^ 53)
    (g2 : |r - d / H| ≤ 1 / 2 ^ 53) (hr0 : 0 ≤ r) (hr : r ≤ 1) (t4 : |x - c * r| ≤ 2 ^ 50 / 2 ^ 53) :
    |x - E| ≤ 1 / 2 := by
  have t1 : |d / H - (1 - P / H)| ≤ 1 / 2 ^ 53 := by
    have : d / H - (1 - P / H) = (d - (H - P)) / H := by field_simp
    rw [this, abs_div, abs_of_pos hH0, div_le_iff₀ hH0]
    linarith
  have t2 : |P / q - P / H| ≤ 1 / 2 ^ 53 := by
    have : P / q - P / H = (P / H) * ((H - q) / q) := by field_simp
    have hPH1 : P / H ≤ 1 := (div_le_one hH0).2 hPH
    have hPH0 : 0 ≤ P / H := div_nonneg hpp hH0.le
    have h9 : |(H - q) / q| ≤ 1 / 2 ^ 53 := by
      rw [abs_div, abs_of_pos hq0, div_le_iff₀ hq0]
      linarith
    rw [this, abs_mul, abs_of_nonneg hPH0]
    have := abs_nonneg ((H - q) / q)
    calc P / H * |(H - q) / q| ≤ 1 * |(H - q) / q| := mul_le_mul_of_nonneg_right hPH1 this
      _ ≤ _ := by rw [one_mul]; exact h9
  have t3 : |r - (1 - P / q)| ≤ 3 / 2 ^ 53 := by
    rw [abs_le] at *
    constructor <;> linarith [g2.1, g2.2, t1.1, t1.2, t2.1, t2.2]
  have t5 : |c * r - E| ≤ 2 ^ 50 * (3 / 2 ^ 53) := by
    rw [← hE, ← mul_sub, abs_mul, abs_of_nonneg hc0]
    exact mul_le_mul hcq.le t3 (abs_nonneg _) (by positivity)
  have h1 : (2 : ℚ) ^ 50 / 2 ^ 53 = 1 / 8 := by norm_num
  have h2 : (2 : ℚ) ^ 50 * (3 / 2 ^ 53) = 3 / 8 := by norm_num
  rw [h1, abs_le] at t4
  rw [h2, abs_le] at t5
  rw [abs_le]
  constructor <;> linarith [t4.1, t4.2, t5.1, t5.2]

end LogCache
