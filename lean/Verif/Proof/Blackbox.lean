import Verif.Model.Blackbox
import Verif.Proof.FloatPrint

/-! # Whole seconds in float64 -/

namespace LogCache
open Spec

/-- Whole numbers below `2^53` are exact. -/
theorem ofNat_exact (a : Nat) (h : a < 2 ^ 53) :
    ∃ m e, f64OfInt (a : Int) = .fin false m e ∧ (m : ℚ) * 2 ^ e = a := by
  have hq : (a : ℚ) < 2 ^ 53 := by exact_mod_cast h
  obtain ⟨m, e, h1, r⟩ := ofInt_fin (a : Int) (b := 0) (by norm_num) (by norm_num)
    (by rw [Int.natAbs_natCast]; norm_num at hq ⊢; linarith)
  have hs : decide ((a : Int) < 0) = false := by simp
  rw [hs] at h1
  refine ⟨m, e, h1, ?_⟩
  have := r.exact (a : Int) (by simp)
  simpa using this

theorem ofNat_round (a : Nat) : f64OfInt (a : Int) = f64Round false a 1 := by
  unfold f64OfInt
  rw [show decide ((a : Int) < 0) = false by simp, Int.natAbs_natCast]

/-- `Seconds()` of whole seconds. -/
theorem durSeconds_whole (a : Nat) (h : a < 2 ^ 53) : durSeconds ((a : Int) * 1000000000) = f64OfInt (a : Int) := by
  obtain ⟨m, e, h1, hv⟩ := ofNat_exact a h
  unfold durSeconds
  rw [Int.mul_tdiv_cancel _ (by decide), Int.mul_tmod_left]
  have hz : (f64OfInt 0).divNat 1000000000 = .fin false 0 0 := by decide +kernel
  rw [hz, h1]
  unfold F64.add
  simp only [Bool.false_eq_true, if_false, one_mul, Nat.zero_mul, Nat.cast_zero, add_zero, Bool.and_self]
  by_cases hm : m = 0
  · subst hm
    have : a = 0 := by have := hv; simp at this; exact_mod_cast this.symm
    subst this
    have : f64OfInt ((0 : Nat) : Int) = .fin false 0 0 := by decide +kernel
    rw [this] at h1
    simp [h1]
  · have hpos : 0 < m * 2 ^ (e - min e 0).toNat := Nat.mul_pos (by omega) (Nat.pow_pos (by omega))
    rw [if_neg (by exact_mod_cast (by omega : m * 2 ^ (e - min e 0).toNat ≠ 0))]
    rw [show decide (((m * 2 ^ (e - min e 0).toNat : Nat) : Int) < 0) = false by simp, Int.natAbs_natCast]
    rw [← h1, ofNat_round]
    unfold f64Pow
    refine f64Round_congr false (Nat.pow_pos (by omega)) (by omega) ?_
    have := mag_eq (m * 2 ^ (e - min e 0).toNat) (min e 0) 1
    rw [Nat.mul_one] at this
    rw [this]
    push_cast
    rw [mul_one, div_one, ← hv]
    rcases le_total e 0 with he | he
    · rw [min_eq_left he]; simp
    · rw [min_eq_right he]
      obtain ⟨k, rfl⟩ := Int.eq_ofNat_of_zero_le he
      simp

/-- The quotient of whole numbers below `2^53`. -/
theorem div_whole (a b : Nat) (ha : a < 2 ^ 53) (hb : b < 2 ^ 53) (hpos : 0 < b) :
    (f64OfInt (a : Int)).div (f64OfInt (b : Int)) = f64Round false a b := by
  obtain ⟨m, e, h1, hv⟩ := ofNat_exact a ha
  obtain ⟨m', e', h2, hv'⟩ := ofNat_exact b hb
  rw [h1, h2]
  have hm' : m' ≠ 0 := by
    intro h0
    rw [h0] at hv'
    have : (b : ℚ) = 0 := by rw [← hv']; simp
    have : b = 0 := by exact_mod_cast this
    omega
  unfold F64.div
  simp only
  rw [if_neg hm']
  show f64Round false _ _ = _
  have hp : ∀ k, 0 < 2 ^ k := fun k => Nat.pow_pos (by omega)
  refine f64Round_congr false (Nat.mul_pos (Nat.mul_pos (Nat.pos_of_ne_zero hm') (hp _)) (hp _)) hpos ?_
  rw [← hv, ← hv', zpow_split e, zpow_split e']
  have : (m' : ℚ) ≠ 0 := by exact_mod_cast hm'
  push_cast
  field_simp

/-- Truncating a rounded quotient of whole numbers is exact. -/
theorem round_floor (a b : Nat) (ha : a < 2 ^ 53) (hbm : b < 2 ^ 53) (hb : 0 < b) : (f64Round false a b).toInt64 = ((a / b : Nat) : Int) := by
  rcases Nat.eq_zero_or_pos a with h0 | hpos
  · subst h0
    rw [Nat.zero_div]
    unfold f64Round
    rw [if_pos rfl]
    rfl
  have hbq : (0 : ℚ) < b := by exact_mod_cast hb
  have haq : (a : ℚ) < 9007199254740992 := by exact_mod_cast (show a < 9007199254740992 from ha)
  have hbmq : (b : ℚ) < 9007199254740992 := by exact_mod_cast (show b < 9007199254740992 from hbm)
  have hb1 : (1 : ℚ) ≤ b := by exact_mod_cast hb
  have ha0 : (0 : ℚ) < a := by exact_mod_cast hpos
  have hle : (a : ℚ) / b ≤ a := by rw [div_le_iff₀ hbq]; nlinarith
  obtain ⟨m, e, h1, r⟩ := f64Round_to false a hb (b := 0) (by norm_num) (by norm_num)
    (by norm_num; linarith)
  have hlt63 : (m : ℚ) * 2 ^ e < 2 ^ 63 := by
    have := (abs_le.1 r.near).2
    norm_num at this ⊢
    linarith
  obtain ⟨k, hk, k1, k2⟩ := toInt64_floor m e hlt63
  rw [h1, hk]
  clear hk
  -- not below the whole part
  have hn : a / b < 2 ^ 53 := lt_of_le_of_lt (Nat.div_le_self a b) ha
  obtain ⟨mn, en, hn1, hnv⟩ := ofNat_exact (a / b) hn
  have hfl : ((a / b : Nat) : ℚ) ≤ (a : ℚ) / b := by
    rw [le_div_iff₀ hbq]; exact_mod_cast Nat.div_mul_le_self a b
  have hmono := f64Round_mono (n1 := a / b) (d1 := 1) (n2 := a) (d2 := b) (by omega) hb (by simpa using hfl)
    (by rw [← ofNat_round, hn1]) h1
  rw [hnv] at hmono
  -- below the next whole number
  have hup : (m : ℚ) * 2 ^ e < ((a / b : Nat) : ℚ) + 1 := by
    have hfin : IsFinite64 (f64Round false a b) := by rw [h1]; trivial
    obtain ⟨m2, e2, hr, hv⟩ := f64Round_value false hpos hb hfin
    rw [h1] at hv
    simp only [f64Value, Bool.false_eq_true, if_false, one_mul] at hv
    rw [hv]
    have hnear := (abs_le.1 hr.near).2
    have hsmall : (2 : ℚ) ^ e2 / 2 < 1 / b := by
      rcases hr.above with h | h
      · rw [h]
        have htiny : (2 : ℚ) ^ (-1074 : Int) ≤ 2 ^ (-60 : Int) := zpow_le_zpow_right₀ (by norm_num) (by norm_num)
        generalize (2 : ℚ) ^ (-1074 : Int) = z at htiny
        rw [lt_div_iff₀ hbq]
        norm_num at htiny
        nlinarith
      · have : (2 : ℚ) ^ 52 * 2 ^ e2 * b ≤ a := by rwa [le_div_iff₀ hbq] at h
        rw [lt_div_iff₀ hbq]
        generalize (2 : ℚ) ^ e2 = z at this
        norm_num at this
        nlinarith
    have hgap : (a : ℚ) / b + 1 / b ≤ ((a / b : Nat) : ℚ) + 1 := by
      rw [← add_div, div_le_iff₀ hbq]
      have := Nat.lt_div_mul_add (a := a) hb
      have : a + 1 ≤ (a / b + 1) * b := by nlinarith
      exact_mod_cast this
    linarith
  have e1 : k < a / b + 1 := by
    have : (k : ℚ) < ((a / b : Nat) : ℚ) + 1 := lt_of_le_of_lt k1 hup
    exact_mod_cast this
  have e2 : a / b < k + 1 := by
    have : ((a / b : Nat) : ℚ) < k + 1 := lt_of_le_of_lt hmono k2
    exact_mod_cast this
  have : k = a / b := by omega
  rw [this]

end LogCache
