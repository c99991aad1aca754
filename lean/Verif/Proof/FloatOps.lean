import Verif.Proof.FloatText

/-! # float64: arithmetic on times -/

namespace LogCache
open Spec

/-- The absolute value of a float64. -/
def f64Mag (m : Nat) (e : Int) : ℚ := m * 2 ^ e

theorem mag_eq (m : Nat) (e : Int) (c : Nat) :
    ((m * 2 ^ e.toNat * c : Nat) : ℚ) / ((2 ^ (-e).toNat : Nat) : ℚ) = m * 2 ^ e * c := by
  rw [zpow_split e]; push_cast; field_simp

theorem mag_div (m : Nat) (e : Int) {c : Nat} :
    ((m * 2 ^ e.toNat : Nat) : ℚ) / ((c * 2 ^ (-e).toNat : Nat) : ℚ) = m * 2 ^ e / c := by
  rw [zpow_split e]; push_cast; field_simp

/-- The product with a billion. -/
theorem mul_billion (s : Bool) (m : Nat) (e : Int) : ∃ num den : Nat, 0 < den ∧
    (F64.fin s m e).mul f64Billion = f64Round s num den ∧ (num : ℚ) / den = m * 2 ^ e * 1000000000 := by
  refine ⟨_, _, ?_, by simp only [F64.mul, f64Billion, f64Pow, Bool.bne_false]; rfl, ?_⟩
  · exact Nat.pow_pos (by omega)
  · rw [Int.add_zero, Nat.mul_right_comm, mag_eq]; norm_num

theorem rounded_exp_le {q : ℚ} {m : Nat} {e : Int} (h : Rounded q m e) {b : Int} (hb : -1074 ≤ b)
    (hq : q < 2 ^ 52 * 2 ^ (b + 1)) : e ≤ b := by
  by_contra hc
  have h1 : (2 : ℚ) ^ 52 * 2 ^ e ≤ q := h.above.resolve_left (by omega)
  have h2 : (2 : ℚ) ^ (b + 1) ≤ 2 ^ e := pow2_le (by omega)
  nlinarith

/-- Multiples of the last binary place are not rounded. -/
theorem rounded_exact {q : ℚ} {m : Nat} {e : Int} (h : Rounded q m e) (k : Int) {b : Int} (he : e ≤ b)
    (hq : q = k * 2 ^ b) : (m : ℚ) * 2 ^ e = q := by
  have := h.best (k * 2 ^ (b - e).toNat)
  have hb : (2 : ℚ) ^ b = 2 ^ (b - e).toNat * 2 ^ e := by
    have h6 : b = ((b - e).toNat : Int) + e := by omega
    conv_lhs => rw [h6, pow2_add, zpow_natCast]
  have h2 : (((k * 2 ^ (b - e).toNat : Int)) : ℚ) * 2 ^ e - q = 0 := by
    rw [hq, hb]; push_cast; ring
  rw [h2, abs_zero] at this
  have := abs_nonpos_iff.1 this
  linarith

/-- A rounding of `q`, also for zero. -/
structure RoundsTo (q : ℚ) (b : Int) (v : ℚ) : Prop where
  near : |v - q| ≤ 2 ^ b / 2
  exact : ∀ k : Int, q = k * 2 ^ b → v = q
  nonneg : 0 ≤ v

/-- Rounding a number with at most 53 binary digits before the place `b`. -/
theorem f64Round_to (s : Bool) (num : Nat) {den : Nat} (hd : 0 < den) {b : Int} (hb : -1074 ≤ b) (hb2 : b ≤ 900)
    (hq : (num : ℚ) / den < 2 ^ 52 * 2 ^ (b + 1)) :
    ∃ m e, f64Round s num den = .fin s m e ∧ RoundsTo ((num : ℚ) / den) b (m * 2 ^ e) := by
  rcases Nat.eq_zero_or_pos num with h0 | hn
  · subst h0
    refine ⟨0, 0, by simp [f64Round], ?_, ?_, ?_⟩
    · have := pow2_pos b; simp; positivity
    · intro k hk; simp
    · simp
  · have hfin : IsFinite64 (f64Round s num den) := by
      apply f64Round_finite s num hd
      unfold f64Limit
      have h1 : (2 : ℚ) ^ (b + 1) ≤ 2 ^ (970 : Int) := pow2_le (by omega)
      generalize (2 : ℚ) ^ (970 : Int) = X at *
      generalize (2 : ℚ) ^ (b + 1) = Y at *
      have : (0 : ℚ) ≤ num / den := by positivity
      have : 0 < Y := by
        by_contra hc
        have : (2 : ℚ) ^ 52 * Y ≤ 0 := by nlinarith
        linarith
      nlinarith
    obtain ⟨m, e, hr, hv⟩ := f64Round_value s hn hd hfin
    rcases hx : f64Round s num den with _ | _ | ⟨s', m', e'⟩
    · rw [hx] at hfin; exact hfin.elim
    · rw [hx] at hfin; exact hfin.elim
    · have hs : s' = s := by
        have := hx
        unfold f64Round at this
        rw [if_neg (by omega)] at this
        unfold f64Norm at this
        split at this
        · injection this with a; exact a.symm
        · split at this
          · split at this
            · cases this
            · injection this with a; exact a.symm
          · split at this
            · cases this
            · injection this with a; exact a.symm
      subst hs
      refine ⟨m', e', rfl, ?_⟩
      rw [hx] at hv
      have hv' : (m' : ℚ) * 2 ^ e' = m * 2 ^ e := by
        simp only [f64Value] at hv
        cases s' <;> simpa using hv
      have he : e ≤ b := rounded_exp_le hr hb hq
      rw [hv']
      have hp := pow2_pos e
      refine ⟨?_, fun k hk => rounded_exact hr k he hk, by positivity⟩
      have := hr.near
      have := pow2_le he
      linarith

/-- Truncation. -/
theorem toInt64_floor (m : Nat) (e : Int) (h : (m : ℚ) * 2 ^ e < 2 ^ 63) :
    ∃ k : Nat, (F64.fin false m e).toInt64 = k ∧ (k : ℚ) ≤ m * 2 ^ e ∧ (m : ℚ) * 2 ^ e < k + 1 := by
  have hd : 0 < 2 ^ (-e).toNat := Nat.pow_pos (by omega)
  have hv := mag_eq m e 1
  rw [Nat.mul_one] at hv
  refine ⟨m * 2 ^ e.toNat / 2 ^ (-e).toNat, ?_, ?_, ?_⟩
  · simp only [F64.toInt64, Bool.false_eq_true, if_false]
    rw [if_pos]
    refine ⟨(by decide : -2 ^ 63 ≤ (0 : Int)).trans (Int.natCast_nonneg _), ?_⟩
    have h1 : (m * 2 ^ e.toNat / 2 ^ (-e).toNat : Nat) < 2 ^ 63 := by
      apply Nat.div_lt_of_lt_mul
      have h2 : ((m * 2 ^ e.toNat : Nat) : ℚ) / ((2 ^ (-e).toNat : Nat) : ℚ) < 2 ^ 63 := by rw [hv]; simpa using h
      rw [div_lt_iff₀ (by exact_mod_cast hd)] at h2
      rw [Nat.mul_comm (2 ^ (-e).toNat)]
      exact_mod_cast h2
    exact_mod_cast h1
  · have h2 : (m : ℚ) * 2 ^ e = ((m * 2 ^ e.toNat : Nat) : ℚ) / ((2 ^ (-e).toNat : Nat) : ℚ) := by rw [hv]; simp
    rw [h2, le_div_iff₀ (by exact_mod_cast hd)]
    exact_mod_cast Nat.div_mul_le_self _ _
  · have h2 : (m : ℚ) * 2 ^ e = ((m * 2 ^ e.toNat : Nat) : ℚ) / ((2 ^ (-e).toNat : Nat) : ℚ) := by rw [hv]; simp
    rw [h2, div_lt_iff₀ (by exact_mod_cast hd)]
    have := Nat.lt_div_mul_add (a := m * 2 ^ e.toNat) hd
    have h3 : m * 2 ^ e.toNat < (m * 2 ^ e.toNat / 2 ^ (-e).toNat + 1) * 2 ^ (-e).toNat := by
      rw [Nat.add_mul, Nat.one_mul]; exact this
    exact_mod_cast h3

theorem decimal_nonneg {s : Str} {q : ℚ} (h : DecimalText s q) : 0 ≤ q := by
  obtain ⟨num, den, _, rfl, _⟩ := parseFloat_text h
  positivity

/-- A decimal number of seconds below `2^32`, in nanoseconds. -/
theorem nanos_core {s : Str} {q : ℚ} (h : DecimalText s q) (hq : q < 2 ^ 32) :
    ∃ (m : Nat) (e : Int) (m' : Nat) (e' : Int), parseFloat s = some (.fin false m e) ∧
      (F64.fin false m e).mul f64Billion = .fin false m' e' ∧
      RoundsTo q (-21) (m * 2 ^ e) ∧ RoundsTo (m * 2 ^ e * 1000000000) 9 (m' * 2 ^ e') ∧
      (m' : ℚ) * 2 ^ e' < 2 ^ 63 := by
  obtain ⟨num, den, hd, rfl, hp⟩ := parseFloat_text h
  have c1 : (2 : ℚ) ^ 52 * 2 ^ (-21 + 1 : Int) = 2 ^ 32 := by norm_num
  obtain ⟨m, e, h1, r1⟩ := f64Round_to false num hd (b := -21) (by norm_num) (by norm_num) (by rw [c1]; exact hq)
  obtain ⟨num', den', hd', h2, hv⟩ := mul_billion false m e
  have c2 : (2 : ℚ) ^ (-21 : Int) = 1 / 2097152 := by norm_num
  have c3 : (2 : ℚ) ^ 52 * 2 ^ (9 + 1 : Int) = 4611686018427387904 := by norm_num
  have n1 := r1.near
  rw [c2, abs_le] at n1
  have hq2 : (num' : ℚ) / den' < 2 ^ 52 * 2 ^ (9 + 1 : Int) := by
    rw [c3, hv]
    have : (2 : ℚ) ^ 32 = 4294967296 := by norm_num
    rw [this] at hq
    linarith [n1.2]
  obtain ⟨m', e', h3, r2⟩ := f64Round_to false num' hd' (b := 9) (by norm_num) (by norm_num) hq2
  refine ⟨m, e, m', e', by rw [hp, h1]; rfl, by rw [h2, h3], r1, by rw [hv] at r2; exact r2, ?_⟩
  have n2 := r2.near
  have c4 : (2 : ℚ) ^ (9 : Int) = 512 := by norm_num
  rw [c4, abs_le] at n2
  rw [c3] at hq2
  have : (2 : ℚ) ^ 63 = 9223372036854775808 := by norm_num
  rw [this]
  linarith [n2.2]

theorem time_core {s : Str} {q : ℚ} (h : DecimalText s q) (hq : q < 2 ^ 32) :
    ∃ (x : F64) (t : Nat), parseFloat s = some x ∧ (x.mul f64Billion).toInt64 = t ∧
      ¬ (x.mul f64Billion).above63 = true ∧ ¬ (x.mul f64Billion).below63 = true ∧
      |(t : ℚ) - q * 1000000000| < 500 ∧ (∀ n : Nat, q = n → t = n * 1000000000) := by
  obtain ⟨m, e, m', e', h1, h2, r1, r2, hlt⟩ := nanos_core h hq
  obtain ⟨t, ht, t1, t2⟩ := toInt64_floor m' e' hlt
  refine ⟨_, t, h1, by rw [h2]; exact ht, ?_, ?_, ?_, ?_⟩
  · rw [h2]
    simp only [F64.above63, decide_eq_true_eq, not_lt]
    have hd : 0 < 2 ^ (-e').toNat := Nat.pow_pos (by omega)
    have hv := mag_eq m' e' 1
    rw [Nat.mul_one] at hv
    have h3 : ((m' * 2 ^ e'.toNat : Nat) : ℚ) / ((2 ^ (-e').toNat : Nat) : ℚ) < 2 ^ 63 := by rw [hv]; simpa using hlt
    rw [div_lt_iff₀ (by exact_mod_cast hd)] at h3
    have h4 : m' * 2 ^ e'.toNat < 2 ^ 63 * 2 ^ (-e').toNat := by exact_mod_cast h3
    omega
  · rw [h2]; simp [F64.below63]
  · have n1 := r1.near
    have n2 := r2.near
    have c2 : (2 : ℚ) ^ (-21 : Int) = 1 / 2097152 := by norm_num
    have c4 : (2 : ℚ) ^ (9 : Int) = 512 := by norm_num
    rw [c2, abs_le] at n1
    rw [c4, abs_le] at n2
    rw [abs_lt]
    constructor <;> linarith [n1.1, n1.2, n2.1, n2.2]
  · intro n hn
    have e1 : (m : ℚ) * 2 ^ e = q := r1.exact (n * 2 ^ 21) (by rw [hn]; push_cast; norm_num; ring)
    have e2 : (m' : ℚ) * 2 ^ e' = m * 2 ^ e * 1000000000 := r2.exact (n * 1953125) (by
      rw [e1, hn]; push_cast; ring)
    rw [e2, e1, hn] at t1 t2
    have a1 : t ≤ n * 1000000000 := by exact_mod_cast t1
    have a2 : n * 1000000000 < t + 1 := by exact_mod_cast t2
    omega

/-! ## Order -/

theorem roundDiv_scale (n d : Nat) {c : Nat} (hc : 0 < c) : roundDiv (n * c) (d * c) = roundDiv n d := by
  unfold roundDiv
  rw [Nat.mul_mod_mul_right, Nat.mul_div_mul_right _ _ hc]
  have h1 : 2 * (n % d * c) < d * c ↔ 2 * (n % d) < d := by
    rw [← Nat.mul_assoc]; exact Nat.mul_lt_mul_right hc
  have h2 : d * c < 2 * (n % d * c) ↔ d < 2 * (n % d) := by
    rw [← Nat.mul_assoc]; exact Nat.mul_lt_mul_right hc
  simp only [h1, h2]

theorem roundDiv_congr {n1 d1 n2 d2 : Nat} (h1 : 0 < d1) (h2 : 0 < d2) (h : n1 * d2 = n2 * d1) :
    roundDiv n1 d1 = roundDiv n2 d2 := by
  rw [← roundDiv_scale n1 d1 h2, ← roundDiv_scale n2 d2 h1, h, Nat.mul_comm d1 d2]

theorem f64Exp_congr {n1 d1 n2 d2 : Nat} (hn1 : 0 < n1) (hn2 : 0 < n2) (h1 : 0 < d1) (h2 : 0 < d2)
    (h : (n1 : ℚ) / d1 = n2 / d2) : f64Exp n1 d1 = f64Exp n2 d2 := by
  obtain ⟨k, hk, a1, a2⟩ := exp_bounds hn1 h1
  obtain ⟨k', hk', b1, b2⟩ := exp_bounds hn2 h2
  rw [← h] at b1 b2
  have : k = k' := by
    rcases lt_trichotomy k k' with hl | hl | hl
    · have h6 : (2 : ℚ) ^ (k + 1) ≤ 2 ^ k' := pow2_le (by omega)
      rw [pow2_add, zpow_one] at h6
      linarith
    · exact hl
    · have h6 : (2 : ℚ) ^ (k' + 1) ≤ 2 ^ k := pow2_le (by omega)
      rw [pow2_add, zpow_one] at h6
      linarith
  rw [hk, hk', this]

/-- Only the value of a fraction matters. -/
theorem f64Round_congr (s : Bool) {n1 d1 n2 d2 : Nat} (h1 : 0 < d1) (h2 : 0 < d2)
    (h : (n1 : ℚ) / d1 = n2 / d2) : f64Round s n1 d1 = f64Round s n2 d2 := by
  have hq1 : (d1 : ℚ) ≠ 0 := by exact_mod_cast (by omega : d1 ≠ 0)
  have hq2 : (d2 : ℚ) ≠ 0 := by exact_mod_cast (by omega : d2 ≠ 0)
  have hx : n1 * d2 = n2 * d1 := by
    rw [div_eq_div_iff hq1 hq2] at h
    exact_mod_cast h
  rcases Nat.eq_zero_or_pos n1 with hz | hn1
  · subst hz
    have : n2 = 0 := by
      rw [Nat.zero_mul] at hx
      rcases Nat.mul_eq_zero.1 hx.symm with h | h
      · exact h
      · omega
    subst this; unfold f64Round; simp
  · have hn2 : 0 < n2 := by
      rcases Nat.eq_zero_or_pos n2 with hz | hz
      · subst hz
        rw [Nat.zero_mul] at hx
        rcases Nat.mul_eq_zero.1 hx with h | h <;> omega
      · exact hz
    unfold f64Round
    rw [if_neg (by omega), if_neg (by omega), f64Exp_congr hn1 hn2 h1 h2 h]
    congr 1
    apply roundDiv_congr (Nat.mul_pos h1 (Nat.pow_pos (by omega))) (Nat.mul_pos h2 (Nat.pow_pos (by omega)))
    generalize 2 ^ (-f64Exp n2 d2).toNat = a
    generalize 2 ^ (f64Exp n2 d2).toNat = b
    calc n1 * a * (d2 * b) = n1 * d2 * (a * b) := by ac_rfl
      _ = n2 * d1 * (a * b) := by rw [hx]
      _ = _ := by ac_rfl

theorem f64Round_nearest (s : Bool) (num : Nat) {den : Nat} (hd : 0 < den) {m : Nat} {e : Int}
    (h : f64Round s num den = .fin s m e) {y : F64} (hy : Binary64 y) :
    |(m : ℚ) * 2 ^ e - num / den| ≤ |f64Value y - num / den| := by
  rcases Nat.eq_zero_or_pos num with hz | hn
  · subst hz
    unfold f64Round at h
    rw [if_pos rfl] at h
    injection h with _ hm _
    rw [← hm]
    simp
  · obtain ⟨m', e', hr, hv⟩ := f64Round_value s hn hd (by rw [h]; trivial)
    rw [h] at hv
    have hv' : (m : ℚ) * 2 ^ e = m' * 2 ^ e' := by
      simp only [f64Value] at hv
      cases s <;> simpa using hv
    rw [hv']
    exact rounded_best hr (by positivity) hy

theorem closer_mono {q1 q2 v1 v2 : ℚ} (hq : q1 < q2) (h1 : |v1 - q1| ≤ |v2 - q1|) (h2 : |v2 - q2| ≤ |v1 - q2|) :
    v1 ≤ v2 := by
  by_contra hc
  push Not at hc
  have a1 := le_abs_self (v1 - q1)
  have a2 := neg_abs_le (v2 - q2)
  rcases abs_cases (v2 - q1) with ⟨b, _⟩ | ⟨b, _⟩ <;> rcases abs_cases (v1 - q2) with ⟨c, _⟩ | ⟨c, _⟩ <;> linarith

theorem f64Round_mono {n1 d1 n2 d2 : Nat} (h1 : 0 < d1) (h2 : 0 < d2) {m1 m2 : Nat} {e1 e2 : Int}
    (hq : (n1 : ℚ) / d1 ≤ n2 / d2) (r1 : f64Round false n1 d1 = .fin false m1 e1)
    (r2 : f64Round false n2 d2 = .fin false m2 e2) : (m1 : ℚ) * 2 ^ e1 ≤ m2 * 2 ^ e2 := by
  rcases hq.eq_or_lt with h | h
  · have := f64Round_congr false h1 h2 h
    rw [r1, r2] at this
    injection this with _ a b
    rw [a, b]
  · have b1 := f64Round_binary false n1 h1
    have b2 := f64Round_binary false n2 h2
    rw [r1] at b1
    rw [r2] at b2
    have a1 := f64Round_nearest false n1 h1 r1 b2
    have a2 := f64Round_nearest false n2 h2 r2 b1
    simp only [f64Value, Bool.false_eq_true, if_false, one_mul] at a1 a2
    exact closer_mono h a1 a2

theorem time_mono {s1 s2 : Str} {q1 q2 : ℚ} (h1 : DecimalText s1 q1) (h2 : DecimalText s2 q2) (hq : q1 ≤ q2)
    (hlt : q2 < 2 ^ 32) {x1 x2 : F64} (p1 : parseFloat s1 = some x1) (p2 : parseFloat s2 = some x2) :
    (x1.mul f64Billion).toInt64 ≤ (x2.mul f64Billion).toInt64 := by
  obtain ⟨m1, e1, m1', e1', a1, b1, _, _, l1⟩ := nanos_core h1 (hq.trans_lt hlt)
  obtain ⟨m2, e2, m2', e2', a2, b2, _, _, l2⟩ := nanos_core h2 hlt
  rw [p1] at a1
  rw [p2] at a2
  injection a1 with a1
  injection a2 with a2
  subst a1 a2
  rw [b1, b2]
  obtain ⟨num1, den1, d1, hv1, f1⟩ := parseFloat_text h1
  obtain ⟨num2, den2, d2, hv2, f2⟩ := parseFloat_text h2
  have g1 : f64Round false num1 den1 = .fin false m1 e1 := by
    rw [p1] at f1
    rcases hx : f64Round false num1 den1 with _ | _ | ⟨a, b, c⟩ <;> rw [hx] at f1 <;> simp [f64Result] at f1
    rw [f1.1, f1.2.1, f1.2.2]
  have g2 : f64Round false num2 den2 = .fin false m2 e2 := by
    rw [p2] at f2
    rcases hx : f64Round false num2 den2 with _ | _ | ⟨a, b, c⟩ <;> rw [hx] at f2 <;> simp [f64Result] at f2
    rw [f2.1, f2.2.1, f2.2.2]
  rw [hv1, hv2] at hq
  have step1 := f64Round_mono d1 d2 hq g1 g2
  obtain ⟨n1, c1, dp1, w1, v1⟩ := mul_billion false m1 e1
  obtain ⟨n2, c2, dp2, w2, v2⟩ := mul_billion false m2 e2
  rw [b1] at w1
  rw [b2] at w2
  have step2 := f64Round_mono dp1 dp2 (by rw [v1, v2]; linarith) w1.symm w2.symm
  obtain ⟨t1, ht1, u1, _⟩ := toInt64_floor m1' e1' l1
  obtain ⟨t2, ht2, _, u2⟩ := toInt64_floor m2' e2' l2
  rw [ht1, ht2]
  have : (t1 : ℚ) < t2 + 1 := by linarith
  have : t1 < t2 + 1 := by exact_mod_cast this
  omega

end LogCache
