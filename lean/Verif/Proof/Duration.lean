import Verif.Spec.Config
import Verif.Proof.FloatOps
import Verif.Proof.Num

/-! # Durations are read correctly -/

namespace LogCache
open Spec

/-! ## float64 -/

/-- Rounding changes a number by at most half a unit in the last of 53 places. -/
theorem f64Round_rel (s : Bool) {num den : Nat} (hn : 0 < num) (hd : 0 < den)
    (hl : (2 : ℚ) ^ (-1000 : Int) ≤ (num : ℚ) / den) (hh : (num : ℚ) / den < 2 ^ (900 : Int)) :
    ∃ m e, f64Round s num den = .fin s m e ∧
      |(m : ℚ) * 2 ^ e - (num : ℚ) / den| ≤ (num : ℚ) / den / 2 ^ 53 := by
  obtain ⟨m, e, h, hr⟩ := f64Round_rounded s hn hd
  obtain ⟨m', e', hx, hto⟩ := f64Round_to s num hd (b := 900) (by norm_num) (by norm_num)
    (by
      have : (2 : ℚ) ^ (900 : Int) ≤ 2 ^ (900 + 1 : Int) := pow2_le (by norm_num)
      have h2 := pow2_pos (900 + 1)
      refine lt_of_lt_of_le (hh.trans_le this) ?_
      clear this hh hl
      generalize (2 : ℚ) ^ (900 + 1 : Int) = X at *
      linarith)
  refine ⟨m', e', hx, ?_⟩
  have hf : IsFinite64 (f64Round s num den) := by rw [hx]; exact trivial
  obtain ⟨m1, e1, hr1, hv⟩ := f64Round_value s hn hd hf
  rw [hx] at hv
  have hv' : (m' : ℚ) * 2 ^ e' = m1 * 2 ^ e1 := by
    simp only [f64Value] at hv
    cases s <;> simpa using hv
  rw [hv']
  have h1 := hr1.near
  have h2 : (2 : ℚ) ^ 52 * 2 ^ e1 ≤ (num : ℚ) / den := by
    rcases hr1.above with h | h
    · have h3 := hr1.below
      rw [h] at h3
      have h4 : (2 : ℚ) ^ (-1000 : Int) = 2 ^ (-1074 : Int) * 2 ^ (74 : Int) := by
        rw [← pow2_add]; norm_num
      have h5 := pow2_pos (-1074)
      have h6 : (2 : ℚ) ^ (74 : Int) = 2 ^ 74 := by norm_num
      rw [h4, h6] at hl
      exfalso
      have : (2 : ℚ) ^ 53 * 2 ^ (-1074 : Int) < 2 ^ (-1074 : Int) * 2 ^ 74 := by nlinarith
      linarith
    · exact h
  have h3 : (2 : ℚ) ^ e1 / 2 ≤ (num : ℚ) / den / 2 ^ 53 := by
    rw [le_div_iff₀ (by positivity)]
    have : (2 : ℚ) ^ e1 / 2 * 2 ^ 53 = 2 ^ 52 * 2 ^ e1 := by ring
    linarith
  linarith

/-- Products and quotients as roundings. -/
theorem durMul_fin (m m' : Nat) (e e' : Int) : ∃ num den : Nat, 0 < den ∧
    (F64.fin false m e).mul (.fin false m' e') = f64Round false num den ∧
    (num : ℚ) / den = (m * 2 ^ e) * (m' * 2 ^ e') := by
  refine ⟨m * m' * 2 ^ (e + e').toNat, 2 ^ (-(e + e')).toNat, Nat.pow_pos (by omega), rfl, ?_⟩
  have := mag_eq (m * m') (e + e') 1
  rw [Nat.mul_one] at this
  rw [this, pow2_add]; push_cast; ring

theorem durDiv_fin (m : Nat) {m' : Nat} (e e' : Int) (h : 0 < m') : ∃ num den : Nat, 0 < den ∧
    (F64.fin false m e).div (.fin false m' e') = f64Round false num den ∧
    (num : ℚ) / den = (m * 2 ^ e) / (m' * 2 ^ e') := by
  refine ⟨m * 2 ^ e.toNat * 2 ^ (-e').toNat, m' * 2 ^ e'.toNat * 2 ^ (-e).toNat, ?_, ?_, ?_⟩
  · exact Nat.mul_pos (Nat.mul_pos h (Nat.pow_pos (by omega))) (Nat.pow_pos (by omega))
  · simp only [F64.div]
    rw [if_neg (by omega)]; rfl
  · rw [zpow_split e, zpow_split e']
    have : (m' : ℚ) ≠ 0 := by exact_mod_cast (by omega : m' ≠ 0)
    push_cast
    field_simp

/-- A natural number below `2^53` as a float64. -/
theorem ofInt_exact {n : Nat} (h : n < 2 ^ 53) : ∃ m e, f64OfInt n = .fin false m e ∧ (m : ℚ) * 2 ^ e = n := by
  obtain ⟨m, e, hx, hto⟩ := f64Round_to (decide ((n : Int) < 0)) n (den := 1) (by omega) (b := 0) (by norm_num)
    (by norm_num) (by
      have : (n : ℚ) < 2 ^ 53 := by exact_mod_cast h
      norm_num at *; linarith)
  refine ⟨m, e, ?_, ?_⟩
  · have h0 : decide ((n : Int) < 0) = false := by simp
    rw [h0] at hx
    unfold f64OfInt
    rw [h0, Int.natAbs_natCast]; exact hx
  · rw [hto.exact n (by push_cast; norm_num)]; simp

/-- Any smaller than `2^64`, nearly. -/
theorem ofInt_near {n : Nat} (h0 : 0 < n) (h : n < 2 ^ 64) : ∃ m e, f64OfInt n = .fin false m e ∧
    |(m : ℚ) * 2 ^ e - n| ≤ n / 2 ^ 53 := by
  have hn : (1 : ℚ) ≤ n := by exact_mod_cast h0
  have hn2 : (n : ℚ) < 2 ^ 64 := by exact_mod_cast h
  obtain ⟨m, e, hx, hr⟩ := f64Round_rel (decide ((n : Int) < 0)) (num := n) (den := 1) h0 (by omega)
    (by
      have : (2 : ℚ) ^ (-1000 : Int) ≤ 2 ^ (0 : Int) := pow2_le (by norm_num)
      simp only [zpow_zero] at this; simp only [Nat.cast_one, div_one]; linarith)
    (by
      have : (2 : ℚ) ^ (64 : Int) ≤ 2 ^ (900 : Int) := pow2_le (by norm_num)
      have h3 : (2 : ℚ) ^ (64 : Int) = 2 ^ 64 := by norm_num
      simp only [Nat.cast_one, div_one]; rw [h3] at this; exact hn2.trans_le this)
  have h0 : decide ((n : Int) < 0) = false := by simp
  rw [h0] at hx
  refine ⟨m, e, ?_, ?_⟩
  · unfold f64OfInt
    rw [h0, Int.natAbs_natCast]; exact hx
  · simpa using hr

/-- The float64 that `leadingFraction` gets by multiplying with ten `k` times. -/
def pow10f : Nat → F64
  | 0 => .fin false 1 0
  | k + 1 => (pow10f k).mul f64Ten

theorem pow10f_exact {k : Nat} (h : k ≤ 15) : ∃ m e, pow10f k = .fin false m e ∧ (m : ℚ) * 2 ^ e = 10 ^ k := by
  induction k with
  | zero => exact ⟨1, 0, rfl, by norm_num⟩
  | succ k ih =>
    obtain ⟨m, e, hx, hv⟩ := ih (by omega)
    obtain ⟨num, den, hd, hm, hq⟩ := durMul_fin m 10 e 0
    have hq' : (num : ℚ) / den = 10 ^ (k + 1) := by
      rw [hq, hv]; norm_num; ring
    have hlt : (10 : ℚ) ^ (k + 1) < 2 ^ 53 := by
      have : (10 : Nat) ^ (k + 1) ≤ 10 ^ 15 := Nat.pow_le_pow_right (by omega) h
      have h2 : (10 : ℚ) ^ (k + 1) ≤ 10 ^ 15 := by exact_mod_cast this
      norm_num at *; linarith
    obtain ⟨m', e', hx', hto⟩ := f64Round_to false num hd (b := 0) (by norm_num) (by norm_num)
      (by rw [hq']; norm_num at *; linarith)
    refine ⟨m', e', ?_, ?_⟩
    · rw [pow10f, hx]; exact hm.trans hx'
    · rw [hto.exact (10 ^ (k + 1)) (by rw [hq']; push_cast; norm_num), hq']

theorem pow10f_near {k : Nat} (h : k ≤ 60) : ∃ m e, pow10f k = .fin false m e ∧
    |(m : ℚ) * 2 ^ e - 10 ^ k| ≤ 10 ^ k * k / 2 ^ 52 := by
  induction k with
  | zero => exact ⟨1, 0, rfl, by norm_num⟩
  | succ k ih =>
    obtain ⟨m, e, hx, hv⟩ := ih (by omega)
    obtain ⟨num, den, hd, hm, hq⟩ := durMul_fin m 10 e 0
    have hp : (1 : ℚ) ≤ 10 ^ k := one_le_pow₀ (by norm_num)
    have hk60 : (k : ℚ) ≤ 60 := by exact_mod_cast (by omega : k ≤ 60)
    have hk0 : (0 : ℚ) ≤ k := by positivity
    have hhi : (10 : ℚ) ^ k ≤ 10 ^ 60 := pow_le_pow_right₀ (by norm_num) (by omega)
    generalize hS : (m : ℚ) * 2 ^ e = S at *
    have hb : (10 : ℚ) ^ k * k / 2 ^ 52 ≤ 10 ^ k / 2 ^ 40 := by
      rw [div_le_div_iff₀ (by positivity) (by positivity)]
      nlinarith
    have hq' : (num : ℚ) / den = 10 * S := by rw [hq]; norm_num; ring
    have hS2 := abs_le.1 hv
    have hSlo : (10 : ℚ) ^ k / 2 ≤ S := by
      have : (10 : ℚ) ^ k / 2 ^ 40 ≤ 10 ^ k / 2 := by
        rw [div_le_div_iff₀ (by positivity) (by positivity)]; nlinarith
      linarith
    have hShi : S ≤ 2 * 10 ^ k := by
      have : (10 : ℚ) ^ k / 2 ^ 40 ≤ 10 ^ k := by
        rw [div_le_iff₀ (by positivity)]; nlinarith
      linarith
    have hnum : 0 < num := by
      rcases Nat.eq_zero_or_pos num with h0 | h0
      · rw [h0] at hq'; simp at hq'; linarith
      · exact h0
    obtain ⟨m', e', hx', hto⟩ := f64Round_rel false hnum hd
      (by
        have : (2 : ℚ) ^ (-1000 : Int) ≤ 2 ^ (0 : Int) := pow2_le (by norm_num)
        rw [zpow_zero] at this; rw [hq']; linarith)
      (by
        have : (2 : ℚ) ^ (250 : Int) ≤ 2 ^ (900 : Int) := pow2_le (by norm_num)
        have h3 : (2 : ℚ) ^ (250 : Int) = 2 ^ 250 := by norm_cast
        have h4 : 20 * (10 : ℚ) ^ 60 < 2 ^ 250 := by norm_num
        rw [hq']; rw [h3] at this; refine lt_of_lt_of_le ?_ this; linarith)
    refine ⟨m', e', ?_, ?_⟩
    · rw [pow10f, hx]; exact hm.trans hx'
    · rw [hq'] at hto
      have h5 := abs_le.1 hto
      have e1 : (10 : ℚ) ^ (k + 1) = 10 ^ k * 10 := pow_succ _ _
      have h6 : 10 * S / 2 ^ 53 ≤ 10 ^ (k + 1) / 2 ^ 52 := by
        rw [div_le_div_iff₀ (by positivity) (by positivity), e1]
        nlinarith
      have h7 : (10 : ℚ) ^ (k + 1) * ((k + 1 : Nat) : ℚ) / 2 ^ 52 =
          10 * (10 ^ k * k / 2 ^ 52) + 10 ^ (k + 1) / 2 ^ 52 := by
        push_cast; rw [e1]; ring
      rw [h7, abs_le]
      rw [e1] at h6 ⊢
      constructor <;> linarith

/-- Fractions that are whole nanoseconds are exact. -/
theorem frac_exact {f ns k : Nat} (hk : k ≤ 11) (hf : f < 10 ^ k) (hns : ns ≤ 3600000000000) (hdiv : 10 ^ k ∣ ns) :
    fracNanos f ns (pow10f k) = f * (ns / 10 ^ k) := by
  obtain ⟨c, hc⟩ := hdiv
  have hp : 0 < 10 ^ k := Nat.pow_pos (by omega)
  have hcd : ns / 10 ^ k = c := by rw [hc]; exact Nat.mul_div_cancel_left _ hp
  have hcb : c ≤ 3600000000000 := by
    rw [hc] at hns; exact (Nat.le_mul_of_pos_left c hp).trans hns
  have hfc : f * c ≤ 3600000000000 := by
    rw [hc] at hns; exact (Nat.mul_le_mul_right c hf.le).trans hns
  have hf10 : f < 2 ^ 53 := by
    have : 10 ^ k ≤ 10 ^ 11 := Nat.pow_le_pow_right (by omega) hk
    have : (10 : Nat) ^ 11 < 2 ^ 53 := by norm_num
    omega
  obtain ⟨ma, ea, ha, hva⟩ := ofInt_exact hf10
  obtain ⟨mu, eu, hu, hvu⟩ := ofInt_exact (n := ns) (by omega)
  obtain ⟨ms, es, hs, hvs⟩ := pow10f_exact (k := k) (by omega)
  have hms : 0 < ms := by
    rcases Nat.eq_zero_or_pos ms with h | h
    · rw [h] at hvs; simp at hvs; have : (0 : ℚ) < 10 ^ k := by positivity
      linarith
    · exact h
  obtain ⟨n1, d1, hd1, hdv, hq1⟩ := durDiv_fin mu eu es hms
  have hq1' : (n1 : ℚ) / d1 = c := by
    rw [hq1, hvu, hvs, hc]; push_cast
    have : (10 : ℚ) ^ k ≠ 0 := by positivity
    field_simp
  have hc53 : (c : ℚ) < 2 ^ 53 := by
    have : c < 2 ^ 53 := by omega
    exact_mod_cast this
  obtain ⟨mb, eb, hb, htb⟩ := f64Round_to false n1 hd1 (b := 0) (by norm_num) (by norm_num)
    (by rw [hq1']; norm_num at *; linarith)
  have hvb : (mb : ℚ) * 2 ^ eb = c := by
    rw [htb.exact c (by rw [hq1']; push_cast; norm_num), hq1']
  obtain ⟨n2, d2, hd2, hmv, hq2⟩ := durMul_fin ma mb ea eb
  have hq2' : (n2 : ℚ) / d2 = ((f * c : Nat) : ℚ) := by rw [hq2, hva, hvb]; push_cast; ring
  have hfc53 : ((f * c : Nat) : ℚ) < 2 ^ 53 := by
    have : f * c < 2 ^ 53 := by omega
    exact_mod_cast this
  obtain ⟨my, ey, hy, hty⟩ := f64Round_to false n2 hd2 (b := 0) (by norm_num) (by norm_num)
    (by rw [hq2']; norm_num at *; linarith)
  have hvy : (my : ℚ) * 2 ^ ey = ((f * c : Nat) : ℚ) := by
    rw [hty.exact (f * c : Nat) (by rw [hq2']; push_cast; norm_num), hq2']
  obtain ⟨r, hr, hr1, hr2⟩ := toInt64_floor my ey (by
    rw [hvy]; refine hfc53.trans ?_; norm_num)
  have hrr : r = f * c := by
    rw [hvy] at hr1 hr2
    have h1 : r ≤ f * c := by exact_mod_cast hr1
    have h2 : f * c < r + 1 := by exact_mod_cast hr2
    omega
  unfold fracNanos
  rw [ha, hu, hs, hdv, hb, hmv, hy, hr, hcd, Int.toNat_natCast, hrr]

/-- What is left of a power of ten that is too large to be of interest. -/
def BigScale (s : F64) : Prop :=
  s = .inf false ∨ ∃ m e, s = .fin false m e ∧ (10 : ℚ) ^ 50 ≤ m * 2 ^ e

theorem bigScale_mul {s : F64} (h : BigScale s) : BigScale (s.mul f64Ten) := by
  rcases h with h | ⟨m, e, h, hv⟩
  · subst h; left; rfl
  · subst h
    obtain ⟨num, den, hd, hm, hq⟩ := durMul_fin m 10 e 0
    unfold f64Ten
    rw [hm]
    have hq' : (num : ℚ) / den = 10 * (m * 2 ^ e) := by rw [hq]; norm_num; ring
    have hn : 0 < num := by
      rcases Nat.eq_zero_or_pos num with h0 | h0
      · rw [h0] at hq'; simp at hq'
        rcases hq' with h | h
        · rw [h] at hv; norm_num at hv
        · have := pow2_pos e; rw [h] at this; norm_num at this
      · exact h0
    obtain ⟨m', e', hx, hr⟩ := f64Round_rounded false hn hd
    rw [hx]
    generalize hQ : (num : ℚ) / den = Q at *
    have hQ50 : 10 * (10 : ℚ) ^ 50 ≤ Q := by rw [hq']; linarith
    have hp := pow2_pos e'
    have hup : (2 : ℚ) ^ e' ≤ Q := by
      rcases hr.above with h | h
      · have : (2 : ℚ) ^ e' ≤ 2 ^ (0 : Int) := pow2_le (by omega)
        rw [zpow_zero] at this
        have : (1 : ℚ) ≤ 10 * 10 ^ 50 := by norm_num
        linarith
      · generalize (2 : ℚ) ^ e' = P at *
        have : (1 : ℚ) ≤ 2 ^ 52 := by norm_num
        nlinarith
    have hval : (10 : ℚ) ^ 50 ≤ m' * 2 ^ e' := by
      have := (abs_le.1 hr.near).1
      generalize (2 : ℚ) ^ e' = P at *
      nlinarith
    unfold f64Norm
    split
    · rename_i h0; rw [h0] at hval; norm_num at hval
    · split
      · split
        · left; rfl
        · rename_i h53 _
          right
          refine ⟨_, _, rfl, ?_⟩
          have : m' = 2 ^ 53 := by have := hr.top; omega
          rw [this] at hval
          rw [pow2_add]
          push_cast at hval ⊢
          norm_num
          norm_num at hval
          linarith
      · split
        · left; rfl
        · right; exact ⟨_, _, rfl, hval⟩

theorem bigScale_pow {k : Nat} (h : 60 ≤ k) : BigScale (pow10f k) := by
  induction k with
  | zero => omega
  | succ k ih =>
    by_cases hk : 60 ≤ k
    · exact bigScale_mul (ih hk)
    · have hk : k + 1 = 60 := by omega
      rw [hk]
      obtain ⟨m, e, hx, hv⟩ := pow10f_near (k := 60) (by omega)
      right
      refine ⟨m, e, hx, ?_⟩
      have := (abs_le.1 hv).1
      generalize (m : ℚ) * 2 ^ e = S at *
      norm_num at *
      linarith

/-- Below the last kept digit nothing is left. -/
theorem frac_tiny {f ns : Nat} {s : F64} (hs : BigScale s) (hf0 : 0 < f) (hf : f ≤ 2 ^ 63) (h0 : 0 < ns)
    (hns : ns ≤ 3600000000000) : fracNanos f ns s = 0 := by
  obtain ⟨ma, ea, ha, hva⟩ := ofInt_near (n := f) hf0 (by omega)
  obtain ⟨mu, eu, hu, hvu⟩ := ofInt_exact (n := ns) (by omega)
  unfold fracNanos
  rw [ha, hu]
  rcases hs with hs | ⟨ms, es, hs, hvs⟩
  · rw [hs]
    have : (F64.fin false mu eu).div (.inf false) = .fin false 0 0 := rfl
    rw [this]
    obtain ⟨num, den, hd, hm, hq⟩ := durMul_fin ma 0 ea 0
    rw [hm]
    have : num = 0 := by
      have hdq : (den : ℚ) ≠ 0 := by exact_mod_cast (by omega : den ≠ 0)
      rw [div_eq_iff hdq] at hq
      simp at hq
      exact_mod_cast hq
    rw [this]; simp [f64Round, F64.toInt64]
  · rw [hs]
    have hms : 0 < ms := by
      rcases Nat.eq_zero_or_pos ms with h | h
      · rw [h] at hvs; norm_num at hvs
      · exact h
    obtain ⟨n1, d1, hd1, hdv, hq1⟩ := durDiv_fin mu eu es hms
    have hnsq : (ns : ℚ) ≤ 3600000000000 := by exact_mod_cast hns
    have hq1' : (n1 : ℚ) / d1 ≤ 1 / 10 ^ 37 := by
      rw [hq1, hvu, div_le_div_iff₀ (by linarith [show (0 : ℚ) < 10 ^ 50 by positivity]) (by positivity)]
      generalize (ms : ℚ) * 2 ^ es = S at *
      norm_num at hvs ⊢
      linarith
    have e170 : (2 : ℚ) ^ (-170 : Int) = 1 / 2 ^ 170 := by norm_num
    have e169 : (2 : ℚ) ^ (-170 + 1 : Int) = 1 / 2 ^ 169 := by norm_num
    obtain ⟨mb, eb, hb, htb⟩ := f64Round_to false n1 hd1 (b := -170) (by norm_num) (by norm_num)
      (by
        rw [e169]; refine lt_of_le_of_lt hq1' ?_; norm_num)
    have hvb := htb.near
    have hb0 := htb.nonneg
    rw [e170] at hvb
    rw [hdv, hb]
    obtain ⟨n2, d2, hd2, hmv, hq2⟩ := durMul_fin ma mb ea eb
    generalize (ma : ℚ) * 2 ^ ea = A at *
    generalize (mb : ℚ) * 2 ^ eb = B at *
    have hBs : B ≤ 1 / 10 ^ 36 := by
      have := (abs_le.1 hvb).2
      have h2 : (1 : ℚ) / 2 ^ 170 / 2 + 1 / 10 ^ 37 ≤ 1 / 10 ^ 36 := by norm_num
      linarith
    have hfq : (f : ℚ) ≤ 2 ^ 63 := by exact_mod_cast hf
    have hAs : A ≤ 2 ^ 64 := by
      have := (abs_le.1 hva).2
      have h2 : (f : ℚ) / 2 ^ 53 ≤ f := by
        rw [div_le_iff₀ (by positivity)]; nlinarith [show (0 : ℚ) ≤ f by positivity]
      linarith
    have hA0 : 0 ≤ A := by
      have := (abs_le.1 hva).1
      have h1 : (0 : ℚ) ≤ f := by positivity
      have h2 : (f : ℚ) / 2 ^ 53 ≤ f := by
        rw [div_le_iff₀ (by positivity)]; nlinarith
      linarith
    have hq2' : (n2 : ℚ) / d2 ≤ 1 / 10 ^ 10 := by
      rw [hq2]
      calc A * B ≤ 2 ^ 64 * (1 / 10 ^ 36) := by
            apply mul_le_mul hAs hBs hb0 (by positivity)
        _ ≤ 1 / 10 ^ 10 := by norm_num
    have e60 : (2 : ℚ) ^ (-60 : Int) = 1 / 2 ^ 60 := by norm_num
    have e59 : (2 : ℚ) ^ (-60 + 1 : Int) = 1 / 2 ^ 59 := by norm_num
    obtain ⟨my, ey, hy, hty⟩ := f64Round_to false n2 hd2 (b := -60) (by norm_num) (by norm_num)
      (by rw [e59]; refine lt_of_le_of_lt hq2' ?_; norm_num)
    have hvy := hty.near
    rw [e60] at hvy
    have hY : (my : ℚ) * 2 ^ ey < 1 := by
      have := (abs_le.1 hvy).2
      have h2 : (1 : ℚ) / 2 ^ 60 / 2 + 1 / 10 ^ 10 < 1 := by norm_num
      linarith
    obtain ⟨r, hr, hr1, hr2⟩ := toInt64_floor my ey (hY.trans (by norm_num))
    have hrr : r = 0 := by
      have : (r : ℚ) < 1 := by linarith
      have : r < 1 := by exact_mod_cast this
      omega
    rw [hmv, hy, hr, hrr]; rfl

/-- Fractions in general: truncated, after a small error. -/
theorem frac_near {f ns k : Nat} (hf0 : 0 < f) (hf : f ≤ 2 ^ 63) (hfk : f < 10 ^ k) (h0 : 0 < ns)
    (hns : ns ≤ 3600000000000) :
    |(fracNanos f ns (pow10f k) : ℚ) - f * ns / 10 ^ k| ≤ 107 / 100 := by
  have hfq : (f : ℚ) ≤ 2 ^ 63 := by exact_mod_cast hf
  have hf1 : (1 : ℚ) ≤ f := by exact_mod_cast hf0
  have hns1 : (1 : ℚ) ≤ ns := by exact_mod_cast h0
  have hnsq : (ns : ℚ) ≤ 3600000000000 := by exact_mod_cast hns
  by_cases hk : 60 ≤ k
  · rw [frac_tiny (bigScale_pow hk) hf0 hf h0 hns]
    have h1 : (10 : ℚ) ^ 60 ≤ 10 ^ k := pow_le_pow_right₀ (by norm_num) hk
    have hp : (0 : ℚ) < 10 ^ k := by positivity
    have h2 : (f : ℚ) * ns / 10 ^ k ≤ 1 := by
      rw [div_le_iff₀ hp]
      have : (f : ℚ) * ns ≤ 2 ^ 63 * 3600000000000 := mul_le_mul hfq hnsq (by positivity) (by positivity)
      generalize (10 : ℚ) ^ k = K at *
      norm_num at *
      linarith
    have h3 : (0 : ℚ) ≤ f * ns / 10 ^ k := by positivity
    rw [abs_le]; push_cast
    constructor <;> linarith
  · obtain ⟨ma, ea, ha, hva⟩ := ofInt_near (n := f) hf0 (by omega)
    obtain ⟨mu, eu, hu, hvu⟩ := ofInt_exact (n := ns) (by omega)
    obtain ⟨ms, es, hs, hvs⟩ := pow10f_near (k := k) (by omega)
    have hKp : (1 : ℚ) ≤ 10 ^ k := one_le_pow₀ (by norm_num)
    have hfk' : (f : ℚ) ≤ 10 ^ k := by exact_mod_cast hfk.le
    have hK60 : (10 : ℚ) ^ k ≤ 10 ^ 60 := pow_le_pow_right₀ (by norm_num) (by omega)
    have hkq : (k : ℚ) ≤ 60 := by exact_mod_cast (by omega : k ≤ 60)
    have hk0 : (0 : ℚ) ≤ k := by positivity
    unfold fracNanos
    rw [ha, hu, hs]
    generalize hK : (10 : ℚ) ^ k = K at *
    have hvs' : |(ms : ℚ) * 2 ^ es - K| ≤ K * (60 / 2 ^ 52) := by
      refine hvs.trans ?_
      rw [mul_div_assoc]
      apply mul_le_mul_of_nonneg_left _ (by linarith)
      rw [div_le_div_iff_of_pos_right (by positivity)]; exact hkq
    have hms : 0 < ms := by
      rcases Nat.eq_zero_or_pos ms with h | h
      · rw [h] at hvs'; have := (abs_le.1 hvs').1; norm_num at *; linarith
      · exact h
    obtain ⟨n1, d1, hd1, hdv, hq1⟩ := durDiv_fin mu eu es hms
    rw [hdv]
    rw [hvu] at hq1
    generalize (ms : ℚ) * 2 ^ es = S at *
    have hS := abs_le.1 hvs'
    have hSlo : K * (1 - 60 / 2 ^ 52) ≤ S := by linarith [hS.1]
    have hShi : S ≤ K * (1 + 60 / 2 ^ 52) := by linarith [hS.2]
    have hS0 : 0 < S := by
      refine lt_of_lt_of_le ?_ hSlo
      apply mul_pos (by linarith); norm_num
    -- the quotient
    have ht0 : 0 < (ns : ℚ) / K := by positivity
    generalize ht : (ns : ℚ) / K = t at *
    have hnsK : (ns : ℚ) = t * K := by rw [← ht]; field_simp
    have hqlo : t * (1 - 61 / 2 ^ 52) ≤ (n1 : ℚ) / d1 := by
      rw [hq1, le_div_iff₀ hS0, hnsK]
      have : (1 - 61 / 2 ^ 52 : ℚ) * (1 + 60 / 2 ^ 52) ≤ 1 := by norm_num
      have h1 : t * (1 - 61 / 2 ^ 52) * S ≤ t * (1 - 61 / 2 ^ 52) * (K * (1 + 60 / 2 ^ 52)) := by
        apply mul_le_mul_of_nonneg_left hShi
        apply mul_nonneg ht0.le; norm_num
      have h2 : t * (1 - 61 / 2 ^ 52) * (K * (1 + 60 / 2 ^ 52)) =
          t * K * ((1 - 61 / 2 ^ 52) * (1 + 60 / 2 ^ 52)) := by ring
      have h3 : 0 ≤ t * K := by positivity
      nlinarith
    have hqhi : (n1 : ℚ) / d1 ≤ t * (1 + 61 / 2 ^ 52) := by
      rw [hq1, div_le_iff₀ hS0, hnsK]
      have : 1 ≤ (1 + 61 / 2 ^ 52 : ℚ) * (1 - 60 / 2 ^ 52) := by norm_num
      have h1 : t * (1 + 61 / 2 ^ 52) * (K * (1 - 60 / 2 ^ 52)) ≤ t * (1 + 61 / 2 ^ 52) * S := by
        apply mul_le_mul_of_nonneg_left hSlo
        apply mul_nonneg ht0.le; norm_num
      have h2 : t * (1 + 61 / 2 ^ 52) * (K * (1 - 60 / 2 ^ 52)) =
          t * K * ((1 + 61 / 2 ^ 52) * (1 - 60 / 2 ^ 52)) := by ring
      have h3 : 0 ≤ t * K := by positivity
      nlinarith
    have htlo : 1 / 10 ^ 60 ≤ t := by
      rw [← ht, div_le_div_iff₀ (by positivity) (by linarith)]
      have : (1 : ℚ) * 10 ^ 60 ≤ ns * 10 ^ 60 := by
        apply mul_le_mul_of_nonneg_right hns1 (by positivity)
      linarith
    have hthi : t ≤ 3600000000000 := by
      rw [← ht, div_le_iff₀ (by linarith)]; nlinarith
    have hqpos : 0 < (n1 : ℚ) / d1 := by
      refine lt_of_lt_of_le ?_ hqlo
      apply mul_pos ht0; norm_num
    have hn1 : 0 < n1 := by
      rcases Nat.eq_zero_or_pos n1 with h | h
      · rw [h] at hqpos; simp at hqpos
      · exact h
    have p1000 : (2 : ℚ) ^ (-1000 : Int) ≤ 1 / 2 ^ 250 := by
      have : (2 : ℚ) ^ (-1000 : Int) ≤ 2 ^ (-250 : Int) := pow2_le (by norm_num)
      refine this.trans ?_; norm_num
    have p900 : (2 : ℚ) ^ 250 ≤ 2 ^ (900 : Int) := by
      have : (2 : ℚ) ^ (250 : Int) ≤ 2 ^ (900 : Int) := pow2_le (by norm_num)
      refine le_trans ?_ this; norm_num
    obtain ⟨mb, eb, hb, hvb⟩ := f64Round_rel false hn1 hd1
      (by
        refine p1000.trans (le_trans ?_ hqlo)
        have : (1 : ℚ) / 2 ^ 250 ≤ 1 / 10 ^ 60 * (1 - 61 / 2 ^ 52) := by norm_num
        refine this.trans ?_
        apply mul_le_mul_of_nonneg_right htlo; norm_num)
      (by
        refine lt_of_lt_of_le (lt_of_le_of_lt hqhi ?_) p900
        have : 3600000000000 * (1 + 61 / 2 ^ 52 : ℚ) < 2 ^ 250 := by norm_num
        refine lt_of_le_of_lt ?_ this
        apply mul_le_mul_of_nonneg_right hthi; norm_num)
    rw [hb]
    generalize (n1 : ℚ) / d1 = Q1 at *
    obtain ⟨n2, d2, hd2, hmv, hq2⟩ := durMul_fin ma mb ea eb
    rw [hmv]
    generalize (ma : ℚ) * 2 ^ ea = A at *
    generalize (mb : ℚ) * 2 ^ eb = B at *
    have hB := abs_le.1 hvb
    have hA := abs_le.1 hva
    have hBlo : t * (1 - 62 / 2 ^ 52) ≤ B := by
      have h1 : Q1 * (1 - 1 / 2 ^ 53) ≤ B := by linarith [hB.1]
      refine le_trans ?_ h1
      have h2 : t * (1 - 61 / 2 ^ 52) * (1 - 1 / 2 ^ 53) ≤ Q1 * (1 - 1 / 2 ^ 53) := by
        apply mul_le_mul_of_nonneg_right hqlo; norm_num
      refine le_trans ?_ h2
      rw [mul_assoc]
      apply mul_le_mul_of_nonneg_left _ ht0.le; norm_num
    have hBhi : B ≤ t * (1 + 62 / 2 ^ 52) := by
      have h1 : B ≤ Q1 * (1 + 1 / 2 ^ 53) := by linarith [hB.2]
      refine le_trans h1 ?_
      have h2 : Q1 * (1 + 1 / 2 ^ 53) ≤ t * (1 + 61 / 2 ^ 52) * (1 + 1 / 2 ^ 53) := by
        apply mul_le_mul_of_nonneg_right hqhi; norm_num
      refine le_trans h2 ?_
      rw [mul_assoc]
      apply mul_le_mul_of_nonneg_left _ ht0.le; norm_num
    have hAlo : (f : ℚ) * (1 - 1 / 2 ^ 53) ≤ A := by linarith [hA.1]
    have hAhi : A ≤ f * (1 + 1 / 2 ^ 53) := by linarith [hA.2]
    have hft0 : 0 < (f : ℚ) * t := by positivity
    have hABlo : (f : ℚ) * t * (1 - 63 / 2 ^ 52) ≤ A * B := by
      have h1 : (f : ℚ) * (1 - 1 / 2 ^ 53) * (t * (1 - 62 / 2 ^ 52)) ≤ A * B := by
        apply mul_le_mul hAlo hBlo
        · apply mul_nonneg ht0.le; norm_num
        · refine le_trans ?_ hAlo; apply mul_nonneg (by linarith); norm_num
      refine le_trans ?_ h1
      have : (f : ℚ) * (1 - 1 / 2 ^ 53) * (t * (1 - 62 / 2 ^ 52)) =
        f * t * ((1 - 1 / 2 ^ 53) * (1 - 62 / 2 ^ 52)) := by ring
      rw [this]
      apply mul_le_mul_of_nonneg_left _ hft0.le; norm_num
    have hABhi : A * B ≤ (f : ℚ) * t * (1 + 63 / 2 ^ 52) := by
      have h1 : A * B ≤ (f : ℚ) * (1 + 1 / 2 ^ 53) * (t * (1 + 62 / 2 ^ 52)) := by
        apply mul_le_mul hAhi hBhi
        · refine le_trans ?_ hBlo; apply mul_nonneg ht0.le; norm_num
        · apply mul_nonneg (by linarith); norm_num
      refine le_trans h1 ?_
      have : (f : ℚ) * (1 + 1 / 2 ^ 53) * (t * (1 + 62 / 2 ^ 52)) =
        f * t * ((1 + 1 / 2 ^ 53) * (1 + 62 / 2 ^ 52)) := by ring
      rw [this]
      apply mul_le_mul_of_nonneg_left _ hft0.le; norm_num
    have hfthi : (f : ℚ) * t ≤ 3600000000000 := by
      have : (f : ℚ) * t ≤ K * t := mul_le_mul_of_nonneg_right hfk' ht0.le
      have h2 : K * t = ns := by rw [hnsK]; ring
      linarith
    have hft1 : t ≤ (f : ℚ) * t := by nlinarith
    have hABpos : 0 < A * B := by
      refine lt_of_lt_of_le ?_ hABlo
      apply mul_pos hft0; norm_num
    have hn2 : 0 < n2 := by
      rcases Nat.eq_zero_or_pos n2 with h | h
      · rw [h, Nat.cast_zero, zero_div] at hq2; rw [← hq2] at hABpos; exact absurd hABpos (lt_irrefl _)
      · exact h
    obtain ⟨my, ey, hy, hvy⟩ := f64Round_rel false hn2 hd2
      (by
        rw [hq2]
        refine p1000.trans (le_trans ?_ hABlo)
        have : (1 : ℚ) / 2 ^ 250 ≤ 1 / 10 ^ 60 * (1 - 63 / 2 ^ 52) := by norm_num
        refine this.trans ?_
        apply mul_le_mul_of_nonneg_right (htlo.trans hft1); norm_num)
      (by
        rw [hq2]
        refine lt_of_lt_of_le (lt_of_le_of_lt hABhi ?_) p900
        have : 3600000000000 * (1 + 63 / 2 ^ 52 : ℚ) < 2 ^ 250 := by norm_num
        refine lt_of_le_of_lt ?_ this
        apply mul_le_mul_of_nonneg_right hfthi; norm_num)
    rw [hq2] at hvy
    rw [hy]
    have hY := abs_le.1 hvy
    generalize hYv : (my : ℚ) * 2 ^ ey = Y at *
    have hYlo : (f : ℚ) * t * (1 - 64 / 2 ^ 52) ≤ Y := by
      have h1 : A * B * (1 - 1 / 2 ^ 53) ≤ Y := by linarith [hY.1]
      refine le_trans ?_ h1
      have h2 : (f : ℚ) * t * (1 - 63 / 2 ^ 52) * (1 - 1 / 2 ^ 53) ≤ A * B * (1 - 1 / 2 ^ 53) := by
        apply mul_le_mul_of_nonneg_right hABlo; norm_num
      refine le_trans ?_ h2
      rw [mul_assoc _ (1 - 63 / 2 ^ 52 : ℚ)]
      apply mul_le_mul_of_nonneg_left _ hft0.le; norm_num
    have hYhi : Y ≤ (f : ℚ) * t * (1 + 64 / 2 ^ 52) := by
      have h1 : Y ≤ A * B * (1 + 1 / 2 ^ 53) := by linarith [hY.2]
      refine le_trans h1 ?_
      have h2 : A * B * (1 + 1 / 2 ^ 53) ≤ (f : ℚ) * t * (1 + 63 / 2 ^ 52) * (1 + 1 / 2 ^ 53) := by
        apply mul_le_mul_of_nonneg_right hABhi; norm_num
      refine le_trans h2 ?_
      rw [mul_assoc _ (1 + 63 / 2 ^ 52 : ℚ)]
      apply mul_le_mul_of_nonneg_left _ hft0.le; norm_num
    have hexact : (f : ℚ) * ns / K = f * t := by rw [← ht]; ring
    rw [hexact]
    generalize (f : ℚ) * t = X at *
    obtain ⟨r, hr, hr1, hr2⟩ := toInt64_floor my ey (by
      rw [hYv]
      norm_num at *
      linarith)
    rw [hr, Int.toNat_natCast]
    rw [hYv] at hr1 hr2
    have hlo : X - 7 / 100 ≤ Y := by
      norm_num at *
      linarith
    have hhi : Y ≤ X + 7 / 100 := by
      norm_num at *
      linarith
    rw [abs_le]
    constructor <;> linarith

/-! ## Digits -/

theorem digitsLoop_shift (t : Str) : ∀ (x : Nat), digitsLoop x t =
    (digitsLoop 0 t).map fun f => x * 10 ^ t.length + f := by
  induction t with
  | nil => intro x; simp [digitsLoop]
  | cons c cs ih =>
    intro x
    simp only [digitsLoop]
    cases digitVal c with
    | none => rfl
    | some d =>
      simp only
      rw [ih (x * 10 + d), ih (0 * 10 + d)]
      cases digitsLoop 0 cs with
      | none => rfl
      | some f =>
        simp only [Option.map_some, List.length_cons, Option.some.injEq, Nat.pow_succ]
        ring

theorem digitsLoop_lt {t : Str} {f : Nat} (h : digitsLoop 0 t = some f) : f < 10 ^ t.length := by
  induction t generalizing f with
  | nil => simp [digitsLoop] at h; subst h; norm_num
  | cons c cs ih =>
    simp only [digitsLoop] at h
    cases hd : digitVal c with
    | none => rw [hd] at h; cases h
    | some d =>
      rw [hd] at h
      simp only at h
      rw [digitsLoop_shift] at h
      cases hf : digitsLoop 0 cs with
      | none => rw [hf] at h; cases h
      | some f' =>
        rw [hf] at h
        simp only [Option.map_some, Option.some.injEq] at h
        have := ih hf
        have hd10 := (digitVal_some hd).1
        rw [List.length_cons, Nat.pow_succ]
        nlinarith [Nat.zero_le (10 ^ cs.length)]

/-- No digit comes next. -/
def NoDigit (r : Str) : Prop := ∀ c, r.head? = some c → digitVal c = none

theorem leadingInt_stop {x : Nat} {r : Str} (h : NoDigit r) : leadingInt x r = some (x, r) := by
  cases r with
  | nil => rfl
  | cons c cs => rw [leadingInt, h c rfl]

theorem leadingInt_digits {t r : Str} (hr : NoDigit r) : ∀ {x n : Nat}, digitsLoop x t = some n → n ≤ 2 ^ 63 →
    leadingInt x (t ++ r) = some (n, r) := by
  induction t with
  | nil => intro x n h _; simp [digitsLoop] at h; subst h; exact leadingInt_stop hr
  | cons c cs ih =>
    intro x n h hn
    rw [List.cons_append, leadingInt]
    simp only [digitsLoop] at h
    cases hd : digitVal c with
    | none => rw [hd] at h; cases h
    | some d =>
      rw [hd] at h
      simp only at h ⊢
      have h2 := h
      rw [digitsLoop_shift] at h2
      cases hf : digitsLoop 0 cs with
      | none => rw [hf] at h2; cases h2
      | some f =>
        rw [hf] at h2
        simp only [Option.map_some, Option.some.injEq] at h2
        have hp : 0 < 10 ^ cs.length := Nat.pow_pos (by omega)
        have : x * 10 + d ≤ n := by
          have := Nat.le_mul_of_pos_right (x * 10 + d) hp
          omega
        rw [if_neg (by omega), if_neg (by omega)]
        exact ih h hn

theorem leadingInt_sound : ∀ {s : Str} {x n : Nat} {r : Str}, leadingInt x s = some (n, r) →
    ∃ t, s = t ++ r ∧ digitsLoop x t = some n ∧ NoDigit r := by
  intro s
  induction s with
  | nil =>
    intro x n r h
    simp only [leadingInt, Option.some.injEq, Prod.mk.injEq] at h
    obtain ⟨rfl, rfl⟩ := h
    exact ⟨[], rfl, rfl, by intro c hc; cases hc⟩
  | cons c cs ih =>
    intro x n r h
    rw [leadingInt] at h
    cases hd : digitVal c with
    | none =>
      rw [hd] at h
      simp only [Option.some.injEq, Prod.mk.injEq] at h
      obtain ⟨rfl, rfl⟩ := h
      refine ⟨[], rfl, rfl, ?_⟩
      intro c' hc'
      simp only [List.head?_cons, Option.some.injEq] at hc'
      rw [← hc']; exact hd
    | some d =>
      rw [hd] at h
      simp only at h
      split at h
      · cases h
      · split at h
        · cases h
        · obtain ⟨t, h1, h2, h3⟩ := ih h
          refine ⟨c :: t, by rw [h1]; rfl, ?_, h3⟩
          simp only [digitsLoop, hd]; exact h2

theorem leadingFraction_stop {x : Nat} {s : F64} {o : Bool} {r : Str} (h : NoDigit r) :
    leadingFraction x s o r = (x, s, r) := by
  cases r with
  | nil => rfl
  | cons c cs => rw [leadingFraction, h c rfl]

theorem leadingFraction_over {x : Nat} {s : F64} {t r : Str} (hr : NoDigit r) : ∀ {a f : Nat}, digitsLoop a t = some f →
    leadingFraction x s true (t ++ r) = (x, s, r) := by
  induction t with
  | nil => intro a f _; exact leadingFraction_stop hr
  | cons c cs ih =>
    intro a f h
    rw [List.cons_append, leadingFraction]
    simp only [digitsLoop] at h
    cases hd : digitVal c with
    | none => rw [hd] at h; cases h
    | some d =>
      rw [hd] at h
      simp only [if_true]
      exact ih h

/-- What `leadingFraction` keeps of digits. -/
theorem leadingFraction_digits {t r : Str} (hr : NoDigit r) : ∀ {x k n : Nat}, x ≤ 2 ^ 63 → digitsLoop x t = some n →
    ∃ j x', j ≤ t.length ∧ leadingFraction x (pow10f k) false (t ++ r) = (x', pow10f (k + j), r) ∧ x' ≤ 2 ^ 63 ∧
      x' * 10 ^ (t.length - j) ≤ n ∧ n < (x' + 1) * 10 ^ (t.length - j) ∧
      (j < t.length → 922337203685477580 ≤ x') := by
  induction t with
  | nil =>
    intro x k n hx h
    simp [digitsLoop] at h; subst h
    exact ⟨0, x, Nat.le_refl _, leadingFraction_stop hr, hx, by simp, by simp, by simp⟩
  | cons c cs ih =>
    intro x k n hx h
    rw [List.cons_append, leadingFraction]
    simp only [digitsLoop] at h
    cases hd : digitVal c with
    | none => rw [hd] at h; cases h
    | some d =>
      rw [hd] at h
      have hd10 := (digitVal_some hd).1
      simp only [Bool.false_eq_true, if_false] at h ⊢
      have stop : 922337203685477580 ≤ x → ∃ j x', j ≤ (c :: cs).length ∧
          leadingFraction x (pow10f k) true (cs ++ r) = (x', pow10f (k + j), r) ∧ x' ≤ 2 ^ 63 ∧
          x' * 10 ^ ((c :: cs).length - j) ≤ n ∧ n < (x' + 1) * 10 ^ ((c :: cs).length - j) ∧
          (j < (c :: cs).length → 922337203685477580 ≤ x') := by
        intro hbig
        refine ⟨0, x, Nat.zero_le _, leadingFraction_over hr h, hx, ?_, ?_, fun _ => hbig⟩
        all_goals
          rw [digitsLoop_shift] at h
          cases hf : digitsLoop 0 cs with
          | none => rw [hf] at h; cases h
          | some f =>
            rw [hf] at h
            simp only [Option.map_some, Option.some.injEq] at h
            have := digitsLoop_lt hf
            rw [Nat.sub_zero, List.length_cons, Nat.pow_succ]
            generalize 10 ^ cs.length = P at *
            nlinarith
      split
      · exact stop (by omega)
      · split
        · exact stop (by omega)
        · obtain ⟨j, x', h1, h2, h3, h4, h5, h6⟩ := ih (x := x * 10 + d) (k := k + 1) (by omega) h
          refine ⟨j + 1, x', by simp only [List.length_cons]; omega, ?_, h3, ?_, ?_, ?_⟩
          · have : pow10f (k + 1) = (pow10f k).mul f64Ten := rfl
            rw [← this, h2]
            congr 3; omega
          · simpa [List.length_cons] using h4
          · simpa [List.length_cons] using h5
          · intro hj; exact h6 (by simp only [List.length_cons] at hj; omega)

theorem leadingFraction_sound : ∀ {s : Str} {x : Nat} {sc : F64} {o : Bool} {x' : Nat} {sc' : F64} {r : Str},
    leadingFraction x sc o s = (x', sc', r) → ∃ t f, s = t ++ r ∧ digitsLoop 0 t = some f ∧ NoDigit r := by
  intro s
  induction s with
  | nil =>
    intro x sc o x' sc' r h
    simp only [leadingFraction, Prod.mk.injEq] at h
    obtain ⟨-, -, rfl⟩ := h
    exact ⟨[], 0, rfl, rfl, by intro c hc; cases hc⟩
  | cons c cs ih =>
    intro x sc o x' sc' r h
    rw [leadingFraction] at h
    cases hd : digitVal c with
    | none =>
      rw [hd] at h
      simp only [Prod.mk.injEq] at h
      obtain ⟨-, -, rfl⟩ := h
      refine ⟨[], 0, rfl, rfl, ?_⟩
      intro c' hc'
      simp only [List.head?_cons, Option.some.injEq] at hc'
      rw [← hc']; exact hd
    | some d =>
      rw [hd] at h
      simp only at h
      have fin : (∃ t f, cs = t ++ r ∧ digitsLoop 0 t = some f ∧ NoDigit r) →
          ∃ t f, c :: cs = t ++ r ∧ digitsLoop 0 t = some f ∧ NoDigit r := by
        rintro ⟨t, f, h1, h2, h3⟩
        refine ⟨c :: t, (0 * 10 + d) * 10 ^ t.length + f, by rw [h1]; rfl, ?_, h3⟩
        simp only [digitsLoop, hd]
        rw [digitsLoop_shift, h2]; rfl
      split at h
      · exact fin (ih h)
      · split at h
        · exact fin (ih h)
        · split at h
          · exact fin (ih h)
          · exact fin (ih h)

/-! ## Numbers with units -/

theorem endsUnit_digit {c : Char} {d : Nat} (h : digitVal c = some d) : endsUnit c = true := by
  simp [endsUnit, isDecimal, h]

theorem not_endsUnit {c : Char} (h : endsUnit c = false) : digitVal c = none ∧ c ≠ '.' := by
  simp only [endsUnit, isDecimal, Bool.or_eq_false_iff, decide_eq_false_iff_not] at h
  refine ⟨?_, h.1⟩
  cases hd : digitVal c with
  | none => rfl
  | some d => rw [hd] at h; simp at h

structure UnitFacts (u : Str) (ns places : Nat) : Prop where
  look : durUnits.lookup u = some ns
  free : ∀ c ∈ u, endsUnit c = false
  ne : u ≠ []
  pos : 0 < ns
  small : ns ≤ 3600000000000
  dvd : 10 ^ places ∣ ns
  few : places ≤ 11

theorem unit_facts {u : Str} {ns places : Nat} (h : UnitText u ns places) : UnitFacts u ns places := by
  rcases h with ⟨rfl, rfl, rfl⟩ | ⟨rfl | rfl | rfl, rfl, rfl⟩ | ⟨rfl, rfl, rfl⟩ | ⟨rfl, rfl, rfl⟩ | ⟨rfl, rfl, rfl⟩ | ⟨rfl, rfl, rfl⟩
  all_goals
    exact ⟨by decide, by decide, by decide, by norm_num, by norm_num, by norm_num, by norm_num⟩

theorem unit_of_lookup {u : Str} {ns : Nat} (h : durUnits.lookup u = some ns) : ∃ places, UnitText u ns places := by
  obtain ⟨l1, l2, hl, -⟩ := List.lookup_eq_some_iff.1 h
  have hm : (u, ns) ∈ durUnits := by rw [hl]; simp
  simp only [durUnits, List.mem_cons, Prod.mk.injEq, List.not_mem_nil, or_false] at hm
  unfold UnitText
  rcases hm with ⟨rfl, rfl⟩ | ⟨rfl, rfl⟩ | ⟨rfl, rfl⟩ | ⟨rfl, rfl⟩ | ⟨rfl, rfl⟩ | ⟨rfl, rfl⟩ | ⟨rfl, rfl⟩ | ⟨rfl, rfl⟩
  · exact ⟨0, .inl ⟨rfl, rfl, rfl⟩⟩
  · exact ⟨3, .inr (.inl ⟨.inl rfl, rfl, rfl⟩)⟩
  · exact ⟨3, .inr (.inl ⟨.inr (.inl rfl), rfl, rfl⟩)⟩
  · exact ⟨3, .inr (.inl ⟨.inr (.inr rfl), rfl, rfl⟩)⟩
  · exact ⟨6, .inr (.inr (.inl ⟨rfl, rfl, rfl⟩))⟩
  · exact ⟨9, .inr (.inr (.inr (.inl ⟨rfl, rfl, rfl⟩)))⟩
  · exact ⟨10, .inr (.inr (.inr (.inr (.inl ⟨rfl, rfl, rfl⟩))))⟩
  · exact ⟨11, .inr (.inr (.inr (.inr (.inr ⟨rfl, rfl, rfl⟩))))⟩

/-- A unit ends here. -/
def UnitEnd (r : Str) : Prop := ∀ c, r.head? = some c → endsUnit c = true

theorem takeWhile_unit {u r : Str} (hu : ∀ c ∈ u, endsUnit c = false) (hr : UnitEnd r) :
    (u ++ r).takeWhile (fun c => !endsUnit c) = u ∧ (u ++ r).dropWhile (fun c => !endsUnit c) = r := by
  induction u with
  | nil =>
    cases r with
    | nil => exact ⟨rfl, rfl⟩
    | cons c cs =>
      have := hr c rfl
      simp [List.takeWhile, List.dropWhile, this]
  | cons c cs ih =>
    have h1 := hu c (by simp)
    have h2 := ih (fun c' hc' => hu c' (List.mem_cons_of_mem _ hc'))
    simp [List.takeWhile, List.dropWhile, h1, h2]

theorem durTerm_eq {s s1 u r : Str} {v f : Nat} {scale : F64} {post : Bool} {ns places : Nat}
    (h0 : endsUnit (s.headD 'x') = true) (h1 : leadingInt 0 s = some (v, s1))
    (h2 : optFraction s1 = (f, scale, u ++ r, post)) (h3 : ¬(s1.length = s.length ∧ post = false))
    (hu : UnitFacts u ns places) (hr : UnitEnd r) :
    durTerm s = if v > 2 ^ 63 / ns then none
      else if v * ns + (if f > 0 then fracNanos f ns scale else 0) > 2 ^ 63 then none
      else some (v * ns + (if f > 0 then fracNanos f ns scale else 0), r) := by
  obtain ⟨t1, t2⟩ := takeWhile_unit hu.free hr
  unfold durTerm
  rw [h0]
  simp only [Bool.not_true, Bool.false_eq_true, if_false, h1, h2]
  rw [if_neg h3]
  simp only [t1, t2, hu.look]

theorem noDigit_unit {u r : Str} (hu : ∀ c ∈ u, endsUnit c = false) (hne : u ≠ []) : NoDigit (u ++ r) := by
  intro c hc
  cases u with
  | nil => exact absurd rfl hne
  | cons a as =>
    simp only [List.cons_append, List.head?_cons, Option.some.injEq] at hc
    rw [← hc]; exact (not_endsUnit (hu a (by simp))).1

theorem dropWhile_dot {ip fp : Str} {x n : Nat} (h : digitsLoop x ip = some n) :
    (ip ++ '.' :: fp).dropWhile (· ≠ '.') = '.' :: fp := by
  induction ip generalizing x with
  | nil => rfl
  | cons c cs ih =>
    simp only [digitsLoop] at h
    cases hd : digitVal c with
    | none => rw [hd] at h; cases h
    | some d =>
      rw [hd] at h
      have hc : c ≠ '.' := by
        rintro rfl
        have h0 : digitVal '.' = none := by decide
        rw [h0] at hd; cases hd
      simp only [List.cons_append, List.dropWhile, hc, ne_eq, not_false_eq_true, decide_true]
      exact ih h

theorem dropWhile_nodot {ip : Str} {x n : Nat} (h : digitsLoop x ip = some n) : ip.dropWhile (· ≠ '.') = [] := by
  induction ip generalizing x with
  | nil => rfl
  | cons c cs ih =>
    simp only [digitsLoop] at h
    cases hd : digitVal c with
    | none => rw [hd] at h; cases h
    | some d =>
      rw [hd] at h
      have hc : c ≠ '.' := by
        rintro rfl
        have h0 : digitVal '.' = none := by decide
        rw [h0] at hd; cases hd
      simp only [List.dropWhile, hc, ne_eq, not_false_eq_true, decide_true]
      exact ih h

theorem headD_digits {t r : Str} {x n : Nat} (h : digitsLoop x t = some n) (hne : t ≠ []) :
    endsUnit ((t ++ r).headD 'x') = true := by
  cases t with
  | nil => exact absurd rfl hne
  | cons c cs =>
    simp only [digitsLoop] at h
    cases hd : digitVal c with
    | none => rw [hd] at h; cases h
    | some d => exact endsUnit_digit hd

/-- The loop reads a number with its unit. -/
theorem durTerm_part {p r : Str} {q : ℚ} {fine : Bool} (hp : DurationPart p q fine) (hr : UnitEnd r)
    (hq : q + 2 * fine.toNat < 2 ^ 63) :
    ∃ w, durTerm (p ++ r) = some (w, r) ∧ |(w : ℚ) - q| ≤ fine.toNat * (11 / 10) := by
  obtain ⟨num, u, x, ns, places, rfl, hx, hu, rfl, hfine⟩ := hp
  have uf := unit_facts hu
  have hns1 : (1 : ℚ) ≤ ns := by exact_mod_cast uf.pos
  have hnsq : (ns : ℚ) ≤ 3600000000000 := by exact_mod_cast uf.small
  have hfin0 : (0 : ℚ) ≤ fine.toNat := by positivity
  rcases hx with ⟨n, hn, rfl⟩ | ⟨ip, fp, m, rfl, hm, rfl⟩
  · have hne := numeral_ne hn
    have hdig := (parseDigits_iff num n).2 hn
    rw [parseDigits_eq hne] at hdig
    have hlt : n * ns < 2 ^ 63 := by
      have : (n : ℚ) * ns < 2 ^ 63 := by linarith
      exact_mod_cast this
    have hnle : n ≤ n * ns := Nat.le_mul_of_pos_right n uf.pos
    have e := durTerm_eq (s := num ++ (u ++ r)) (s1 := u ++ r) (u := u) (r := r) (v := n) (f := 0)
      (scale := .fin false 1 0) (post := false) (headD_digits hdig hne)
      (leadingInt_digits (noDigit_unit uf.free uf.ne) hdig (by omega))
      (by
        rcases u with _ | ⟨c, cs⟩
        · exact absurd rfl uf.ne
        · have := (not_endsUnit (uf.free c (by simp))).2
          simp only [List.cons_append]
          rw [optFraction]
          intro r' h; injection h with h; exact this h)
      (by
        rintro ⟨hl, -⟩
        simp only [List.length_append] at hl
        have : num.length ≠ 0 := by simpa using hne
        omega) uf hr
    refine ⟨n * ns, ?_, ?_⟩
    · rw [List.append_assoc, e, if_neg, if_neg]
      · simp
      · simp; omega
      · rw [not_lt]; exact (Nat.le_div_iff_mul_le uf.pos).2 hlt.le
    · push_cast; rw [sub_self, abs_zero]; positivity
  · have hne := numeral_ne hm
    have hdig := (parseDigits_iff _ m).2 hm
    rw [parseDigits_eq hne, digitsLoop_append] at hdig
    obtain ⟨i, hi, hf⟩ := Option.bind_eq_some_iff.1 hdig
    have hf' := hf
    rw [digitsLoop_shift] at hf'
    obtain ⟨F, hF, hmF⟩ := Option.map_eq_some_iff.1 hf'
    have hFlt := digitsLoop_lt hF
    generalize hL : fp.length = L at *
    have hP : (0 : ℚ) < 10 ^ L := by positivity
    have hqe : (m : ℚ) / 10 ^ L * ns = i * ns + F * ns / 10 ^ L := by
      rw [← hmF]; push_cast; field_simp
    rw [hqe] at hq ⊢
    have hFn : (0 : ℚ) ≤ F * ns / 10 ^ L := by positivity
    have hilt : i * ns < 2 ^ 63 := by
      have : (i : ℚ) * ns < 2 ^ 63 := by linarith
      exact_mod_cast this
    have hile : i ≤ i * ns := Nat.le_mul_of_pos_right i uf.pos
    obtain ⟨j, x', hj, hlf, hx63, hlo, hhi, hover⟩ :=
      leadingFraction_digits (t := fp) (r := u ++ r) (noDigit_unit uf.free uf.ne) (x := 0) (k := 0) (by norm_num) hF
    rw [hL] at hj hlo hhi hover
    rw [Nat.zero_add] at hlf
    have hx10 : x' < 10 ^ j := by
      have h1 : x' * 10 ^ (L - j) < 10 ^ j * 10 ^ (L - j) := by
        rw [← Nat.pow_add, Nat.add_sub_cancel' hj]; omega
      exact lt_of_mul_lt_mul_right h1 (Nat.zero_le _)
    have e := durTerm_eq (s := ip ++ '.' :: (fp ++ (u ++ r))) (s1 := '.' :: (fp ++ (u ++ r))) (u := u) (r := r)
      (v := i) (f := x') (scale := pow10f j) (post := decide ((u ++ r).length ≠ (fp ++ (u ++ r)).length))
      (by
        by_cases hip : ip = []
        · subst hip; show endsUnit '.' = true; decide
        · exact headD_digits hi hip)
      (leadingInt_digits (by intro c hc; simp at hc; subst hc; decide) hi (by omega))
      (by
        have : pow10f 0 = .fin false 1 0 := rfl
        rw [this] at hlf
        rw [optFraction, hlf])
      (by
        rintro ⟨hl, hl2⟩
        simp only [List.length_append, List.length_cons] at hl
        have h1 : ip = [] := by
          apply List.eq_nil_of_length_eq_zero; omega
        have h2 : fp = [] := by
          rw [decide_eq_false_iff_not, not_not] at hl2
          simp only [List.length_append] at hl2
          apply List.eq_nil_of_length_eq_zero; omega
        rw [h1, h2] at hne; exact hne rfl) uf hr
    have happ : (ip ++ '.' :: fp ++ u) ++ r = ip ++ '.' :: (fp ++ (u ++ r)) := by simp
    have hpl : decimalPlaces (ip ++ '.' :: fp) = L := by
      unfold decimalPlaces
      rw [dropWhile_dot hi]; simp [hL]
    rw [hpl] at hfine
    -- the fraction
    have key : |((if x' > 0 then fracNanos x' ns (pow10f j) else 0 : Nat) : ℚ) - F * ns / 10 ^ L| ≤
        fine.toNat * (11 / 10) := by
      by_cases hc : places < L
      · have : fine = true := hfine.2 hc
        rw [this]
        simp only [Bool.toNat_true, Nat.cast_one, one_mul]
        -- dropped digits
        have hdrop : |(x' : ℚ) * ns / 10 ^ j - F * ns / 10 ^ L| ≤ 1 / 100 := by
          have hj10 : (0 : ℚ) < 10 ^ j := by positivity
          have hsp : (10 : ℚ) ^ L = 10 ^ j * 10 ^ (L - j) := by rw [← pow_add, Nat.add_sub_cancel' hj]
          have hlo' : (x' : ℚ) * 10 ^ (L - j) ≤ F := by exact_mod_cast hlo
          have hhi' : (F : ℚ) < (x' + 1) * 10 ^ (L - j) := by exact_mod_cast hhi
          have hlj : (0 : ℚ) < 10 ^ (L - j) := by positivity
          have a1 : (x' : ℚ) / 10 ^ j ≤ F / 10 ^ L := by
            rw [hsp, div_le_div_iff₀ hj10 (by positivity)]
            nlinarith
          have a2 : (F : ℚ) / 10 ^ L ≤ (x' + 1) / 10 ^ j := by
            rw [hsp, div_le_div_iff₀ (by positivity) hj10]
            nlinarith
          have b1 : (x' : ℚ) * ns / 10 ^ j = x' / 10 ^ j * ns := by ring
          have b2 : (F : ℚ) * ns / 10 ^ L = F / 10 ^ L * ns := by ring
          rw [b1, b2]
          rcases Nat.lt_or_ge j L with hjL | hjL
          · have h18 : 18 ≤ j := by
              by_contra hcon
              have : 10 ^ j ≤ 10 ^ 17 := Nat.pow_le_pow_right (by omega) (by omega)
              have := hover hjL
              norm_num at *
              omega
            have h10 : (10 : ℚ) ^ 18 ≤ 10 ^ j := pow_le_pow_right₀ (by norm_num) h18
            have a3 : (F : ℚ) / 10 ^ L - x' / 10 ^ j ≤ 1 / 10 ^ 18 := by
              have : ((x' : ℚ) + 1) / 10 ^ j = x' / 10 ^ j + 1 / 10 ^ j := by ring
              have h5 : (1 : ℚ) / 10 ^ j ≤ 1 / 10 ^ 18 := by
                rw [div_le_div_iff₀ hj10 (by positivity)]; linarith
              linarith
            have a4 : ((F : ℚ) / 10 ^ L - x' / 10 ^ j) * ns ≤ 1 / 10 ^ 18 * 3600000000000 :=
              mul_le_mul a3 hnsq (by positivity) (by positivity)
            have a5 : 0 ≤ ((F : ℚ) / 10 ^ L - x' / 10 ^ j) * ns := mul_nonneg (by linarith) (by linarith)
            have a6 : (1 : ℚ) / 10 ^ 18 * 3600000000000 ≤ 1 / 100 := by norm_num
            rw [abs_le]
            constructor <;> linarith
          · have : j = L := by omega
            subst this
            rw [Nat.sub_self, Nat.pow_zero] at hlo hhi
            have : F = x' := by omega
            rw [this]; norm_num
        by_cases hx0 : x' > 0
        · rw [if_pos hx0]
          have := frac_near hx0 hx63 hx10 uf.pos uf.small
          have h1 := abs_le.1 this
          have h2 := abs_le.1 hdrop
          rw [abs_le]
          constructor <;> linarith [h1.1, h1.2, h2.1, h2.2]
        · rw [if_neg hx0]
          have hx0' : x' = 0 := by omega
          rw [hx0'] at hdrop
          rw [Nat.cast_zero, zero_mul, zero_div] at hdrop
          rw [Nat.cast_zero]
          linarith
      · have : fine = false := by
          cases fine with
          | false => rfl
          | true => exact absurd (hfine.1 rfl) hc
        rw [this]
        simp only [Bool.toNat_false, Nat.cast_zero, zero_mul]
        have hL11 : L ≤ 11 := by have := uf.few; omega
        have hjL : j = L := by
          by_contra hcon
          have h1 := hover (by omega)
          have h2 : 10 ^ j ≤ 10 ^ 11 := Nat.pow_le_pow_right (by omega) (by omega)
          norm_num at h2
          omega
        subst hjL
        rw [Nat.sub_self, Nat.pow_zero] at hlo hhi
        have hFx : x' = F := by omega
        subst hFx
        have hd : 10 ^ j ∣ ns := (Nat.pow_dvd_pow 10 (by omega)).trans uf.dvd
        obtain ⟨c, hc'⟩ := hd
        have hval : (if x' > 0 then fracNanos x' ns (pow10f j) else 0) = x' * c := by
          split
          · rw [frac_exact hL11 hx10 uf.small ⟨c, hc'⟩, hc', Nat.mul_div_cancel_left _ (Nat.pow_pos (by omega))]
          · have : x' = 0 := by omega
            rw [this, Nat.zero_mul]
        rw [hval, hc']
        push_cast
        have : (x' : ℚ) * c - x' * (10 ^ j * c) / 10 ^ j = 0 := by field_simp; ring
        rw [this, abs_zero]
    generalize hw : (if x' > 0 then fracNanos x' ns (pow10f j) else 0 : Nat) = fr at *
    have hk := abs_le.1 key
    have hle : i * ns + fr ≤ 2 ^ 63 := by
      have : (i : ℚ) * ns + fr ≤ 2 ^ 63 := by
        have : (fine.toNat : ℚ) * (11 / 10) ≤ 2 * fine.toNat := by linarith
        linarith [hk.2]
      exact_mod_cast this
    refine ⟨i * ns + fr, ?_, ?_⟩
    · rw [happ, e, if_neg, if_neg]
      · omega
      · rw [not_lt]; exact (Nat.le_div_iff_mul_le uf.pos).2 hilt.le
    · push_cast
      have : (i : ℚ) * ns + fr - (i * ns + F * ns / 10 ^ L) = fr - F * ns / 10 ^ L := by ring
      rw [this]; exact key

theorem fine_exists (a b : Nat) : ∃ fine : Bool, fine = true ↔ a < b := ⟨decide (a < b), by simp⟩

/-- Whatever the loop reads is a number with its unit. -/
theorem durTerm_sound {s r : Str} {w : Nat} (h : durTerm s = some (w, r)) :
    ∃ p q fine, s = p ++ r ∧ p ≠ [] ∧ DurationPart p q fine ∧ UnitEnd r := by
  unfold durTerm at h
  split at h
  · cases h
  · cases hl : leadingInt 0 s with
    | none => rw [hl] at h; cases h
    | some vs =>
      obtain ⟨v, s1⟩ := vs
      rw [hl] at h
      simp only at h
      rcases ho : optFraction s1 with ⟨f, scale, s2, post⟩
      rw [ho] at h
      simp only at h
      split at h
      · cases h
      · rename_i hpp
        cases hk : durUnits.lookup (s2.takeWhile (fun c => !endsUnit c)) with
        | none => rw [hk] at h; cases h
        | some ns =>
          rw [hk] at h
          simp only at h
          generalize v * ns + (if f > 0 then fracNanos f ns scale else 0) = W at h
          split at h
          · cases h
          · split at h
            · cases h
            · have hrr : s2.dropWhile (fun c => !endsUnit c) = r := by
                have := Option.some.inj h
                exact congrArg Prod.snd this
              obtain ⟨places, hu⟩ := unit_of_lookup hk
              have hs2 : s2 = s2.takeWhile (fun c => !endsUnit c) ++ r := by
                rw [← hrr]; exact (List.takeWhile_append_dropWhile).symm
              generalize hug : s2.takeWhile (fun c => !endsUnit c) = u at *
              have hune := (unit_facts hu).ne
              have hend : UnitEnd r := by
                intro c hc
                rw [← hrr] at hc
                have := List.head?_dropWhile_not (fun c => !endsUnit c) s2
                rw [hc] at this
                simpa using this
              obtain ⟨t, hst, hdt, hnd⟩ := leadingInt_sound hl
              have fin : ∀ num x, DecimalText num x → s = (num ++ u) ++ r →
                  ∃ p q fine, s = p ++ r ∧ p ≠ [] ∧ DurationPart p q fine ∧ UnitEnd r := by
                intro num x hx hs
                obtain ⟨fine, hf⟩ := fine_exists places (decimalPlaces num)
                exact ⟨num ++ u, x * ns, fine, hs, by simp [hune], ⟨num, u, x, ns, places, rfl, hx, hu, rfl, hf⟩, hend⟩
              unfold optFraction at ho
              split at ho
              · rename_i r1
                rcases hlf : leadingFraction 0 (.fin false 1 0) false r1 with ⟨f', sc', r2⟩
                rw [hlf] at ho
                simp only [Prod.mk.injEq] at ho
                obtain ⟨-, -, h2, h3⟩ := ho
                obtain ⟨fp, F, hr1, hF, -⟩ := leadingFraction_sound hlf
                have hne : t ++ fp ≠ [] := by
                  intro hnil
                  obtain ⟨ht, hfp⟩ := List.append_eq_nil_iff.1 hnil
                  apply hpp
                  refine ⟨by rw [hst, ht]; rfl, ?_⟩
                  rw [← h3, hr1, hfp]; simp
                have hall : digitsLoop 0 (t ++ fp) = some (v * 10 ^ fp.length + F) := by
                  rw [digitsLoop_append, hdt, Option.bind_some, digitsLoop_shift, hF]; rfl
                rw [← parseDigits_eq hne] at hall
                refine fin (t ++ '.' :: fp) _ (.inr ⟨t, fp, _, rfl, (parseDigits_iff _ _).1 hall, rfl⟩) ?_
                rw [hst, hr1, h2, hs2]; simp
              · simp only [Prod.mk.injEq] at ho
                obtain ⟨-, -, h2, h3⟩ := ho
                have hne : t ≠ [] := by
                  intro hnil
                  apply hpp
                  exact ⟨by rw [hst, hnil]; rfl, h3.symm⟩
                rw [← parseDigits_eq hne] at hdt
                refine fin t _ (.inl ⟨_, (parseDigits_iff _ _).1 hdt, rfl⟩) ?_
                rw [hst, h2, hs2]; simp

/-! ## The whole text -/

theorem part_nonneg {s : Str} {q : ℚ} {fine : Bool} (h : DurationPart s q fine) : 0 ≤ q ∧ s ≠ [] := by
  obtain ⟨num, u, x, ns, places, rfl, hx, hu, rfl, -⟩ := h
  have := decimal_nonneg hx
  exact ⟨by positivity, by simp [(unit_facts hu).ne]⟩

theorem parts_nonneg {s : Str} {q : ℚ} {n : Nat} (h : DurationParts s q n) : 0 ≤ q ∧ s ≠ [] := by
  induction h with
  | one h => exact part_nonneg h
  | more h _ ih =>
    obtain ⟨h1, h2⟩ := part_nonneg h
    exact ⟨add_nonneg h1 ih.1, by simp [h2]⟩

theorem part_end {s : Str} {q : ℚ} {fine : Bool} (h : DurationPart s q fine) (t : Str) : UnitEnd (s ++ t) := by
  obtain ⟨num, u, x, ns, places, rfl, hx, hu, rfl, -⟩ := h
  intro c hc
  have head : ∀ {num r : Str} {n : Nat}, digitsLoop 0 num = some n → num ≠ [] → (num ++ r).head? = some c → endsUnit c = true := by
    intro num r n h hne hc
    have := headD_digits (r := r) h hne
    rw [List.headD_eq_head?_getD, hc] at this
    simpa using this
  rcases hx with ⟨n, hn, rfl⟩ | ⟨ip, fp, m, rfl, hm, rfl⟩
  · have hne := numeral_ne hn
    have hd := (parseDigits_iff _ _).2 hn
    rw [parseDigits_eq hne] at hd
    rw [List.append_assoc] at hc
    exact head hd hne hc
  · by_cases hip : ip = []
    · subst hip
      simp at hc
      subst hc; decide
    · have hne := numeral_ne hm
      have hd := (parseDigits_iff _ _).2 hm
      rw [parseDigits_eq hne, digitsLoop_append] at hd
      obtain ⟨i, hi, -⟩ := Option.bind_eq_some_iff.1 hd
      have : ip ++ '.' :: fp ++ u ++ t = ip ++ ('.' :: fp ++ u ++ t) := by simp
      rw [this] at hc
      exact head hi hip hc

theorem parts_end {s : Str} {q : ℚ} {n : Nat} (h : DurationParts s q n) : UnitEnd s := by
  cases h with
  | one h => have := part_end h []; rwa [List.append_nil] at this
  | more h _ => exact part_end h _

theorem durLoop_step {fuel d : Nat} {s : Str} (h : s ≠ []) : durLoop (fuel + 1) d s = match durTerm s with
    | none => none
    | some (v, r) => if (d + v) % 2 ^ 64 > 2 ^ 63 then none else durLoop fuel ((d + v) % 2 ^ 64) r := by
  cases s with
  | nil => exact absurd rfl h
  | cons c cs => rfl

theorem durLoop_nil (fuel d : Nat) : durLoop fuel d [] = some d := by cases fuel <;> rfl

theorem durLoop_parts {s : Str} {q : ℚ} {n : Nat} (h : DurationParts s q n) : ∀ {fuel d : Nat}, s.length ≤ fuel →
    d + q + 2 * n < 2 ^ 63 → ∃ w, durLoop fuel d s = some w ∧ |(w : ℚ) - (d + q)| ≤ n * (11 / 10) := by
  induction h with
  | @one s q fine h =>
    intro fuel d hf hq
    obtain ⟨hq0, hne⟩ := part_nonneg h
    have hd0 : (0 : ℚ) ≤ d := by positivity
    have hf0 : (0 : ℚ) ≤ (fine.toNat : ℚ) := by positivity
    obtain ⟨w, hw, hv⟩ := durTerm_part h (r := []) (by intro c hc; cases hc) (by linarith)
    rw [List.append_nil] at hw
    obtain ⟨fuel, rfl⟩ : ∃ k, fuel = k + 1 := ⟨fuel - 1, by
      have : s.length ≠ 0 := by simpa using hne
      omega⟩
    have hb := abs_le.1 hv
    have hlt : d + w < 2 ^ 63 := by
      have : (d : ℚ) + w < 2 ^ 63 := by linarith [hb.2]
      exact_mod_cast this
    refine ⟨d + w, ?_, ?_⟩
    · rw [durLoop_step hne, hw]
      simp only
      rw [Nat.mod_eq_of_lt (by omega), if_neg (by omega), durLoop_nil]
    · push_cast
      have : (d : ℚ) + w - (d + q) = w - q := by ring
      rw [this]; exact hv
  | @more s t q r fine n h ht ih =>
    intro fuel d hf hq
    obtain ⟨hq0, hne⟩ := part_nonneg h
    obtain ⟨hr0, hnet⟩ := parts_nonneg ht
    have hd0 : (0 : ℚ) ≤ d := by positivity
    have hn0 : (0 : ℚ) ≤ n := by positivity
    have hf0 : (0 : ℚ) ≤ (fine.toNat : ℚ) := by positivity
    push_cast at hq
    obtain ⟨w, hw, hv⟩ := durTerm_part h (parts_end ht) (by linarith)
    have hlen : s.length ≠ 0 := by simpa using hne
    rw [List.length_append] at hf
    obtain ⟨fuel, rfl⟩ : ∃ k, fuel = k + 1 := ⟨fuel - 1, by omega⟩
    have hb := abs_le.1 hv
    have hlt : d + w < 2 ^ 63 := by
      have : (d : ℚ) + w < 2 ^ 63 := by linarith [hb.2]
      exact_mod_cast this
    obtain ⟨w', hw', hv'⟩ := ih (fuel := fuel) (d := d + w) (by omega) (by push_cast; linarith [hb.2])
    refine ⟨w', ?_, ?_⟩
    · rw [durLoop_step (by simp [hne]), hw]
      simp only
      rw [Nat.mod_eq_of_lt (by omega), if_neg (by omega), hw']
    · push_cast at hv' ⊢
      have hb' := abs_le.1 hv'
      rw [abs_le]
      constructor <;> linarith [hb.1, hb.2, hb'.1, hb'.2]

theorem durLoop_sound : ∀ {fuel d : Nat} {s : Str} {w : Nat}, durLoop fuel d s = some w → s ≠ [] →
    ∃ q n, DurationParts s q n := by
  intro fuel
  induction fuel with
  | zero =>
    intro d s w h hne
    cases s with
    | nil => exact absurd rfl hne
    | cons c cs => cases h
  | succ fuel ih =>
    intro d s w h hne
    rw [durLoop_step hne] at h
    cases ht : durTerm s with
    | none => rw [ht] at h; cases h
    | some vr =>
      obtain ⟨v, r⟩ := vr
      rw [ht] at h
      simp only at h
      split at h
      · cases h
      · obtain ⟨p, q, fine, rfl, -, hp, -⟩ := durTerm_sound ht
        by_cases hr : r = []
        · subst hr
          rw [List.append_nil]
          exact ⟨q, _, .one hp⟩
        · obtain ⟨q', n, hq'⟩ := ih h hr
          exact ⟨_, _, .more hp hq'⟩

/-- Reading the text after the sign. -/
theorem goDuration_body {s : Str} {neg : Bool} {q : ℚ} {n : Nat}
    (h : DurationParts s q n ∨ (s = ['0'] ∧ q = 0 ∧ n = 0)) (hq : q + 2 * n < 2 ^ 63) :
    ∃ d : Int, (if s = ['0'] then some 0
      else if s = [] then none
      else match durLoop s.length 0 s with
        | none => none
        | some d => if neg then some (-(d : Int)) else if d > 2 ^ 63 - 1 then none else some (d : Int)) = some d ∧
      |(d : ℚ) - (if neg then -q else q)| ≤ n * (11 / 10) := by
  by_cases hs : s = ['0']
  · rw [if_pos hs]
    rcases h with h | ⟨-, rfl, rfl⟩
    · exfalso
      -- a lone zero has no unit
      obtain ⟨w, hw, -⟩ := durLoop_parts h (fuel := s.length) (d := 0) (Nat.le_refl _) (by push_cast; linarith)
      subst hs
      have : durLoop 1 0 ['0'] = none := by decide
      rw [List.length_singleton, this] at hw
      cases hw
    · refine ⟨0, rfl, ?_⟩
      cases neg <;> norm_num
  · rw [if_neg hs]
    rcases h with h | ⟨h, -, -⟩
    · obtain ⟨hq0, hne⟩ := parts_nonneg h
      rw [if_neg hne]
      obtain ⟨w, hw, hv⟩ := durLoop_parts h (fuel := s.length) (d := 0) (Nat.le_refl _) (by push_cast; linarith)
      rw [hw]
      simp only
      have hn0 : (0 : ℚ) ≤ n := by positivity
      have hb := abs_le.1 hv
      push_cast at hb
      have hlt : w < 2 ^ 63 := by
        have : (w : ℚ) < 2 ^ 63 := by linarith [hb.2]
        exact_mod_cast this
      cases neg with
      | true =>
        refine ⟨-(w : Int), rfl, ?_⟩
        push_cast
        simp only [if_true]
        rw [abs_le]; constructor <;> linarith [hb.1, hb.2]
      | false =>
        refine ⟨(w : Int), ?_, ?_⟩
        · simp only [Bool.false_eq_true, if_false]
          rw [if_neg (by omega)]
        · push_cast
          rw [abs_le]; constructor <;> linarith [hb.1, hb.2]
    · exact absurd h hs

theorem parts_head {s : Str} {q : ℚ} {n : Nat} (h : DurationParts s q n ∨ (s = ['0'] ∧ q = 0 ∧ n = 0)) :
    (∀ t, s ≠ '-' :: t) ∧ ∀ t, s ≠ '+' :: t := by
  rcases h with h | ⟨h, -, -⟩
  · have := parts_end h
    constructor
    all_goals
      rintro t rfl
      exact absurd (this _ rfl) (by decide)
  · subst h
    constructor
    all_goals
      intro t ht
      injection ht with ht
      exact absurd ht (by decide)

/-- Durations are read as what they mean. -/
theorem goDuration_text {s : Str} {q : ℚ} {n : Nat} (h : GoDurationText s q n) (hq : |q| + 2 * n < 2 ^ 63) :
    ∃ d : Int, goDuration s = some d ∧ |(d : ℚ) - q| ≤ n * (11 / 10) := by
  cases h with
  | plain h =>
    obtain ⟨h1, h2⟩ := parts_head h
    obtain ⟨d, hd, hv⟩ := goDuration_body (neg := false) h (lt_of_le_of_lt (by linarith [le_abs_self q]) hq)
    refine ⟨d, ?_, by simpa using hv⟩
    unfold goDuration
    split
    · rename_i hx
      split at hx
      · exact absurd rfl (h1 _)
      · exact absurd rfl (h2 _)
      · injection hx with a b; subst a; subst b; exact hd
  | plus h =>
    obtain ⟨d, hd, hv⟩ := goDuration_body (neg := false) h (lt_of_le_of_lt (by linarith [le_abs_self q]) hq)
    exact ⟨d, hd, by simpa using hv⟩
  | @minus s q n h =>
    rw [abs_neg] at hq
    obtain ⟨d, hd, hv⟩ := goDuration_body (neg := true) h (lt_of_le_of_lt (by linarith [le_abs_self q]) hq)
    exact ⟨d, hd, by simpa using hv⟩

/-- Only durations are read. -/
theorem goDuration_sound {s : Str} {d : Int} (h : goDuration s = some d) : ∃ q n, GoDurationText s q n := by
  have body : ∀ {neg : Bool} {t : Str}, (if t = ['0'] then some 0
      else if t = [] then none
      else match durLoop t.length 0 t with
        | none => none
        | some d => if neg then some (-(d : Int)) else if d > 2 ^ 63 - 1 then none else some (d : Int)) = some d →
      ∃ q n, DurationParts t q n ∨ (t = ['0'] ∧ q = 0 ∧ n = 0) := by
    intro neg t h
    split at h
    · rename_i h0; exact ⟨0, 0, .inr ⟨h0, rfl, rfl⟩⟩
    · split at h
      · cases h
      · rename_i hne
        cases hl : durLoop t.length 0 t with
        | none => rw [hl] at h; cases h
        | some w =>
          obtain ⟨q, n, hp⟩ := durLoop_sound hl hne
          exact ⟨q, n, .inl hp⟩
  unfold goDuration at h
  split at h
  rename_i hx
  split at hx
  · injection hx with a b; subst a; subst b
    obtain ⟨q, n, hb⟩ := body h
    exact ⟨_, _, .minus hb⟩
  · injection hx with a b; subst a; subst b
    obtain ⟨q, n, hb⟩ := body h
    exact ⟨_, _, .plus hb⟩
  · injection hx with a b; subst a; subst b
    obtain ⟨q, n, hb⟩ := body h
    exact ⟨_, _, .plain hb⟩

end LogCache
