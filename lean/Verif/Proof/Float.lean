import Verif.Spec.Float
import Verif.Proof.Num
import Verif.Proof.Client

/-! # float64: rounding is to the nearest number -/

namespace LogCache
open Spec

/-! ## Rounding to integers -/

theorem roundDiv_near (n : Nat) {d : Nat} (hd : 0 < d) : |(roundDiv n d : ℚ) - n / d| ≤ 1 / 2 := by
  have hdq : (0 : ℚ) < d := by exact_mod_cast hd
  have h1 : d * (n / d) + n % d = n := Nat.div_add_mod n d
  have hlt : n % d < d := Nat.mod_lt n hd
  have h1q : (d : ℚ) * ((n / d : Nat) : ℚ) + ((n % d : Nat) : ℚ) = n := by exact_mod_cast h1
  have hq : (n : ℚ) / d = ((n / d : Nat) : ℚ) + ((n % d : Nat) : ℚ) / d := by
    rw [← h1q]; field_simp
  have hr : ((n % d : Nat) : ℚ) = ((n % d : Nat) : ℚ) / d * d := by field_simp
  rw [hq]
  generalize hg : ((n % d : Nat) : ℚ) / d = f at *
  have hf0 : 0 ≤ f := by rw [← hg]; positivity
  unfold roundDiv
  split
  · rename_i h
    have hh : 2 * ((n % d : Nat) : ℚ) < d := by exact_mod_cast h
    rw [hr] at hh
    have : 2 * f < 1 := by
      by_contra hc
      push Not at hc
      nlinarith
    rw [abs_le]; constructor <;> linarith
  · split
    · rename_i h
      have hh : (d : ℚ) < 2 * ((n % d : Nat) : ℚ) := by exact_mod_cast h
      rw [hr] at hh
      have h2 : ((n % d : Nat) : ℚ) < d := by exact_mod_cast hlt
      rw [hr] at h2
      have : 1 < 2 * f := by
        by_contra hc
        push Not at hc
        nlinarith
      have : f < 1 := by
        by_contra hc
        push Not at hc
        nlinarith
      push_cast
      rw [abs_le]; constructor <;> linarith
    · rename_i h3 h4
      have : 2 * (n % d) = d := by omega
      have hh : 2 * ((n % d : Nat) : ℚ) = d := by exact_mod_cast this
      rw [hr] at hh
      have : 2 * f = 1 := by
        have : (2 * f - 1) * d = 0 := by linarith
        rcases mul_eq_zero.1 this with h | h
        · linarith
        · exact absurd h (ne_of_gt hdq)
      split
      · rw [abs_le]; constructor <;> linarith
      · push_cast
        rw [abs_le]; constructor <;> linarith

theorem roundDiv_nearest (n : Nat) {d : Nat} (hd : 0 < d) (k : Int) :
    |(roundDiv n d : ℚ) - n / d| ≤ |(k : ℚ) - n / d| := by
  by_cases hk : k = (roundDiv n d : Int)
  · rw [hk]; simp
  · have h1 := roundDiv_near n hd
    have h2 : (1 : ℚ) ≤ |(k : ℚ) - (roundDiv n d : ℚ)| := by
      have : (1 : Int) ≤ |k - (roundDiv n d : Int)| := by
        rcases lt_or_gt_of_ne hk with h | h
        · rw [abs_of_neg (by omega)]; omega
        · rw [abs_of_pos (by omega)]; omega
      exact_mod_cast this
    have h3 := abs_sub_le (k : ℚ) ((n : ℚ) / d) (roundDiv n d : ℚ)
    rw [abs_sub_comm ((n : ℚ) / d)] at h3
    linarith

theorem roundDiv_unique (n : Nat) {d : Nat} (hd : 0 < d) {k : Nat} (h : |(k : ℚ) - n / d| < 1 / 2) :
    roundDiv n d = k := by
  have h1 := roundDiv_near n hd
  have h3 := abs_sub_le (k : ℚ) ((n : ℚ) / d) (roundDiv n d : ℚ)
  rw [abs_sub_comm ((n : ℚ) / d)] at h3
  by_contra hk
  have h2 : (1 : ℚ) ≤ |(k : ℚ) - (roundDiv n d : ℚ)| := by
    have : (1 : Int) ≤ |(k : Int) - (roundDiv n d : Int)| := by
      rcases Nat.lt_or_gt_of_ne hk with h | h
      · rw [abs_of_pos (by omega)]; omega
      · rw [abs_of_neg (by omega)]; omega
    exact_mod_cast this
  linarith

/-! ## Exponents -/

theorem zpow_split (e : Int) : (2 : ℚ) ^ e = (2 : ℚ) ^ e.toNat / (2 : ℚ) ^ (-e).toNat := by
  rcases le_total 0 e with h | h
  · obtain ⟨k, rfl⟩ := Int.eq_ofNat_of_zero_le h
    simp
  · obtain ⟨k, hk⟩ := Int.eq_ofNat_of_zero_le (show 0 ≤ -e by omega)
    have : e = -(k : Int) := by omega
    subst this
    simp

theorem scaled (num den : Nat) (e : Int) (hd : 0 < den) :
    ((num * 2 ^ (-e).toNat : Nat) : ℚ) / ((den * 2 ^ e.toNat : Nat) : ℚ) = (num : ℚ) / den / 2 ^ e := by
  rw [zpow_split e]
  push_cast
  have : (den : ℚ) ≠ 0 := by exact_mod_cast (by omega : den ≠ 0)
  field_simp

theorem log2_bounds {n : Nat} (h : 0 < n) : (2 : ℚ) ^ (n.log2 : Int) ≤ n ∧ (n : ℚ) < 2 ^ ((n.log2 : Int) + 1) := by
  constructor
  · rw [zpow_natCast]
    exact_mod_cast Nat.log2_self_le (by omega)
  · have := Nat.lt_log2_self (n := n)
    have h2 : ((n.log2 : Int) + 1) = ((n.log2 + 1 : Nat) : Int) := by push_cast; ring
    rw [h2, zpow_natCast]
    exact_mod_cast this

/-- The exponent of 53 binary digits, without the lower bound. -/
theorem exp_bounds {num den : Nat} (hn : 0 < num) (hd : 0 < den) :
    ∃ k : Int, f64Exp num den = max (-1074) k ∧ (2 : ℚ) ^ 52 * 2 ^ k ≤ (num : ℚ) / den ∧
      (num : ℚ) / den < 2 ^ 53 * 2 ^ k := by
  obtain ⟨n1, n2⟩ := log2_bounds hn
  obtain ⟨d1, d2⟩ := log2_bounds hd
  have hdq : (0 : ℚ) < den := by exact_mod_cast hd
  unfold f64Exp
  refine ⟨_, rfl, ?_⟩
  have hcast : (den * 2 ^ num.log2 ≤ num * 2 ^ den.log2) ↔
      (den : ℚ) * 2 ^ (num.log2 : Int) ≤ num * 2 ^ (den.log2 : Int) := by
    rw [zpow_natCast, zpow_natCast]; norm_cast
  have h2 : (2 : ℚ) ≠ 0 := by norm_num
  generalize (num.log2 : Int) = a at *
  generalize (den.log2 : Int) = b at *
  have ha : (0 : ℚ) < 2 ^ a := zpow_pos (by norm_num) a
  have hb : (0 : ℚ) < 2 ^ b := zpow_pos (by norm_num) b
  rw [zpow_add₀ h2] at n2 d2
  by_cases hc : den * 2 ^ num.log2 ≤ num * 2 ^ den.log2
  · rw [if_pos hc]
    rw [hcast] at hc
    have e1 : (2 : ℚ) ^ (a - b - 52) = 2 ^ a / 2 ^ b / 2 ^ 52 := by
      rw [zpow_sub₀ h2, zpow_sub₀ h2]; norm_num
    rw [e1]
    constructor
    · rw [le_div_iff₀ hdq]
      have : (2 : ℚ) ^ 52 * (2 ^ a / 2 ^ b / 2 ^ 52) * den = den * 2 ^ a / 2 ^ b := by field_simp
      rw [this, div_le_iff₀ hb]; exact hc
    · rw [div_lt_iff₀ hdq]
      have : (2 : ℚ) ^ 53 * (2 ^ a / 2 ^ b / 2 ^ 52) * den = 2 * (2 ^ a * den) / 2 ^ b := by field_simp
      rw [this, lt_div_iff₀ hb]
      nlinarith
  · rw [if_neg hc]
    rw [hcast] at hc
    push Not at hc
    have e1 : (2 : ℚ) ^ (a - b - 53) = 2 ^ a / 2 ^ b / 2 ^ 53 := by
      rw [zpow_sub₀ h2, zpow_sub₀ h2]; norm_num
    rw [e1]
    constructor
    · rw [le_div_iff₀ hdq]
      have : (2 : ℚ) ^ 52 * (2 ^ a / 2 ^ b / 2 ^ 53) * den = den * 2 ^ a / (2 * 2 ^ b) := by field_simp
      rw [this, div_le_iff₀ (by positivity)]
      nlinarith
    · rw [div_lt_iff₀ hdq]
      have : (2 : ℚ) ^ 53 * (2 ^ a / 2 ^ b / 2 ^ 53) * den = den * 2 ^ a / 2 ^ b := by field_simp
      rw [this, lt_div_iff₀ hb]; exact hc

theorem pow2_pos (e : Int) : (0 : ℚ) < 2 ^ e := zpow_pos (by norm_num) e

theorem pow2_le {a b : Int} (h : a ≤ b) : (2 : ℚ) ^ a ≤ 2 ^ b := zpow_le_zpow_right₀ (by norm_num) h

theorem pow2_add (a b : Int) : (2 : ℚ) ^ (a + b) = 2 ^ a * 2 ^ b := zpow_add₀ (by norm_num) a b

/-- Before it is put into its usual form, the rounded number is `m * 2^e`. -/
structure Rounded (q : ℚ) (m : Nat) (e : Int) : Prop where
  near : |(m : ℚ) * 2 ^ e - q| ≤ 2 ^ e / 2
  best : ∀ k : Int, |(m : ℚ) * 2 ^ e - q| ≤ |(k : ℚ) * 2 ^ e - q|
  top : m ≤ 2 ^ 53
  low : -1074 ≤ e
  full : e = -1074 ∨ 2 ^ 52 ≤ m
  above : e = -1074 ∨ (2 : ℚ) ^ 52 * 2 ^ e ≤ q
  below : q < 2 ^ 53 * 2 ^ e

theorem f64Round_rounded (neg : Bool) {num den : Nat} (hn : 0 < num) (hd : 0 < den) :
    ∃ m e, f64Round neg num den = f64Norm neg m e ∧ Rounded ((num : ℚ) / den) m e := by
  obtain ⟨k, hk, k1, k2⟩ := exp_bounds hn hd
  unfold f64Round
  rw [if_neg (by omega)]
  refine ⟨_, _, rfl, ?_⟩
  have hd' : 0 < den * 2 ^ (f64Exp num den).toNat := Nat.mul_pos hd (Nat.pow_pos (by omega))
  have near := roundDiv_near (num * 2 ^ (-f64Exp num den).toNat) hd'
  have best := roundDiv_nearest (num * 2 ^ (-f64Exp num den).toNat) hd'
  generalize hm : roundDiv (num * 2 ^ (-f64Exp num den).toNat) (den * 2 ^ (f64Exp num den).toNat) = m at *
  rw [scaled num den _ hd] at near
  have best' : ∀ j : Int, |(m : ℚ) - (num : ℚ) / den / 2 ^ (f64Exp num den)| ≤
      |(j : ℚ) - (num : ℚ) / den / 2 ^ (f64Exp num den)| := by
    intro j
    have := best j
    rwa [scaled num den _ hd] at this
  clear best hm
  generalize f64Exp num den = e at *
  generalize (num : ℚ) / den = q at *
  have hp := pow2_pos e
  have hscale : ∀ x : ℚ, |x * 2 ^ e - q| = |x - q / 2 ^ e| * 2 ^ e := by
    intro x
    rw [← abs_of_pos hp, ← abs_mul, abs_of_pos hp]
    congr 1
    field_simp
  have hke : (2 : ℚ) ^ k ≤ 2 ^ e := pow2_le (by omega)
  have hb : q < 2 ^ 53 * 2 ^ e := by linarith
  have hab : e = -1074 ∨ (2 : ℚ) ^ 52 * 2 ^ e ≤ q := by
    rcases max_choice (-1074) k with h | h
    · left; omega
    · right; have : e = k := by omega
      rw [this]; exact k1
  have hq2 : q / 2 ^ e < 2 ^ 53 := by rw [div_lt_iff₀ hp]; exact hb
  rw [abs_le] at near
  refine ⟨?_, ?_, ?_, by omega, ?_, hab, hb⟩
  · rw [hscale, ← abs_le] at *
    have : |(m : ℚ) - q / 2 ^ e| ≤ 1 / 2 := near
    nlinarith
  · intro j
    rw [hscale, hscale]
    exact mul_le_mul_of_nonneg_right (best' j) hp.le
  · have : (m : ℚ) < 2 ^ 53 + 1 := by linarith
    have : m < 2 ^ 53 + 1 := by exact_mod_cast this
    omega
  · rcases hab with h | h
    · exact .inl h
    · right
      have : (2 : ℚ) ^ 52 ≤ q / 2 ^ e := by rw [le_div_iff₀ hp]; exact h
      have : (2 : ℚ) ^ 52 - 1 < m := by linarith
      have : (2 : ℚ) ^ 52 < m + 1 := by linarith
      have : 2 ^ 52 < m + 1 := by exact_mod_cast this
      omega

theorem f64Norm_value (neg : Bool) {m : Nat} {e : Int} (ht : m ≤ 2 ^ 53) (hl : -1074 ≤ e)
    (hf : e = -1074 ∨ 2 ^ 52 ≤ m) :
    Binary64 (f64Norm neg m e) ∧
    (IsFinite64 (f64Norm neg m e) → f64Value (f64Norm neg m e) = (if neg then -1 else 1) * (m * (2 : ℚ) ^ e)) ∧
    ((e ≤ 970 ∨ (e = 971 ∧ m < 2 ^ 53)) → IsFinite64 (f64Norm neg m e)) := by
  unfold f64Norm
  by_cases h0 : m = 0
  · rw [if_pos h0]
    subst h0
    exact ⟨.inl ⟨rfl, rfl⟩, fun _ => by simp [f64Value], fun _ => trivial⟩
  · rw [if_neg h0]
    by_cases h1 : 2 ^ 53 ≤ m
    · rw [if_pos h1]
      have hm : m = 2 ^ 53 := by omega
      by_cases h2 : 970 < e
      · rw [if_pos h2]
        refine ⟨trivial, fun h => h.elim, fun h => ?_⟩
        omega
      · rw [if_neg h2]
        refine ⟨.inr ⟨by omega, by omega, by omega, by omega, .inr (by omega)⟩, fun _ => ?_, fun _ => trivial⟩
        simp only [f64Value]
        rw [pow2_add, hm]
        push_cast
        ring
    · rw [if_neg h1]
      by_cases h2 : 971 < e
      · rw [if_pos h2]
        exact ⟨trivial, fun h => h.elim, fun h => by omega⟩
      · rw [if_neg h2]
        exact ⟨.inr ⟨by omega, by omega, by omega, by omega, hf⟩, fun _ => rfl, fun _ => trivial⟩

theorem f64Round_binary (neg : Bool) (num : Nat) {den : Nat} (hd : 0 < den) : Binary64 (f64Round neg num den) := by
  by_cases hn : num = 0
  · unfold f64Round; rw [if_pos hn]; exact .inl ⟨rfl, rfl⟩
  · obtain ⟨m, e, h, hr⟩ := f64Round_rounded neg (Nat.pos_of_ne_zero hn) hd
    rw [h]
    exact (f64Norm_value neg hr.top hr.low hr.full).1

theorem f64Round_finite (neg : Bool) (num : Nat) {den : Nat} (hd : 0 < den) (hq : (num : ℚ) / den < f64Limit) :
    IsFinite64 (f64Round neg num den) := by
  by_cases hn : num = 0
  · unfold f64Round; rw [if_pos hn]; trivial
  · obtain ⟨m, e, h, hr⟩ := f64Round_rounded neg (Nat.pos_of_ne_zero hn) hd
    rw [h]
    refine (f64Norm_value neg hr.top hr.low hr.full).2.2 ?_
    unfold f64Limit at hq
    have hp := pow2_pos 970
    rcases le_or_gt e 970 with h1 | h1
    · exact .inl h1
    · right
      have habove : (2 : ℚ) ^ 52 * 2 ^ e ≤ (num : ℚ) / den := hr.above.resolve_left (by omega)
      have he : e = 971 := by
        by_contra hc
        have h2 : (2 : ℚ) ^ (970 + 2 : Int) ≤ 2 ^ e := pow2_le (by omega)
        rw [pow2_add] at h2
        have : (2 : ℚ) ^ (2 : Int) = 4 := by norm_num
        rw [this] at h2
        clear hr h
        generalize (2 : ℚ) ^ (970 : Int) = X at *
        generalize (2 : ℚ) ^ e = Y at *
        linarith
      refine ⟨he, ?_⟩
      by_contra hc
      have hm : m = 2 ^ 53 := by have := hr.top; omega
      have hn := hr.near
      subst he
      have h2 : (2 : ℚ) ^ (970 + 1 : Int) = 2 ^ (970 : Int) * 2 := by rw [pow2_add]; norm_num
      have h3 : (971 : Int) = 970 + 1 := by norm_num
      rw [h3, h2, hm, abs_le] at hn
      push_cast at hn
      nlinarith [hn.1, hn.2]

/-- `round64 neg q`: the number rounding gives, in absolute value. -/
theorem f64Round_value (neg : Bool) {num den : Nat} (hn : 0 < num) (hd : 0 < den)
    (hf : IsFinite64 (f64Round neg num den)) :
    ∃ m e, Rounded ((num : ℚ) / den) m e ∧
      f64Value (f64Round neg num den) = (if neg then -1 else 1) * (m * (2 : ℚ) ^ e) := by
  obtain ⟨m, e, h, hr⟩ := f64Round_rounded neg hn hd
  refine ⟨m, e, hr, ?_⟩
  rw [h] at hf ⊢
  exact (f64Norm_value neg hr.top hr.low hr.full).2.1 hf

/-- A positive number is rounded to the nearest float64. -/
theorem rounded_best {q : ℚ} {m : Nat} {e : Int} (h : Rounded q m e) (hq : 0 ≤ q) {y : F64}
    (hy : Binary64 y) : |(m : ℚ) * 2 ^ e - q| ≤ |f64Value y - q| := by
  have hp := pow2_pos e
  have h0 : |(m : ℚ) * 2 ^ e - q| ≤ |0 - q| := by simpa using h.best 0
  -- a number between zero and a multiple not above `q`
  have hmid : ∀ v : ℚ, v ≤ 0 → |(m : ℚ) * 2 ^ e - q| ≤ |v - q| := by
    intro v hv
    refine h0.trans ?_
    rw [abs_of_nonpos (by linarith), abs_of_nonpos (by linarith)]
    linarith
  cases y with
  | nan => exact hmid _ le_rfl
  | inf s => exact hmid _ le_rfl
  | fin s m' e' =>
    simp only [f64Value]
    have hp' := pow2_pos e'
    cases s with
    | true =>
      apply hmid
      have : (0 : ℚ) ≤ m' * 2 ^ e' := by positivity
      simp only [if_pos]; linarith
    | false =>
      simp only [Bool.false_eq_true, if_false, one_mul]
      rcases hy with ⟨hm, he⟩ | ⟨h1, h2, h3, h4, h5⟩
      · subst hm; apply hmid; simp
      · rcases le_or_gt e e' with hle | hlt
        · -- a multiple of `2^e`
          have := h.best ((m' * 2 ^ (e' - e).toNat : Nat) : Int)
          have hh : ((((m' * 2 ^ (e' - e).toNat : Nat) : Int)) : ℚ) * 2 ^ e = m' * 2 ^ e' := by
            have h6 : e' = ((e' - e).toNat : Int) + e := by omega
            have h7 : (2 : ℚ) ^ e' = 2 ^ (e' - e).toNat * 2 ^ e := by
              conv_lhs => rw [h6, pow2_add, zpow_natCast]
            rw [h7]; push_cast; ring
          rwa [hh] at this
        · -- smaller than every number with 53 digits
          have ha : (2 : ℚ) ^ 52 * 2 ^ e ≤ q := h.above.resolve_left (by omega)
          have hb := h.best ((2 ^ 52 : Nat) : Int)
          refine hb.trans ?_
          have h6 : (2 : ℚ) ^ (e' + 1) ≤ 2 ^ e := pow2_le (by omega)
          rw [pow2_add, zpow_one] at h6
          have h7 : (m' : ℚ) < 2 ^ 53 := by exact_mod_cast h2
          have h8 : (m' : ℚ) * 2 ^ e' ≤ 2 ^ 52 * 2 ^ e := by nlinarith
          push_cast
          rw [abs_of_nonpos (by linarith), abs_of_nonpos (by linarith)]
          linarith

/-- A float64 is rounded to itself. -/
theorem f64Round_exact {neg : Bool} {m : Nat} {e : Int} (h : Binary64 (.fin neg m e)) {num den : Nat} (hd : 0 < den)
    (hq : (num : ℚ) / den = m * 2 ^ e) : f64Round neg num den = .fin neg m e := by
  have hp := pow2_pos e
  have hdq : (0 : ℚ) < den := by exact_mod_cast hd
  rcases h with ⟨hm, he⟩ | ⟨h1, h2, h3, h4, h5⟩
  · subst hm; subst he
    have : num = 0 := by
      have : (num : ℚ) = 0 := by
        rw [div_eq_iff hdq.ne'] at hq; simpa using hq
      exact_mod_cast this
    unfold f64Round; rw [if_pos this]
  · have hmq : (0 : ℚ) < m := by exact_mod_cast h1
    have hn : 0 < num := by
      rcases Nat.eq_zero_or_pos num with h | h
      · subst h
        simp only [Nat.cast_zero, zero_div] at hq
        have : (0 : ℚ) < m * 2 ^ e := by positivity
        linarith
      · exact h
    obtain ⟨k, hk, k1, k2⟩ := exp_bounds hn hd
    rw [hq] at k1 k2
    have hm2 : (m : ℚ) < 2 ^ 53 := by exact_mod_cast h2
    have hke : k ≤ e := by
      by_contra hc
      have h6 : (2 : ℚ) ^ (e + 1) ≤ 2 ^ k := pow2_le (by omega)
      rw [pow2_add, zpow_one] at h6
      nlinarith
    have hee : f64Exp num den = e := by
      rw [hk]
      rcases h5 with h5 | h5
      · omega
      · have hm3 : (2 : ℚ) ^ 52 ≤ m := by exact_mod_cast h5
        have : e ≤ k := by
          by_contra hc
          have h6 : (2 : ℚ) ^ (k + 1) ≤ 2 ^ e := pow2_le (by omega)
          rw [pow2_add, zpow_one] at h6
          nlinarith
        omega
    unfold f64Round
    rw [if_neg (by omega), hee]
    have hround : roundDiv (num * 2 ^ (-e).toNat) (den * 2 ^ e.toNat) = m := by
      apply roundDiv_unique _ (Nat.mul_pos hd (Nat.pow_pos (by omega)))
      rw [scaled num den e hd, hq, mul_div_cancel_right₀ _ hp.ne', sub_self, abs_zero]
      norm_num
    rw [hround]
    unfold f64Norm
    rw [if_neg (by omega), if_neg (by omega), if_neg (by omega)]

end LogCache
