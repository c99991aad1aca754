import Verif.Props.Prune64

/-! # More heap in use never prunes less, in float64 (C19) -/

namespace LogCache
open Spec

/-- `v` is what rounding makes of `q`. -/
def RoundOf (q v : ℚ) : Prop :=
  ∃ (num den m : Nat) (e : Int), 0 < den ∧ (num : ℚ) / den = q ∧ f64Round false num den = .fin false m e ∧ v = m * 2 ^ e

theorem roundOf_mono {q q' v v' : ℚ} (h : RoundOf q v) (h' : RoundOf q' v') (hq : q ≤ q') : v ≤ v' := by
  obtain ⟨n, d, m, e, hd, rfl, r, rfl⟩ := h
  obtain ⟨n', d', m', e', hd', rfl, r', rfl⟩ := h'
  exact f64Round_mono hd hd' hq r r'

theorem scaled_binary {m : Nat} {e : Int} (hm : m < 2 ^ 53) (he : -1074 ≤ e) (he2 : e ≤ 900) :
    ∃ m' e', Binary64 (.fin false m' e') ∧ (m' : ℚ) * 2 ^ e' = m * 2 ^ e := by
  have hd : 0 < 2 ^ (-e).toNat := Nat.pow_pos (by omega)
  have hv := mag_one m e
  have hlt : ((m * 2 ^ e.toNat : Nat) : ℚ) / ((2 ^ (-e).toNat : Nat) : ℚ) < 2 ^ 52 * 2 ^ (e + 1) := by
    rw [hv, pow2_add]
    have hp := pow2_pos e
    have : (m : ℚ) < 2 ^ 53 := by exact_mod_cast hm
    have h2 : (2 : ℚ) ^ 52 * (2 ^ e * 2 ^ (1 : Int)) = 2 ^ 53 * 2 ^ e := by norm_num; ring
    rw [h2]
    nlinarith
  obtain ⟨m', e', h1, h2⟩ := f64Round_to false (m * 2 ^ e.toNat) hd he he2 hlt
  refine ⟨m', e', h1 ▸ f64Round_binary false _ hd, ?_⟩
  rw [hv] at h2
  exact h2.exact m (by norm_cast)

/-- The difference of a percentage and a whole one is exact. -/
theorem diff_binary {m p : Nat} {e : Int} (hb : Binary64 (.fin false m e)) (hle : (m : ℚ) * 2 ^ e ≤ 2 ^ 52)
    (hp : (p : ℚ) < m * 2 ^ e) : ∃ md ed, Binary64 (.fin false md ed) ∧ (md : ℚ) * 2 ^ ed = m * 2 ^ e - p := by
  rcases Int.lt_or_le e 0 with he | he
  · obtain ⟨k, hk⟩ := Int.eq_ofNat_of_zero_le (show 0 ≤ -e by omega)
    have hek : e = -(k : Int) := by omega
    have h2 : (2 : ℚ) ^ e = 1 / 2 ^ k := by rw [hek, zpow_neg, zpow_natCast, one_div]
    have hk0 : (0 : ℚ) < 2 ^ k := by positivity
    have hlt : p * 2 ^ k < m := by
      rw [h2, mul_one_div, lt_div_iff₀ hk0] at hp
      exact_mod_cast hp
    rcases hb with ⟨_, h0⟩ | ⟨_, hm, he1, _, _⟩
    · omega
    · obtain ⟨md, ed, h1, h3⟩ := scaled_binary (m := m - p * 2 ^ k) (e := e) (by omega) he1 (by omega)
      refine ⟨md, ed, h1, ?_⟩
      rw [h3, Nat.cast_sub hlt.le, sub_mul, h2]
      push_cast
      field_simp
  · obtain ⟨k, rfl⟩ := Int.eq_ofNat_of_zero_le he
    have hz : (2 : ℚ) ^ ((k : Nat) : Int) = 2 ^ k := zpow_natCast 2 k
    rw [hz] at hle hp ⊢
    have h1 : p < m * 2 ^ k := by exact_mod_cast hp
    have h2 : m * 2 ^ k ≤ 2 ^ 52 := by exact_mod_cast hle
    obtain ⟨md, ed, h3, h4⟩ := nat_binary (m * 2 ^ k - p) (by omega)
    refine ⟨md, ed, h3, ?_⟩
    rw [h4, Nat.cast_sub h1.le]
    push_cast
    rfl

/-- The quantity above the limit, when the difference is exact. -/
theorem prune_rounds {m mp p : Nat} {e ep : Int} (hb : Binary64 (.fin false m e)) (hle : (m : ℚ) * 2 ^ e ≤ 2 ^ 52)
    (hpv : (mp : ℚ) * 2 ^ ep = p) (hgt : (p : ℚ) < m * 2 ^ e) (c : Nat) (hc : c < 2 ^ 53) :
    ∃ (r x : ℚ) (k : Nat),
      ((f64OfInt (c : Int)).mul (((F64.fin false m e).sub (.fin false mp ep)).div (.fin false m e))).toInt64 = k ∧
      RoundOf ((m * 2 ^ e - p) / (m * 2 ^ e)) r ∧ RoundOf (c * r) x ∧ (k : ℚ) ≤ x ∧ x < k + 1 := by
  have hp0 : (0 : ℚ) ≤ p := by positivity
  have hh0 : (0 : ℚ) < m * 2 ^ e := lt_of_le_of_lt hp0 hgt
  have hm0 : 0 < m := by
    rcases Nat.eq_zero_or_pos m with h | h
    · rw [h] at hh0; norm_num at hh0
    · exact h
  have hlim : ∀ q : ℚ, q ≤ 2 ^ 64 → q < f64Limit := by
    intro q hq
    have := limit_big
    have h3 : (2 : ℚ) ^ 64 < 2 ^ 200 := by norm_num
    linarith
  obtain ⟨n1, d1, p1, r1, v1⟩ := sub_fin m e mp ep (by rw [hpv]; exact hgt)
  rw [hpv] at v1
  have h5264 : (2 : ℚ) ^ 52 ≤ 2 ^ 64 := by norm_num
  obtain ⟨md, ed, s1, b1, f1⟩ := round_fl false n1 p1 (hlim _ (by rw [v1]; linarith))
  rw [v1] at f1
  have hexact : (md : ℚ) * 2 ^ ed = m * 2 ^ e - p := by
    obtain ⟨md', ed', hb', hv'⟩ := diff_binary hb hle hgt
    exact le_antisymm (hv' ▸ f1.up md' ed' hb' hv'.ge) (hv' ▸ f1.down md' ed' hb' hv'.le)
  obtain ⟨n2, d2, p2, r2, v2⟩ := div_fin md ed m e hm0
  rw [hexact] at v2
  have hr1 : ((m : ℚ) * 2 ^ e - p) / (m * 2 ^ e) ≤ 1 := (div_le_one hh0).2 (by linarith)
  obtain ⟨mr, er, s2, b2, f2⟩ := round_fl false n2 p2 (hlim _ (by rw [v2]; linarith))
  have hr := f2.up _ _ one_binary.1 (by rw [one_binary.2, v2]; exact hr1)
  rw [one_binary.2] at hr
  obtain ⟨mc, ec, ac, bc, fc⟩ := ofNat_fl c (by omega)
  have hcv := fl_exact hc fc
  have hr0 := f2.nonneg
  obtain ⟨n3, d3, p3, r3, v3⟩ := mul_fin mc ec mr er
  rw [hcv] at v3
  have hcq : (c : ℚ) < 2 ^ 53 := by exact_mod_cast hc
  have hc0 : (0 : ℚ) ≤ c := by positivity
  have hcr : (c : ℚ) * (mr * 2 ^ er) ≤ c := by nlinarith
  have h64 : (2 : ℚ) ^ 53 ≤ 2 ^ 63 ∧ (2 : ℚ) ^ 63 ≤ 2 ^ 64 := by norm_num
  obtain ⟨mx, ex, s3, b3, f3⟩ := round_fl false n3 p3 (hlim _ (by rw [v3]; linarith [h64.1, h64.2]))
  have hx := f3.up mc ec bc (by rw [hcv, v3]; exact hcr)
  rw [hcv] at hx
  obtain ⟨k, k1, k2, k3⟩ := toInt64_floor mx ex (by linarith [h64.1])
  refine ⟨mr * 2 ^ er, mx * 2 ^ ex, k, ?_, ⟨n2, d2, mr, er, p2, v2, s2, rfl⟩, ⟨n3, d3, mx, ex, p3, v3, s3, rfl⟩, k2, k3⟩
  rw [r1, s1, r2, s2, ac, r3, s3, k1]

theorem heap_round (n : Nat) (h : n < 2 ^ 64) :
    ∃ m e, f64OfInt (n : Int) = .fin false m e ∧ RoundOf n (m * 2 ^ e) := by
  obtain ⟨m, e, h1, _, _⟩ := ofNat_fl n h
  refine ⟨m, e, h1, n, 1, m, e, by omega, by simp, ?_, rfl⟩
  unfold f64OfInt at h1
  rwa [show decide ((n : Int) < 0) = false by simp, Int.natAbs_natCast] at h1

/-- Percentages are in the order of the heaps, and not too large. -/
theorem percent_mono (heap heap' total : Nat) (hle : heap ≤ heap') (hh : heap' * 100 < 2 ^ 64) (ht : 0 < total)
    (ht2 : total < 2 ^ 64) (hr : heap' ≤ 2 ^ 40 * total) :
    ∃ m e m' e', (f64OfInt ((heap * 100 % 2 ^ 64 : Nat) : Int)).div (f64OfInt (total : Int)) = .fin false m e ∧
      (f64OfInt ((heap' * 100 % 2 ^ 64 : Nat) : Int)).div (f64OfInt (total : Int)) = .fin false m' e' ∧
      Binary64 (.fin false m e) ∧ Binary64 (.fin false m' e') ∧ (m : ℚ) * 2 ^ e ≤ m' * 2 ^ e' ∧ (m' : ℚ) * 2 ^ e' ≤ 2 ^ 52 := by
  rw [Nat.mod_eq_of_lt (by omega : heap * 100 < 2 ^ 64), Nat.mod_eq_of_lt hh]
  obtain ⟨m1, e1, a1, q1⟩ := heap_round (heap * 100) (by omega)
  obtain ⟨m2, e2, a2, q2⟩ := heap_round (heap' * 100) hh
  obtain ⟨mt, et, a3, bt, ft⟩ := ofNat_fl total ht2
  obtain ⟨m2', e2', a2', _, f2⟩ := ofNat_fl (heap' * 100) hh
  rw [a2] at a2'
  injection a2' with _ hm he
  rw [← hm, ← he] at f2
  have htq : (1 : ℚ) ≤ total := by exact_mod_cast ht
  have hu : (2 : ℚ) ^ (-1022 : Int) ≤ 1 := by
    have := pow2_le (show (-1022 : Int) ≤ 0 by norm_num)
    simpa using this
  have hB : (total : ℚ) / 2 ≤ mt * 2 ^ et := by
    have := (abs_le.1 (ft.err total le_rfl (hu.trans htq))).1
    have h3 : (total : ℚ) / 2 ^ 53 ≤ total / 2 := by
      apply div_le_div_of_nonneg_left <;> norm_num
    linarith
  have hB0 : (0 : ℚ) < mt * 2 ^ et := by linarith
  have hmt : 0 < mt := by
    rcases Nat.eq_zero_or_pos mt with h | h
    · rw [h] at hB0; norm_num at hB0
    · exact h
  have h12 := roundOf_mono q1 q2 (by exact_mod_cast Nat.mul_le_mul_right 100 hle)
  have hrq : (heap' : ℚ) ≤ 2 ^ 40 * total := by exact_mod_cast hr
  have hA : (m2 : ℚ) * 2 ^ e2 ≤ 2 ^ 48 * total := by
    have h5 : ((heap' * 100 : Nat) : ℚ) ≤ 2 ^ 47 * total := by
      push_cast
      nlinarith
    have h6 : (1 : ℚ) ≤ 2 ^ 47 * total := by nlinarith
    have := (abs_le.1 (f2.err _ h5 (hu.trans h6))).2
    have h7 : (2 : ℚ) ^ 47 * total / 2 ^ 53 ≤ 2 ^ 47 * total := by
      rw [div_le_iff₀ (by positivity)]
      nlinarith
    have h8 : (2 : ℚ) ^ 48 = 2 ^ 47 + 2 ^ 47 := by norm_num
    rw [h8, add_mul]
    linarith
  obtain ⟨n1, d1, p1, r1, v1⟩ := div_fin m1 e1 mt et hmt
  obtain ⟨n2, d2, p2, r2, v2⟩ := div_fin m2 e2 mt et hmt
  have hq2 : (n2 : ℚ) / d2 ≤ 2 ^ 49 := by
    rw [v2, div_le_iff₀ hB0]
    have h9 : (2 : ℚ) ^ 49 * (total / 2) ≤ 2 ^ 49 * (mt * 2 ^ et) := mul_le_mul_of_nonneg_left hB (by positivity)
    have h10 : (2 : ℚ) ^ 49 * (total / 2) = 2 ^ 48 * total := by ring
    linarith
  have hq1 : (n1 : ℚ) / d1 ≤ n2 / d2 := by
    rw [v1, v2]
    exact div_le_div_of_nonneg_right h12 hB0.le
  have hlim : (2 : ℚ) ^ 49 < f64Limit := lt_trans (by norm_num) limit_big
  obtain ⟨m, e, s1, b1, _⟩ := round_fl false n1 p1 (lt_of_le_of_lt (hq1.trans hq2) hlim)
  obtain ⟨m', e', s2, b2, f2'⟩ := round_fl false n2 p2 (lt_of_le_of_lt hq2 hlim)
  obtain ⟨mb, eb, hb1, hb2⟩ := nat_binary (2 ^ 52) (by norm_num)
  refine ⟨m, e, m', e', by rw [a1, a3, r1, s1], by rw [a2, a3, r2, s2], b1, b2, f64Round_mono p1 p2 hq1 s1 s2, ?_⟩
  have h11 := f2'.up mb eb hb1 (by rw [hb2]; push_cast; exact hq2.trans (by norm_num))
  rw [hb2] at h11
  exact_mod_cast h11

/-- More heap in use never prunes less, also in float64: for the percentages that can be
configured, which are whole numbers. -/
theorem C19_float_monotone (p heap heap' total count : Nat) (hp : p < 2 ^ 53) (hle : heap ≤ heap')
    (hh : heap' * 100 < 2 ^ 64) (ht : 0 < total) (ht2 : total < 2 ^ 64) (hr : heap' ≤ 2 ^ 40 * total) (hc : count < 2 ^ 53) :
    quantity64 (f64OfInt (p : Int)) (heap, total) count ≤ quantity64 (f64OfInt (p : Int)) (heap', total) count := by
  obtain ⟨mp, ep, ap, bp, fp⟩ := ofNat_fl p (by omega)
  have hpv := fl_exact hp fp
  obtain ⟨m, e, m', e', h1, h2, b1, b2, hmono, hmax⟩ := percent_mono heap heap' total hle hh ht ht2 hr
  have hrange := (C19_float_range (p := f64OfInt (p : Int)) ⟨mp, ep, ap, by rw [ap]; exact bp⟩ heap' total ht ht2 count hc).1
  by_cases hg : (p : ℚ) < m * 2 ^ e
  · have hg' : (p : ℚ) < m' * 2 ^ e' := lt_of_lt_of_le hg hmono
    obtain ⟨r, x, k, hk, q1, q2, k1, k2⟩ := prune_rounds b1 (hmono.trans hmax) hpv hg count hc
    obtain ⟨r', x', k', hk', q1', q2', k1', k2'⟩ := prune_rounds b2 hmax hpv hg' count hc
    have hp0 : (0 : ℚ) ≤ p := by positivity
    have hH : (0 : ℚ) < m * 2 ^ e := lt_of_le_of_lt hp0 hg
    have hH' : (0 : ℚ) < m' * 2 ^ e' := lt_of_le_of_lt hp0 hg'
    have hr : r ≤ r' := by
      refine roundOf_mono q1 q1' ?_
      rw [div_le_div_iff₀ hH hH']
      nlinarith
    have hx : x ≤ x' := roundOf_mono q2 q2' (mul_le_mul_of_nonneg_left hr (by positivity))
    have hkk : (k : ℚ) < k' + 1 := by linarith
    have hkk' : k < k' + 1 := by exact_mod_cast hkk
    unfold quantity64
    simp only [h1, h2, ap]
    rw [if_pos ((gt_fin _ _ _ _).2 (by rw [hpv]; exact hg)), if_pos ((gt_fin _ _ _ _).2 (by rw [hpv]; exact hg')), hk, hk']
    omega
  · have : quantity64 (f64OfInt (p : Int)) (heap, total) count = 0 := by
      unfold quantity64
      simp only [h1, ap]
      rw [if_neg (by rw [gt_fin, hpv]; exact hg)]
    rw [this]
    exact hrange

/-- Eight and nine of ten gigabytes in use where half is allowed. -/
example : quantity64 (f64OfInt ((50 : Nat) : Int)) (8000000000, 10000000000) ((1000 : Nat) : Int) ≤
    quantity64 (f64OfInt ((50 : Nat) : Int)) (9000000000, 10000000000) ((1000 : Nat) : Int) :=
  C19_float_monotone 50 8000000000 9000000000 10000000000 1000 (by norm_num) (by norm_num) (by norm_num) (by norm_num)
    (by norm_num) (by norm_num) (by norm_num)

end LogCache
