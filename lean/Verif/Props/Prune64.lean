import Verif.Proof.Prune
import Verif.Props.Prune
import Verif.Model.Store
/-!
# Property theorems about the prune consultant, in float64 (C19)

`p` is the configured percentage, `memory` the heap in use and the total memory in bytes.
-/
namespace LogCache
open Spec

/-- A percentage: a float64 that is finite and not negative. -/
def Spec.Percentage (p : F64) : Prop := ∃ m e, p = .fin false m e ∧ Binary64 p

/-- Nothing is pruned while the heap is within the configured percentage; rounding makes no
difference. -/
theorem C19_float_within {p : F64} (hp : Percentage p) (heap total : Nat) (hh : heap * 100 < 2 ^ 53) (ht : 0 < total)
    (ht2 : total < 2 ^ 53) (count : Int) (hw : 100 * (heap : ℚ) ≤ f64Value p * total) :
    quantity64 p (heap, total) count = 0 := by
  obtain ⟨mp, ep, rfl, hb⟩ := hp
  obtain ⟨m, e, h1, h2, h3, h4⟩ := percent_fl heap total ht (by omega)
  unfold quantity64
  simp only [h1]
  rw [if_neg]
  rw [gt_fin, not_lt]
  have ht' : (0 : ℚ) < total := by exact_mod_cast ht
  simp only [f64Value, Bool.false_eq_true, if_false, one_mul] at hw
  refine (h4 hh ht2).up mp ep hb ?_
  rw [div_le_iff₀ ht']; exact hw

/-- The quantity is never negative and never more than what is stored, whatever the memory. -/
theorem C19_float_range {p : F64} (hp : Percentage p) (heap total : Nat) (ht : 0 < total)
    (ht2 : total < 2 ^ 64) (count : Nat) (hc : count < 2 ^ 53) :
    0 ≤ quantity64 p (heap, total) count ∧ quantity64 p (heap, total) count ≤ count := by
  obtain ⟨mp, ep, rfl, hb⟩ := hp
  obtain ⟨m, e, h1, h2, h3, -⟩ := percent_fl heap total ht ht2
  unfold quantity64
  simp only [h1]
  split
  · next hg =>
    rw [gt_fin] at hg
    obtain ⟨d, r, x, k, hk, -, -, -, -, -, hx, k1, -⟩ := prune_core h2 h3 hg count hc
    rw [hk]
    have : (k : ℚ) ≤ count := by linarith
    have : k ≤ count := by exact_mod_cast this
    omega
  · omega

/-- With fewer than 2^50 envelopes, at most one more or less is pruned than exact
arithmetic would prune. -/
theorem C19_float_quantity {p : F64} (hp : Percentage p) (heap total : Nat) (hh : heap * 100 < 2 ^ 53) (ht : 0 < total)
    (ht2 : total < 2 ^ 53) (count : Nat) (hc : count < 2 ^ 50) :
    |quantity64 p (heap, total) count - quantityToPrune (f64Value p) heap total count| ≤ 1 := by
  have hpp : 0 ≤ f64Value p := by
    obtain ⟨mp, ep, rfl, -⟩ := hp
    have := pow2_pos ep
    simp only [f64Value, Bool.false_eq_true, if_false, one_mul]; positivity
  by_cases hw : 100 * (heap : ℚ) ≤ f64Value p * total
  · rw [C19_float_within hp heap total hh ht ht2 count hw, C19_none_within _ _ _ (by omega) ht _ hw]
    norm_num
  · push Not at hw
    obtain ⟨q1, q2⟩ := C19_quantity (f64Value p) hpp heap total (by omega) ht count hw
    obtain ⟨mp, ep, rfl, hb⟩ := hp
    simp only [f64Value, Bool.false_eq_true, if_false, one_mul] at *
    obtain ⟨m, e, h1, h2, h3, h4⟩ := percent_fl heap total ht (by omega)
    have f := h4 hh ht2
    have ht' : (0 : ℚ) < total := by exact_mod_cast ht
    have hmt : (0 : ℚ) ≤ mp * 2 ^ ep * total := by positivity
    have hh' : (0 : ℚ) < 100 * heap := by linarith
    have hcq : (count : ℚ) < 2 ^ 50 := by exact_mod_cast hc
    have hc0 : (0 : ℚ) ≤ count := by positivity
    generalize hP : (mp : ℚ) * 2 ^ ep = P at *
    generalize hH : (m : ℚ) * 2 ^ e = H at *
    generalize hQ : quantityToPrune P heap total count = Q at *
    generalize hq : (100 * (heap : ℚ)) / total = q at *
    have hqt : 100 * (heap : ℚ) = q * total := by rw [← hq]; field_simp
    have hqP : P < q := by
      rw [hqt] at hw
      exact lt_of_mul_lt_mul_right hw ht'.le
    have hq0 : 0 < q := by linarith
    -- the exact quantity
    generalize hE : (count : ℚ) * (1 - P / q) = E
    have e1 : (Q : ℚ) ≤ E := by
      rw [← hE]
      have h5 : (Q : ℚ) * q ≤ count * (q - P) := by
        rw [hqt] at q1
        push_cast at q1
        have : (Q : ℚ) * q * total ≤ count * (q - P) * total := by nlinarith
        exact le_of_mul_le_mul_right this ht'
      rw [show (count : ℚ) * (1 - P / q) = count * (q - P) / q by field_simp, le_div_iff₀ hq0]
      exact h5
    have e2 : E < Q + 1 := by
      rw [← hE]
      have h5 : count * (q - P) < ((Q : ℚ) + 1) * q := by
        rw [hqt] at q2
        push_cast at q2
        have : count * (q - P) * total < ((Q : ℚ) + 1) * q * total := by nlinarith
        exact lt_of_mul_lt_mul_right this ht'.le
      rw [show (count : ℚ) * (1 - P / q) = count * (q - P) / q by field_simp, div_lt_iff₀ hq0]
      exact h5
    -- the rounded percentage
    have hsmall : (2 : ℚ) ^ (-1022 : Int) ≤ q := by
      have h5 : (1 : ℚ) ≤ heap := by
        have : 0 < heap := by
          by_contra hz
          have : heap = 0 := by omega
          rw [this] at hh'; norm_num at hh'
        exact_mod_cast this
      have h6 : (total : ℚ) < 2 ^ 53 := by exact_mod_cast ht2
      have h7 : (2 : ℚ) ^ (-1022 : Int) ≤ 2 ^ (-53 : Int) := pow2_le (by norm_num)
      have h8 : (2 : ℚ) ^ (-53 : Int) * 2 ^ 53 = 1 := by norm_num
      rw [← hq, le_div_iff₀ ht']
      have := pow2_pos (-53)
      nlinarith
    have d1 := f.err q le_rfl hsmall
    have d1' := abs_le.1 d1
    have hPH : P ≤ H := by
      have := f.down mp ep hb (by rw [hP]; exact hqP.le)
      rwa [hP] at this
    unfold quantity64
    simp only [h1]
    by_cases hg : P < H
    · rw [if_pos ((gt_fin m e mp ep).2 (by rw [hP, hH]; exact hg))]
      obtain ⟨d, r, x, k, hk, fd, fr, fx, hd, hr, hx, k1, k2⟩ :=
        prune_core h2 (by rw [hH]; exact h3) (by rw [hP, hH]; exact hg) count (by omega)
      rw [hH, hP] at fd
      rw [hH] at fr hd
      rw [hk]
      have hH0 : 0 < H := by linarith [fd.nonneg]
      have hu : (2 : ℚ) ^ (-1022 : Int) ≤ 1 := by
        have := pow2_le (show (-1022 : Int) ≤ 0 by norm_num)
        simpa using this
      have hHs : (2 : ℚ) ^ (-1022 : Int) ≤ H := by
        have hbn : Binary64 (.fin false (2 ^ 52) (-1074)) := by right; norm_num
        have hbv : (((2 ^ 52 : Nat) : ℚ)) * 2 ^ (-1074 : Int) = 2 ^ (-1022 : Int) := by
          rw [show (-1022 : Int) = 52 + -1074 by norm_num, pow2_add]
          norm_num
        have := f.down _ _ hbn (by rw [hbv]; exact hsmall)
        rwa [hbv] at this
      have g1 := fd.err H (by linarith) hHs
      have g2 := fr.err 1 ((div_le_one hH0).2 hd) hu
      have key := prune_error hc0 hcq hpp hPH hH0 hq0 hE d1 g1 g2 fr.nonneg hr
        (fx.err (2 ^ 50) (by have := fr.nonneg; nlinarith) (hu.trans (by norm_num)))
      rw [abs_le] at key
      have s1 : (k : ℚ) - Q < 2 := by linarith [key.1, key.2]
      have s2 : (Q : ℚ) - k < 2 := by linarith [key.1, key.2]
      have s1' : (k : Int) - Q < 2 := by exact_mod_cast s1
      have s2' : Q - (k : Int) < 2 := by exact_mod_cast s2
      rw [abs_le]; omega
    · rw [if_neg (by rw [gt_fin, hP, hH]; exact hg)]
      have hHP : H = P := le_antisymm (not_lt.1 hg) hPH
      have hE1 : E < 1 := by
        rw [← hE]
        have : 1 - P / q ≤ 1 / 2 ^ 53 := by
          rw [← hHP]
          have : 1 - H / q = (q - H) / q := by field_simp
          rw [this, div_le_iff₀ hq0]
          linarith
        have h10 : 0 ≤ 1 - P / q := by
          have : P / q ≤ 1 := (div_le_one hq0).2 hqP.le
          linarith
        nlinarith
      have hE0 : 0 ≤ E := by
        rw [← hE]
        have : P / q ≤ 1 := (div_le_one hq0).2 hqP.le
        exact mul_nonneg hc0 (by linarith)
      have s1 : (Q : ℚ) < 1 := by linarith
      have s2 : (-1 : ℚ) < Q := by linarith
      have s1' : Q < 1 := by exact_mod_cast s1
      have s2' : -1 < Q := by exact_mod_cast s2
      rw [abs_le]; omega

/-- Eight of ten gigabytes in use where half is allowed. -/
example : Percentage (.fin false (50 * 2 ^ 47) (-47)) ∧
    quantity64 (.fin false (50 * 2 ^ 47) (-47)) (analyzerMemory (some 10000000000) 8000000000) 1000 = 375 := by
  refine ⟨⟨_, _, rfl, ?_⟩, by decide +kernel⟩
  right; norm_num

theorem ofNat_zero : f64OfInt ((0 : Nat) : Int) = .fin false 0 0 := by decide +kernel

/-- When the memory of the system cannot be read, whatever is in use: the quantity is the
smallest integer. -/
theorem prune_unknown (p : F64) (hp : IsFinite64 p) (heap : Nat) (hh : heap * 100 % 2 ^ 64 ≠ 0) (count : Int) :
    quantity64 p (analyzerMemory none heap) count = -2 ^ 63 := by
  obtain ⟨m, e, h1, h2, h3⟩ := ofNat_fl (heap * 100 % 2 ^ 64) (Nat.mod_lt _ (by norm_num))
  have hm : m ≠ 0 := by
    intro h
    have := h3.down _ _ one_binary.1 (by rw [one_binary.2]; exact_mod_cast Nat.one_le_iff_ne_zero.2 hh)
    rw [one_binary.2, h] at this
    norm_num at this
  unfold quantity64 analyzerMemory
  simp only [Option.getD_none, h1, ofNat_zero, F64.div, if_true, if_neg hm, bne_self_eq_false]
  match p, hp with
  | .fin s mp ep, _ =>
    have : ((F64.inf false).sub (.fin s mp ep)).div (.inf false) = .nan := rfl
    simp only [F64.gt, Bool.not_false, if_true, this]
    cases f64OfInt count <;> rfl

/-- When no memory is in use either, it is zero. -/
theorem prune_unknown_idle (p : F64) (heap : Nat) (hh : heap * 100 % 2 ^ 64 = 0) (count : Int) :
    quantity64 p (analyzerMemory none heap) count = 0 := by
  unfold quantity64 analyzerMemory
  simp only [Option.getD_none, hh, Nat.cast_zero, ofNat_zero]
  rfl

/-- "Above the configured percentage something is pruned" is false when the memory of the
system cannot be read: however much of the heap is in use, nothing is. -/
theorem C19_unknown_memory_false (p : F64) (hp : IsFinite64 p) (heap : Nat)
    (order : List (Str × Storage)) (now : Int) (st st' : Store) (hc : 0 ≤ st.g.count)
    (h : truncate (quantity64 p (analyzerMemory none heap)) order now st = some st') :
    st'.index = st.index ∧ st'.g.count = st.g.count := by
  unfold truncate at h
  by_cases hh : heap * 100 % 2 ^ 64 = 0
  · simp only [prune_unknown_idle p heap hh, if_true, Option.some.injEq] at h
    rw [← h]
    exact ⟨rfl, rfl⟩
  simp only [prune_unknown p hp heap hh st.g.count] at h
  rw [if_neg (by decide), if_neg (by omega)] at h
  cases hb : buildHeap order [] with
  | none => rw [hb] at h; cases h
  | some hp' =>
    rw [hb] at h
    simp only [show (-2 ^ 63 : Int).toNat = 0 from rfl, pruneLoop, Option.some.injEq] at h
    rw [← h]
    cases hp'.popLast <;> exact ⟨rfl, rfl⟩

/-- One envelope, everything in use, and a limit of half the memory. -/
example : (truncate (quantity64 (.fin false (50 * 2 ^ 47) (-47)) (analyzerMemory none 8000000000))
    [("a".toList, { sourceId := "a".toList, tree := .node .nil 1 { sourceId := "a".toList, timestamp := 1 } 0 .nil })] 5
    { cfg := { maxPerSource := 10 }, index := [("a".toList, { sourceId := "a".toList, tree := .node .nil 1 { sourceId := "a".toList, timestamp := 1 } 0 .nil })], g := { count := 1 } }).isSome
      = true := by decide +kernel

end LogCache
