import Mathlib.Algebra.Order.Field.Rat
import Mathlib.Tactic.Linarith
import Mathlib.Tactic.FieldSimp
import Mathlib.Tactic.Positivity
import Mathlib.Tactic.NormNum
import Verif.Model.Reader
/-!
# Property theorems about the prune consultant (C19)

`p` is the configured percentage, `heap` and `total` the memory in bytes.
-/
namespace LogCache

theorem heapPct_eq {heap total : Nat} (hh : heap * 100 < 2 ^ 64) :
    ((heap * 100 % 2 ^ 64 : Nat) : Rat) / (total : Rat) = 100 * heap / total := by
  rw [Nat.mod_eq_of_lt hh]; push_cast; rw [mul_comm]

theorem over_iff {p : Rat} {heap total : Nat} (ht : 0 < total) :
    (100 * heap / total : Rat) > p ↔ p * total < 100 * heap := by
  have : (0 : Rat) < total := by exact_mod_cast ht
  rw [gt_iff_lt, lt_div_iff₀ this]

theorem ratio_eq {p : Rat} (hp : 0 ≤ p) {heap total : Nat} (ht : 0 < total)
    (ho : p * total < 100 * heap) :
    ((100 * heap / total : Rat) - p) / (100 * heap / total) = (100 * heap - p * total) / (100 * heap) := by
  have h1 : (0 : Rat) < total := by exact_mod_cast ht
  have h2 : (0 : Rat) < heap := by
    have : (0 : Rat) ≤ p * total := by positivity
    linarith
  field_simp

/-- Nothing is pruned while the heap is within the configured percentage. -/
theorem C19_none_within (p : Rat) (heap total : Nat) (hh : heap * 100 < 2 ^ 64) (ht : 0 < total)
    (count : Int) (hw : 100 * (heap : Rat) ≤ p * total) :
    quantityToPrune p heap total count = 0 := by
  unfold quantityToPrune
  simp only [heapPct_eq hh]
  rw [if_neg]
  rw [over_iff ht]; exact not_lt.2 hw

/-- Above it, the quantity `q` is the integer part of
`count · (100·heap − p·total) / (100·heap)`. -/
theorem C19_quantity (p : Rat) (hp : 0 ≤ p) (heap total : Nat) (hh : heap * 100 < 2 ^ 64)
    (ht : 0 < total) (count : Int) (ho : p * total < 100 * (heap : Rat)) :
    (quantityToPrune p heap total count : Rat) * (100 * heap) ≤ count * (100 * heap - p * total) ∧
    count * (100 * heap - p * total) < (quantityToPrune p heap total count + 1 : Rat) * (100 * heap) := by
  have h1 : (0 : Rat) < total := by exact_mod_cast ht
  have h2 : (0 : Rat) < heap := by
    have : (0 : Rat) ≤ p * total := by positivity
    linarith
  unfold quantityToPrune
  simp only [heapPct_eq hh]
  rw [if_pos ((over_iff ht).2 ho), ratio_eq hp ht ho]
  have hf := Rat.floor_le ((count : Rat) * ((100 * heap - p * total) / (100 * heap)))
  have hf2 := Rat.lt_floor_add_one ((count : Rat) * ((100 * heap - p * total) / (100 * heap)))
  have h3 : (0 : Rat) < 100 * heap := by positivity
  have he : (count : Rat) * ((100 * heap - p * total) / (100 * heap)) * (100 * heap) =
      count * (100 * heap - p * total) := by field_simp
  constructor
  · have := mul_le_mul_of_nonneg_right hf (le_of_lt h3)
    rw [he] at this; exact this
  · have := mul_lt_mul_of_pos_right hf2 h3
    rw [he] at this; push_cast at this; exact this

/-- The quantity is never negative and never more than what is stored. -/
theorem C19_range (p : Rat) (hp : 0 ≤ p) (heap total : Nat) (hh : heap * 100 < 2 ^ 64)
    (ht : 0 < total) (count : Int) (hc : 0 ≤ count) :
    0 ≤ quantityToPrune p heap total count ∧ quantityToPrune p heap total count ≤ count := by
  by_cases ho : p * total < 100 * (heap : Rat)
  · obtain ⟨a, b⟩ := C19_quantity p hp heap total hh ht count ho
    have h1 : (0 : Rat) < total := by exact_mod_cast ht
    have hpt : (0 : Rat) ≤ p * total := by positivity
    have h3 : (0 : Rat) < 100 * heap := by linarith
    have hcq : (0 : Rat) ≤ count := by exact_mod_cast hc
    constructor
    · have : (0 : Rat) < (quantityToPrune p heap total count + 1 : Rat) := by
        have h0 : (0 : Rat) ≤ count * (100 * heap - p * total) :=
          mul_nonneg hcq (by linarith)
        exact pos_of_mul_pos_left (lt_of_le_of_lt h0 b) (le_of_lt h3)
      have : (0 : Int) < quantityToPrune p heap total count + 1 := by exact_mod_cast this
      omega
    · have h0 : (count : Rat) * (100 * heap - p * total) ≤ count * (100 * heap) :=
        mul_le_mul_of_nonneg_left (by linarith) hcq
      have := le_of_mul_le_mul_right (a.trans h0) h3
      exact_mod_cast this
  · rw [C19_none_within p heap total hh ht count (not_lt.1 ho)]
    exact ⟨le_refl _, hc⟩

/-- More heap in use never prunes less. -/
theorem C19_monotone (p : Rat) (hp : 0 ≤ p) (heap heap' total : Nat) (hle : heap ≤ heap')
    (hh : heap' * 100 < 2 ^ 64) (ht : 0 < total) (count : Int) (hc : 0 ≤ count) :
    quantityToPrune p heap total count ≤ quantityToPrune p heap' total count := by
  have hh' : heap * 100 < 2 ^ 64 := by omega
  by_cases ho : p * total < 100 * (heap : Rat)
  · have hleq : (heap : Rat) ≤ heap' := by exact_mod_cast hle
    have ho' : p * total < 100 * (heap' : Rat) := by linarith
    obtain ⟨a, _⟩ := C19_quantity p hp heap total hh' ht count ho
    obtain ⟨_, b⟩ := C19_quantity p hp heap' total hh ht count ho'
    have hpt : (0 : Rat) ≤ p * total := by positivity
    have h3 : (0 : Rat) < 100 * heap := by linarith
    have h3' : (0 : Rat) < 100 * heap' := by linarith
    have hcq : (0 : Rat) ≤ count := by exact_mod_cast hc
    set q := quantityToPrune p heap total count
    set q' := quantityToPrune p heap' total count
    have hlt : (q : Rat) < q' + 1 := by
      have e1 : (q : Rat) ≤ count * (100 * heap - p * total) / (100 * heap) := (le_div_iff₀ h3).2 a
      have e2 : (count * (100 * heap' - p * total) / (100 * heap') : Rat) < q' + 1 :=
        (div_lt_iff₀ h3').2 b
      have e3 : (count * (100 * heap - p * total) / (100 * heap) : Rat) ≤
          count * (100 * heap' - p * total) / (100 * heap') := by
        rw [div_le_div_iff₀ h3 h3']
        have : (0 : Rat) ≤ count * (p * total) * (100 * heap' - 100 * heap) :=
          mul_nonneg (mul_nonneg hcq hpt) (by linarith)
        nlinarith
      linarith
    have : q < q' + 1 := by exact_mod_cast hlt
    omega
  · rw [C19_none_within p heap total hh' ht count (not_lt.1 ho)]
    exact (C19_range p hp heap' total hh ht count hc).1

/-- Pruning is not excessive: at an unchanged average entry size, what is kept
still fills at least the configured percentage. -/
theorem C19_not_excessive (p : Rat) (hp : 0 ≤ p) (heap total : Nat) (hh : heap * 100 < 2 ^ 64)
    (ht : 0 < total) (count : Int) (ho : p * total < 100 * (heap : Rat)) :
    p * total * count ≤ 100 * heap * (count - quantityToPrune p heap total count : Rat) := by
  have := (C19_quantity p hp heap total hh ht count ho).1
  nlinarith

/-- With a heap beyond `2^64 / 100` bytes the percentage wraps around and nothing
is pruned although the heap is above the limit. -/
theorem C19_overflow_false :
    quantityToPrune 50 184467440737095517 184467440737095518 1000 = 0 ∧
      (50 : Rat) * 184467440737095518 < 100 * 184467440737095517 := by
  constructor
  · unfold quantityToPrune; norm_num
  · norm_num

example : quantityToPrune 50 80 100 1000 = 375 := by decide +kernel
example : (50 : Rat) * (100 : Nat) < 100 * ((80 : Nat) : Rat) := by norm_num

end LogCache
