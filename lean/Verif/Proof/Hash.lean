import Verif.Spec.Hash
import Mathlib.Tactic.ComputeDegree
import Mathlib.Tactic.Ring
import Mathlib.Tactic.LinearCombination
import Mathlib.Algebra.CharP.Two
import Mathlib.Algebra.Polynomial.Div
import Mathlib.Algebra.Polynomial.Degree.Lemmas
import Mathlib.Algebra.CharP.Lemmas
/-!
# Facts about the hash of source ids
-/
namespace LogCache
open Spec

/-! ## One bit -/

theorem crcShift_eq (poly s : BitVec 64) : crcShift poly s = (s >>> 1) ^^^ (if s.getLsbD 0 then poly else 0#64) := by
  have h : (s &&& 1#64 = 1#64) ↔ s.getLsbD 0 = true := by
    constructor
    · intro h
      have := congrArg (fun v => v.getLsbD 0) h
      simpa using this
    · intro h
      apply BitVec.eq_of_getLsbD_eq
      intro i hi
      rw [BitVec.getLsbD_and]
      rcases Nat.eq_zero_or_pos i with rfl | hp
      · simp [h]
      · have : (1#64).getLsbD i = false := by simp [BitVec.getLsbD_one]; omega
        rw [this, Bool.and_false]
  unfold crcShift
  by_cases hb : s.getLsbD 0 = true
  · rw [if_pos (h.2 hb), if_pos hb]
  · rw [if_neg (fun x => hb (h.1 x)), if_neg hb]; simp

theorem crcShift_xor (poly a b : BitVec 64) : crcShift poly (a ^^^ b) = crcShift poly a ^^^ crcShift poly b := by
  have h1 : (a ^^^ b) >>> 1 = (a >>> 1) ^^^ (b >>> 1) := BitVec.ushiftRight_xor_distrib a b 1
  rw [crcShift_eq, crcShift_eq, crcShift_eq, h1, BitVec.getLsbD_xor]
  generalize a.getLsbD 0 = x
  generalize b.getLsbD 0 = y
  generalize a >>> 1 = u
  generalize b >>> 1 = v
  apply BitVec.eq_of_getLsbD_eq
  intro i _
  cases x <;> cases y <;> simp [BitVec.getLsbD_xor] <;>
    cases u.getLsbD i <;> cases v.getLsbD i <;> cases poly.getLsbD i <;> rfl

theorem crcShifts_xor (poly : BitVec 64) : ∀ (n : Nat) (a b : BitVec 64),
    crcShifts poly n (a ^^^ b) = crcShifts poly n a ^^^ crcShifts poly n b
  | 0, _, _ => rfl
  | n + 1, a, b => by simp only [crcShifts, crcShift_xor, crcShifts_xor poly n]

theorem crcShifts_add (poly : BitVec 64) : ∀ (m n : Nat) (s : BitVec 64),
    crcShifts poly (m + n) s = crcShifts poly n (crcShifts poly m s)
  | 0, n, s => by simp [crcShifts]
  | m + 1, n, s => by
    rw [show m + 1 + n = (m + n) + 1 by omega]
    simp only [crcShifts]
    exact crcShifts_add poly m n _

theorem crcShifts_up (poly : BitVec 64) : ∀ (n : Nat) (y : BitVec 64), (∀ i, i < n → y.getLsbD i = false) →
    crcShifts poly n y = y >>> n
  | 0, y, _ => by simp [crcShifts]
  | n + 1, y, h => by
    simp only [crcShifts]
    have h0 : crcShift poly y = y >>> 1 := by rw [crcShift_eq, h 0 (by omega)]; simp
    rw [h0, crcShifts_up poly n _ (by
      intro i hi
      rw [BitVec.getLsbD_ushiftRight]
      exact h _ (by omega)), ← BitVec.shiftRight_add, Nat.add_comm]

/-! ## One byte -/

theorem split_byte (c : BitVec 64) : c = (c.setWidth 8).setWidth 64 ^^^ ((c >>> 8) <<< 8) := by
  apply BitVec.eq_of_getLsbD_eq
  intro i hi
  simp only [BitVec.getLsbD_xor, BitVec.getLsbD_setWidth, BitVec.getLsbD_shiftLeft, BitVec.getLsbD_ushiftRight]
  by_cases h8 : i < 8
  · simp [h8, hi]
  · simp [h8, hi, show 8 + (i - 8) = i by omega]

theorem crc_byte (poly c : BitVec 64) (v : BitVec 8) :
    makeTable poly (c.setWidth 8 ^^^ v) ^^^ (c >>> 8) = crcShifts poly 8 (c ^^^ v.setWidth 64) := by
  have e : c ^^^ v.setWidth 64 = (c.setWidth 8 ^^^ v).setWidth 64 ^^^ ((c >>> 8) <<< 8) := by
    conv_lhs => rw [split_byte c]
    rw [BitVec.setWidth_xor]
    simp only [BitVec.xor_assoc]
    rw [BitVec.xor_comm (v.setWidth 64)]
  rw [e, crcShifts_xor, makeTable, crcShifts_up poly 8 ((c >>> 8) <<< 8)]
  · congr 1
    apply BitVec.eq_of_getLsbD_eq
    intro i hi
    simp only [BitVec.getLsbD_shiftLeft, BitVec.getLsbD_ushiftRight]
    by_cases h : 8 + i < 64
    · simp [h]
    · simp [h]; exact BitVec.getLsbD_of_ge _ _ (by omega)
  · intro i hi
    simp [BitVec.getLsbD_shiftLeft, hi]

/-- The state after some bytes, bit by bit. -/
def crcBytes (poly : BitVec 64) (c : BitVec 64) (p : List UInt8) : BitVec 64 :=
  p.foldl (fun c v => crcShifts poly 8 (c ^^^ v.toBitVec.setWidth 64)) c

theorem byteLoop_eq (poly : BitVec 64) : ∀ (c : BitVec 64) (p : List UInt8), byteLoop (makeTable poly) c p = crcBytes poly c p
  | _, [] => rfl
  | c, v :: p => by
    rw [byteLoop, byteLoop_eq poly _ p, crc_byte]
    rfl

/-! ## Eight bytes -/

theorem crc_byte_zero (poly c : BitVec 64) : crcShifts poly 8 c = makeTable poly (c.setWidth 8) ^^^ (c >>> 8) := by
  have := crc_byte poly c 0#8
  simpa using this.symm

theorem slicing_eq (poly : BitVec 64) : ∀ (j : Nat) (i : BitVec 8),
    slicingTable (makeTable poly) j i = crcShifts poly (8 * (j + 1)) (i.setWidth 64)
  | 0, _ => rfl
  | j + 1, i => by
    rw [slicingTable, slicing_eq poly j, ← crc_byte_zero, ← crcShifts_add, show 8 * (j + 1) + 8 = 8 * (j + 1 + 1) by omega]

theorem slice_one (poly c : BitVec 64) (n : Nat) :
    crcShifts poly (8 * (n + 1)) c = slicingTable (makeTable poly) n (c.setWidth 8) ^^^ crcShifts poly (8 * n) (c >>> 8) := by
  rw [slicing_eq, show 8 * (n + 1) = 8 + 8 * n by omega, crcShifts_add, crc_byte_zero, crcShifts_xor,
    crcShifts_add poly 8 (8 * n)]
  rfl

theorem sliceStep_eq (poly c : BitVec 64) : sliceStep (makeTable poly) c = crcShifts poly 64 c := by
  have e : ∀ a b : Nat, c >>> a >>> b = c >>> (a + b) := fun a b => (BitVec.shiftRight_add c a b).symm
  have z : c >>> 64 = 0#64 := BitVec.ushiftRight_eq_zero (by omega)
  have h7 := slice_one poly c 7
  have h6 := slice_one poly (c >>> 8) 6
  have h5 := slice_one poly (c >>> 16) 5
  have h4 := slice_one poly (c >>> 24) 4
  have h3 := slice_one poly (c >>> 32) 3
  have h2 := slice_one poly (c >>> 40) 2
  have h1 := slice_one poly (c >>> 48) 1
  have h0 := slice_one poly (c >>> 56) 0
  simp only [e, Nat.reduceAdd, Nat.reduceMul] at h7 h6 h5 h4 h3 h2 h1 h0
  rw [z] at h0
  rw [h7, h6, h5, h4, h3, h2, h1, h0]
  simp only [sliceStep, crcShifts, BitVec.xor_assoc, BitVec.xor_zero]

theorem le_high : ∀ (p : List UInt8) (i : Nat), 8 * p.length ≤ i → (littleEndian64 p).getLsbD i = false
  | [], i, _ => by simp [littleEndian64]
  | b :: r, i, h => by
    simp only [List.length_cons] at h
    have h8 : ¬ i < 8 := by omega
    rw [littleEndian64, BitVec.getLsbD_or, BitVec.getLsbD_shiftLeft, le_high r (i - 8) (by omega)]
    simp only [BitVec.getLsbD_setWidth, Bool.and_false, Bool.or_false]
    rw [BitVec.getLsbD_of_ge _ _ (by omega), Bool.and_false]

theorem le_cons (b : UInt8) (r : List UInt8) :
    littleEndian64 (b :: r) = b.toBitVec.setWidth 64 ^^^ (littleEndian64 r <<< 8) := by
  apply BitVec.eq_of_getLsbD_eq
  intro i hi
  simp only [littleEndian64, BitVec.getLsbD_or, BitVec.getLsbD_xor, BitVec.getLsbD_setWidth, BitVec.getLsbD_shiftLeft]
  by_cases h8 : i < 8
  · simp [h8]
  · rw [BitVec.getLsbD_of_ge b.toBitVec _ (by omega)]; simp [h8]

theorem shl_shr {y : BitVec 64} (h : ∀ i, 56 ≤ i → y.getLsbD i = false) : (y <<< 8) >>> 8 = y := by
  apply BitVec.eq_of_getLsbD_eq
  intro i hi
  simp only [BitVec.getLsbD_shiftLeft, BitVec.getLsbD_ushiftRight]
  by_cases h8 : 8 + i < 64
  · simp [h8]
  · rw [h i (by omega)]; simp [h8]

theorem crcBytes_le (poly : BitVec 64) : ∀ (p : List UInt8) (c : BitVec 64), p.length ≤ 8 →
    crcBytes poly c p = crcShifts poly (8 * p.length) (c ^^^ littleEndian64 p)
  | [], c, _ => by simp [crcBytes, crcShifts, littleEndian64]
  | b :: r, c, h => by
    simp only [List.length_cons] at h
    have ih := crcBytes_le poly r (crcShifts poly 8 (c ^^^ b.toBitVec.setWidth 64)) (by omega)
    have hr : crcShifts poly 8 (littleEndian64 r <<< 8) = littleEndian64 r := by
      rw [crcShifts_up poly 8 _ (by intro i hi; simp [BitVec.getLsbD_shiftLeft, hi])]
      exact shl_shr fun i hi => le_high r i (by omega)
    show crcBytes poly (crcShifts poly 8 (c ^^^ b.toBitVec.setWidth 64)) r = _
    rw [ih, List.length_cons, show 8 * (r.length + 1) = 8 + 8 * r.length by omega, crcShifts_add, le_cons,
      ← BitVec.xor_assoc, crcShifts_xor poly 8 (c ^^^ _), hr]

theorem crcBytes_append (poly c : BitVec 64) (p q : List UInt8) :
    crcBytes poly c (p ++ q) = crcBytes poly (crcBytes poly c p) q := by
  unfold crcBytes; rw [List.foldl_append]

theorem sliceLoop_eq (poly : BitVec 64) : ∀ (n : Nat) (c : BitVec 64) (p : List UInt8), p.length ≤ n →
    crcBytes poly (sliceLoop (makeTable poly) c p).1 (sliceLoop (makeTable poly) c p).2 = crcBytes poly c p
  | 0, c, p, h => by
    have : p = [] := by cases p with | nil => rfl | cons => simp at h
    subst this
    rw [sliceLoop]; simp
  | n + 1, c, p, h => by
    rw [sliceLoop]
    split
    · rename_i h8
      have ht : (p.take 8).length = 8 := by rw [List.length_take]; omega
      rw [sliceLoop_eq poly n _ _ (by rw [List.length_drop]; omega), sliceStep_eq]
      conv_rhs => rw [← List.take_append_drop 8 p, crcBytes_append, crcBytes_le poly (p.take 8) c (by omega), ht]
    · rfl

/-- The checksum, bit by bit. -/
theorem checksum_eq (poly : BitVec 64) (p : List UInt8) :
    crcChecksum p (makeTable poly) = ~~~ crcBytes poly (BitVec.allOnes 64) p := by
  have h0 : ~~~ (0#64) = BitVec.allOnes 64 := by simp
  unfold crcChecksum crcUpdate
  rw [h0]
  split
  · simp only [byteLoop_eq]
    rw [sliceLoop_eq poly p.length _ _ le_rfl]
  · simp only [byteLoop_eq]

/-! ## Differences -/

theorem ecma_top : ecma.getLsbD 63 = true := by decide

theorem crcShift_zero {x : BitVec 64} (h : crcShift ecma x = 0#64) : x = 0#64 := by
  rw [crcShift_eq] at h
  have hb : x.getLsbD 0 = false := by
    by_contra hc
    have hc : x.getLsbD 0 = true := by simpa using hc
    rw [if_pos hc] at h
    have := congrArg (fun v => v.getLsbD 63) h
    rw [BitVec.getLsbD_xor, ecma_top, BitVec.getLsbD_ushiftRight, BitVec.getLsbD_of_ge _ _ (by omega)] at this
    simp at this
  rw [hb] at h
  simp only [Bool.false_eq_true, if_false, BitVec.xor_zero] at h
  apply BitVec.eq_of_getLsbD_eq
  intro i hi
  rcases Nat.eq_zero_or_pos i with rfl | hp
  · rw [hb]; simp
  · have := congrArg (fun v => v.getLsbD (i - 1)) h
    simp only [BitVec.getLsbD_ushiftRight, show 1 + (i - 1) = i by omega] at this
    rw [this]; simp

theorem xor_eq_zero' {a b : BitVec 64} (h : a ^^^ b = 0#64) : a = b := BitVec.xor_eq_zero_iff.1 h

theorem crcShifts_inj : ∀ (n : Nat) {a b : BitVec 64}, crcShifts ecma n a = crcShifts ecma n b → a = b
  | 0, _, _, h => h
  | n + 1, a, b, h => by
    have h := crcShifts_inj n h
    apply xor_eq_zero'
    apply crcShift_zero
    rw [crcShift_xor, h, BitVec.xor_self]

theorem crcBytes_inj : ∀ (q : List UInt8) {a b : BitVec 64}, crcBytes ecma a q = crcBytes ecma b q → a = b
  | [], _, _, h => h
  | v :: q, a, b, h => by
    have h : crcBytes ecma (crcShifts ecma 8 (a ^^^ v.toBitVec.setWidth 64)) q =
      crcBytes ecma (crcShifts ecma 8 (b ^^^ v.toBitVec.setWidth 64)) q := h
    exact (BitVec.xor_left_inj _).1 (crcShifts_inj 8 (crcBytes_inj q h))

theorem le_inj : ∀ (x y : List UInt8), x.length = y.length → x.length ≤ 8 → littleEndian64 x = littleEndian64 y → x = y
  | [], [], _, _, _ => rfl
  | [], _ :: _, h, _, _ => by simp at h
  | _ :: _, [], h, _, _ => by simp at h
  | a :: x, b :: y, h, h8, he => by
    simp only [List.length_cons] at h h8
    rw [le_cons, le_cons] at he
    have hb : a = b := by
      apply UInt8.toBitVec_inj.1
      apply BitVec.eq_of_getLsbD_eq
      intro i hi
      have := congrArg (fun v => v.getLsbD i) he
      simp only [BitVec.getLsbD_xor, BitVec.getLsbD_setWidth, BitVec.getLsbD_shiftLeft, hi] at this
      simpa [show i < 64 by omega] using this
    subst hb
    have he := (BitVec.xor_right_inj _).1 he
    have hxy : littleEndian64 x = littleEndian64 y := by
      rw [← shl_shr (y := littleEndian64 x) (fun i hi => le_high x i (by omega)), he,
        shl_shr (y := littleEndian64 y) (fun i hi => le_high y i (by omega))]
    rw [le_inj x y (by omega) (by omega) hxy]

/-- The `n` lowest bytes of a number. -/
def lowBytes : Nat → BitVec 64 → List UInt8
  | 0, _ => []
  | n + 1, w => ⟨w.setWidth 8⟩ :: lowBytes n (w >>> 8)

theorem lowBytes_length : ∀ (n : Nat) (w : BitVec 64), (lowBytes n w).length = n
  | 0, _ => rfl
  | n + 1, w => by simp [lowBytes, lowBytes_length n]

theorem le_lowBytes : ∀ (n : Nat) (w : BitVec 64), (∀ i, 8 * n ≤ i → w.getLsbD i = false) → littleEndian64 (lowBytes n w) = w
  | 0, w, h => by
    apply BitVec.eq_of_getLsbD_eq
    intro i hi
    rw [h i (by omega)]; simp [lowBytes, littleEndian64]
  | n + 1, w, h => by
    rw [lowBytes, le_cons, le_lowBytes n (w >>> 8) (by
      intro i hi
      rw [BitVec.getLsbD_ushiftRight]; exact h _ (by omega))]
    exact (split_byte w).symm

/-! ## Polynomials -/

open Polynomial

/-- A bit as a coefficient. -/
noncomputable def bitPoly (b : Bool) : (ZMod 2)[X] := if b then 1 else 0

theorem two_poly (p : (ZMod 2)[X]) : p + p = 0 := CharTwo.add_self_eq_zero p

theorem bitPoly_xor (a b : Bool) : bitPoly (a ^^ b) = bitPoly a + bitPoly b := by
  have h := two_poly 1
  cases a <;> cases b <;> simp [bitPoly, h]

theorem polyOf_snoc (l : List Bool) (b : Bool) : polyOf (l ++ [b]) = X * polyOf l + bitPoly b := by
  unfold polyOf bitPoly; rw [List.foldl_append]; rfl

theorem polyOf_append (l : List Bool) : ∀ m : List Bool, polyOf (l ++ m) = polyOf l * X ^ m.length + polyOf m := by
  intro m
  induction m using List.reverseRecOn with
  | nil => simp [polyOf]
  | append_singleton m b ih =>
    rw [← List.append_assoc, polyOf_snoc, ih, polyOf_snoc]
    simp only [List.length_append, List.length_singleton, pow_succ]
    ring

theorem polyOf_range (f : Nat → Bool) : ∀ n, polyOf ((List.range n).map f) = ∑ i ∈ Finset.range n, bitPoly (f i) * X ^ (n - 1 - i)
  | 0 => rfl
  | n + 1 => by
    rw [List.range_succ, List.map_append, List.map_singleton, polyOf_snoc, polyOf_range f n, Finset.sum_range_succ]
    simp only [Nat.add_sub_cancel, Nat.sub_self, pow_zero, mul_one]
    congr 1
    rw [Finset.mul_sum]
    apply Finset.sum_congr rfl
    intro i hi
    have := Finset.mem_range.1 hi
    rw [show n - i = (n - 1 - i) + 1 by omega, pow_succ]
    ring

/-- The polynomial of a state. -/
noncomputable def statePoly (s : BitVec 64) : (ZMod 2)[X] := polyOf ((List.range 64).map s.getLsbD)

theorem statePoly_xor (a b : BitVec 64) : statePoly (a ^^^ b) = statePoly a + statePoly b := by
  unfold statePoly
  simp only [polyOf_range, ← Finset.sum_add_distrib]
  apply Finset.sum_congr rfl
  intro i _
  rw [BitVec.getLsbD_xor, bitPoly_xor]; ring

theorem statePoly_shr (s : BitVec 64) : X * statePoly s = bitPoly (s.getLsbD 0) * X ^ 64 + statePoly (s >>> 1) := by
  unfold statePoly
  simp only [polyOf_range]
  rw [Finset.sum_range_succ', Finset.sum_range_succ (n := 63)]
  have h63 : (s >>> 1).getLsbD 63 = false := by
    rw [BitVec.getLsbD_ushiftRight]; exact BitVec.getLsbD_of_ge _ _ (by omega)
  rw [h63, mul_add, Finset.mul_sum]
  have e : ∀ i ∈ Finset.range 63, X * (bitPoly (s.getLsbD (i + 1)) * X ^ (64 - 1 - (i + 1))) =
      bitPoly ((s >>> 1).getLsbD i) * X ^ (64 - 1 - i) := by
    intro i hi
    have := Finset.mem_range.1 hi
    rw [BitVec.getLsbD_ushiftRight, show 64 - 1 - i = (64 - 1 - (i + 1)) + 1 by omega, pow_succ, Nat.add_comm 1 i]
    ring
  rw [Finset.sum_congr rfl e]
  simp only [bitPoly, Bool.false_eq_true, if_false, zero_mul, add_zero]
  ring

theorem statePoly_zero : statePoly 0#64 = 0 := by
  unfold statePoly
  rw [polyOf_range]
  exact Finset.sum_eq_zero fun i _ => by simp [bitPoly]

theorem statePoly_ecma : statePoly ecma + X ^ 64 = ecmaPoly := by
  unfold statePoly
  rw [polyOf_range]
  simp [Finset.sum_range_succ, bitPoly, ecma, ecmaPoly]
  ring

theorem statePoly_shift (s : BitVec 64) : statePoly (crcShift ecma s) = X * statePoly s + bitPoly (s.getLsbD 0) * ecmaPoly := by
  rw [crcShift_eq, statePoly_xor, statePoly_shr, ← statePoly_ecma]
  have h := two_poly (X ^ 64)
  cases s.getLsbD 0
  · simp [bitPoly, statePoly_zero]
  · simp only [bitPoly, if_true]
    linear_combination -h

theorem statePoly_shifts : ∀ (n : Nat) (s : BitVec 64), ecmaPoly ∣ X ^ n * statePoly s - statePoly (crcShifts ecma n s)
  | 0, s => by simp [crcShifts]
  | n + 1, s => by
    obtain ⟨q, hq⟩ := statePoly_shifts n (crcShift ecma s)
    rw [statePoly_shift] at hq
    refine ⟨q - X ^ n * bitPoly (s.getLsbD 0), ?_⟩
    simp only [crcShifts]
    linear_combination hq

theorem statePoly_byte (v : BitVec 8) : statePoly (v.setWidth 64) = polyOf (lowBits 8 v.toNat) * X ^ 56 := by
  unfold statePoly lowBits
  rw [polyOf_range, polyOf_range, Finset.sum_mul, show (64 : Nat) = 8 + 56 from rfl, Finset.sum_range_add]
  have z : ∑ x ∈ Finset.range 56, bitPoly ((v.setWidth (8 + 56)).getLsbD (8 + x)) * X ^ (8 + 56 - 1 - (8 + x)) = 0 := by
    apply Finset.sum_eq_zero
    intro i _
    rw [BitVec.getLsbD_setWidth, BitVec.getLsbD_of_ge v _ (by omega)]
    simp [bitPoly]
  rw [z, add_zero]
  apply Finset.sum_congr rfl
  intro i hi
  have hi := Finset.mem_range.1 hi
  have e : (v.setWidth (8 + 56)).getLsbD i = v.toNat.testBit i := by
    rw [BitVec.getLsbD_setWidth, BitVec.testBit_toNat]
    simp [show i < 8 + 56 by omega]
  rw [e, show 8 + 56 - 1 - i = (8 - 1 - i) + 56 by omega, pow_add, mul_assoc]

theorem bitsOf_cons (b : UInt8) (p : List UInt8) : bitsOf (b :: p) = lowBits 8 b.toNat ++ bitsOf p := rfl

theorem bitsOf_length : ∀ p : List UInt8, (bitsOf p).length = 8 * p.length
  | [] => rfl
  | b :: p => by rw [bitsOf_cons, List.length_append, bitsOf_length p]; simp [lowBits]; omega

/-- The state after some bytes is the remainder. -/
theorem statePoly_bytes : ∀ (p : List UInt8) (c : BitVec 64),
    ecmaPoly ∣ statePoly c * X ^ (8 * p.length) + polyOf (bitsOf p) * X ^ 64 - statePoly (crcBytes ecma c p)
  | [], c => by simp [crcBytes, bitsOf, polyOf]
  | b :: p, c => by
    obtain ⟨q, hq⟩ := statePoly_bytes p (crcShifts ecma 8 (c ^^^ b.toBitVec.setWidth 64))
    obtain ⟨r, hr⟩ := statePoly_shifts 8 (c ^^^ b.toBitVec.setWidth 64)
    rw [statePoly_xor, statePoly_byte] at hr
    have e : crcBytes ecma c (b :: p) = crcBytes ecma (crcShifts ecma 8 (c ^^^ b.toBitVec.setWidth 64)) p := rfl
    have hb : b.toBitVec.toNat = b.toNat := rfl
    rw [hb] at hr
    rw [e, bitsOf_cons, polyOf_append, bitsOf_length, List.length_cons, show 8 * (p.length + 1) = 8 * p.length + 8 by omega]
    refine ⟨q + X ^ (8 * p.length) * r, ?_⟩
    rw [pow_add]
    linear_combination hq + X ^ (8 * p.length) * hr

theorem ecmaPoly_degree : ecmaPoly.degree = 64 := by
  unfold ecmaPoly
  compute_degree!

theorem polyOf_coeff (l : List Bool) : ∀ i, (polyOf l).coeff i = if (l.reverse[i]?).getD false then 1 else 0 := by
  induction l using List.reverseRecOn with
  | nil => intro i; simp [polyOf]
  | append_singleton l b ih =>
    intro i
    rw [polyOf_snoc, coeff_add, List.reverse_append]
    cases i with
    | zero => cases b <;> simp [bitPoly]
    | succ i =>
      rw [mul_comm, coeff_mul_X, ih]
      cases b <;> simp [bitPoly, coeff_one]

theorem polyOf_degree (l : List Bool) : (polyOf l).degree < (l.length : Nat) ∨ l = [] := by
  rcases l with _ | ⟨b, l⟩
  · exact .inr rfl
  · left
    rw [degree_lt_iff_coeff_zero]
    intro m hm
    rw [polyOf_coeff, List.getElem?_eq_none (by simpa using hm)]
    simp

theorem polyOf_inj {l m : List Bool} (hl : l.length = m.length) (h : polyOf l = polyOf m) : l = m := by
  apply List.reverse_injective
  apply List.ext_getElem? 
  intro i
  have := congrArg (fun p => p.coeff i) h
  simp only [polyOf_coeff] at this
  by_cases hi : i < l.length
  · have h1 : i < l.reverse.length := by simpa using hi
    have h2 : i < m.reverse.length := by simpa [← hl] using hi
    rw [List.getElem?_eq_getElem h1, List.getElem?_eq_getElem h2] at this ⊢
    simp only [Option.getD_some] at this
    congr 1
    generalize l.reverse[i] = a at *
    generalize m.reverse[i] = b at *
    cases a <;> cases b <;> simp at this ⊢
  · rw [List.getElem?_eq_none (by simpa using hi), List.getElem?_eq_none (by simpa [← hl] using hi)]

end LogCache
