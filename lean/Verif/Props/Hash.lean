import Verif.Proof.Hash
import Verif.Proof.Protobuf
import Verif.Props.Routing
import Mathlib.Algebra.Field.ZMod
import Mathlib.Data.Fintype.Card
import Mathlib.Data.Fintype.BigOperators
import Mathlib.Data.Fintype.Pigeonhole
import Mathlib.Order.Interval.Finset.Nat
/-!
# Property theorems about the hash of source ids (C135)
-/
namespace LogCache
open Spec Polynomial

private theorem hash_lt (p : List UInt8) : bytesHash p < 2 ^ 64 := (crcChecksum p (makeTable ecma)).isLt

private theorem not_bits (c : BitVec 64) : (lowBits 64 (~~~ c).toNat).map not = (List.range 64).map c.getLsbD := by
  unfold lowBits
  rw [List.map_map]
  apply List.map_congr_left
  intro i hi
  have hi := List.mem_range.1 hi
  simp only [Function.comp_apply, BitVec.testBit_toNat, BitVec.getLsbD_not, hi, decide_true, Bool.true_and, Bool.not_not]

private theorem hash_is (p : List UInt8) : IsCrc64 p (bytesHash p) := by
  refine ⟨hash_lt p, ?_⟩
  have h := statePoly_bytes p (BitVec.allOnes 64)
  have e : (List.range 64).map (BitVec.allOnes 64).getLsbD = List.replicate 64 true := by decide
  unfold bytesHash
  rw [checksum_eq, not_bits]
  unfold statePoly at h
  rwa [e] at h

private theorem lowBits_inj {a b : Nat} (ha : a < 2 ^ 64) (hb : b < 2 ^ 64) (h : lowBits 64 a = lowBits 64 b) : a = b := by
  apply Nat.eq_of_testBit_eq
  intro i
  by_cases hi : i < 64
  · have := congrArg (fun l => l[i]?) h
    simpa [lowBits, hi] using this
  · have hp : 2 ^ 64 ≤ 2 ^ i := Nat.pow_le_pow_right (by omega) (by omega)
    rw [Nat.testBit_lt_two_pow (lt_of_lt_of_le ha hp), Nat.testBit_lt_two_pow (lt_of_lt_of_le hb hp)]

private theorem same_remainder {g p q : (ZMod 2)[X]} {d : WithBot Nat} (hg : g.degree = d) (hp : p.degree < d) (hq : q.degree < d)
    (h : g ∣ p - q) : p = q := by
  rw [← sub_eq_zero]
  exact eq_zero_of_dvd_of_degree_lt h (hg ▸ lt_of_le_of_lt (degree_sub_le _ _) (max_lt hp hq))

private theorem flipped_degree (k : Nat) : (polyOf ((lowBits 64 k).map not)).degree < 64 := by
  have hl : ((lowBits 64 k).map not).length = 64 := by unfold lowBits; simp only [List.length_map, List.length_range]
  rcases polyOf_degree ((lowBits 64 k).map not) with h | h
  · rw [hl] at h; exact h
  · rw [h] at hl; cases hl

private theorem flipped_inj {l m : List Bool} (h : l.map not = m.map not) : l = m := by
  have hn : ∀ x y : Bool, (!x) = !y → x = y := by decide
  exact List.map_injective_iff.2 (fun x y h => hn x y h) h

private theorem crc_unique {p : List UInt8} {a b : Nat} (ha : IsCrc64 p a) (hb : IsCrc64 p b) : a = b := by
  obtain ⟨ha, u, hu⟩ := ha
  obtain ⟨hb, v, hv⟩ := hb
  apply lowBits_inj ha hb
  apply flipped_inj
  have ea := flipped_degree a
  have eb := flipped_degree b
  have el : ((lowBits 64 a).map not).length = ((lowBits 64 b).map not).length := by
    unfold lowBits; simp only [List.length_map, List.length_range]
  generalize (lowBits 64 a).map not = l at *
  generalize (lowBits 64 b).map not = m at *
  exact polyOf_inj el (same_remainder ecmaPoly_degree ea eb ⟨v - u, by linear_combination hv - hu⟩)

/-- The number a node computes for a source id is its CRC-64 checksum, however long the id
is, and there is no other such number. -/
theorem C135_number (s : Str) :
    IsCrc64 (utf8Bytes s) (sourceHash s) ∧ ∀ h, IsCrc64 (utf8Bytes s) h → h = sourceHash s :=
  ⟨hash_is _, fun _ h => crc_unique h (hash_is _)⟩

/-- The check value of the standard, and an id long enough for the faster loop. -/
example : sourceHash "123456789".toList = 0x995DC9BBDF1939FA := by decide +kernel

example : sourceHash "a-source-id-that-is-longer-than-sixty-four-bytes-and-has-a-rest-of-three".toList =
    0x7A760BBF19FB68C6 := by decide +kernel

private theorem bytes_apart {p x y q : List UInt8} (hl : x.length = y.length) (h8 : x.length ≤ 8)
    (h : bytesHash (p ++ x ++ q) = bytesHash (p ++ y ++ q)) : x = y := by
  unfold bytesHash at h
  have h := BitVec.eq_of_toNat_eq h
  rw [checksum_eq, checksum_eq] at h
  have h : crcBytes ecma (BitVec.allOnes 64) (p ++ x ++ q) = crcBytes ecma (BitVec.allOnes 64) (p ++ y ++ q) := by
    have := congrArg (fun v => ~~~ v) h
    simpa using this
  rw [crcBytes_append, crcBytes_append ecma _ (p ++ y)] at h
  have h := crcBytes_inj q h
  rw [crcBytes_append, crcBytes_append, crcBytes_le ecma x _ h8, crcBytes_le ecma y _ (by omega), hl] at h
  exact le_inj x y hl h8 ((BitVec.xor_right_inj _).1 (crcShifts_inj _ h))

/-- Two ids that differ only within eight adjacent bytes never have the same number. -/
theorem C135_apart {a b : Str} {p x y q : List UInt8} (ha : utf8Bytes a = p ++ x ++ q) (hb : utf8Bytes b = p ++ y ++ q)
    (hl : x.length = y.length) (h8 : x.length ≤ 8) (hab : a ≠ b) : sourceHash a ≠ sourceHash b := by
  intro h
  unfold sourceHash at h
  rw [ha, hb] at h
  have hxy := bytes_apart hl h8 h
  subst hxy
  apply hab
  have h1 := utf8_read a
  rw [ha, ← hb, utf8_read b] at h1
  exact (Option.some.inj h1).symm

/-- Two application guids. -/
example : sourceHash "5f07b6ee-1b0d-4b0f-8c0a-2f1de4c12345".toList ≠ sourceHash "5f07b6ee-1b0d-4b0f-8c0a-2f1de4c54321".toList :=
  C135_apart (p := utf8Bytes "5f07b6ee-1b0d-4b0f-8c0a-2f1de4c".toList) (x := utf8Bytes "12345".toList)
    (y := utf8Bytes "54321".toList) (q := []) (by decide) (by decide) (by decide) (by decide) (by decide)

/-- Whatever is around them, eight bytes reach every number exactly once. -/
theorem C135_spread (p q : List UInt8) (h : Nat) (hh : h < 2 ^ 64) :
    ∃! x : List UInt8, x.length = 8 ∧ bytesHash (p ++ x ++ q) = h := by
  let f : BitVec 64 → BitVec 64 := fun w => crcChecksum (p ++ lowBytes 8 w ++ q) (makeTable ecma)
  have hle : ∀ w, littleEndian64 (lowBytes 8 w) = w := fun w => le_lowBytes 8 w fun i hi => BitVec.getLsbD_of_ge _ _ (by omega)
  have hi : Function.Injective f := by
    intro w v hwv
    have := bytes_apart (p := p) (q := q) (x := lowBytes 8 w) (y := lowBytes 8 v) (by simp [lowBytes_length])
      (by simp [lowBytes_length]) (congrArg BitVec.toNat hwv)
    rw [← hle w, this, hle]
  have : Finite (BitVec 64) := Finite.of_injective (fun w : BitVec 64 => w.toFin) (fun a b h => BitVec.eq_of_toFin_eq h)
  obtain ⟨w, hw⟩ := Finite.surjective_of_injective hi (BitVec.ofNat 64 h)
  have hw : bytesHash (p ++ lowBytes 8 w ++ q) = h := by
    unfold bytesHash
    rw [show crcChecksum (p ++ lowBytes 8 w ++ q) (makeTable ecma) = BitVec.ofNat 64 h from hw, BitVec.toNat_ofNat,
      Nat.mod_eq_of_lt hh]
  refine ⟨lowBytes 8 w, ⟨lowBytes_length _ _, hw⟩, ?_⟩
  rintro y ⟨hy, hyh⟩
  exact bytes_apart (p := p) (q := q) (by rw [hy, lowBytes_length]) (by omega) (hyh.trans hw.symm)

/-- A range gets a share of the ids that corresponds to its size: of all ids that differ in
eight given adjacent bytes, a range has as many as it has numbers. -/
theorem C135_share (p q : List UInt8) (r : HRange) (h : r.stop ≤ maxHash) :
    {x : List UInt8 | x.length = 8 ∧ covers (bytesHash (p ++ x ++ q)) r = true}.ncard = r.stop + 1 - r.start := by
  have hm : maxHash < 2 ^ 64 := by decide
  rw [← Nat.card_Icc, ← Set.ncard_coe_finset]
  refine Set.ncard_congr (fun x _ => bytesHash (p ++ x ++ q)) ?_ ?_ ?_
  · rintro x ⟨_, hx⟩
    simpa [covers] using hx
  · rintro x y ⟨hx, _⟩ ⟨hy, _⟩ hxy
    exact bytes_apart (hx.trans hy.symm) (by omega) hxy
  · intro k hk
    have hk : r.start ≤ k ∧ k ≤ r.stop := by simpa using hk
    obtain ⟨x, ⟨h1, h2⟩, _⟩ := C135_spread p q k (by omega)
    exact ⟨x, ⟨h1, by rw [h2]; simpa [covers] using hk⟩, h2⟩

/-- With a hundred ranges the first one gets the hundredth part. -/
example (p q : List UInt8) :
    {x : List UInt8 | x.length = 8 ∧ covers (bytesHash (p ++ x ++ q)) ⟨0, maxHash / 100⟩ = true}.ncard = maxHash / 100 + 1 :=
  C135_share p q ⟨0, maxHash / 100⟩ (by decide)

/-- The numbers are not all different: some two ids share one. -/
theorem C135_collision : ∃ a b : Str, a ≠ b ∧ sourceHash a = sourceHash b := by
  let f : (Fin 10 → Fin 128) → Fin (2 ^ 64) := fun g => ⟨sourceHash (List.ofFn fun i => Char.ofNat (g i)), hash_lt _⟩
  obtain ⟨g, g', hne, hf⟩ := Fintype.exists_ne_map_eq_of_card_lt f (by simp)
  refine ⟨_, _, ?_, congrArg Fin.val hf⟩
  intro h
  apply hne
  have h := List.ofFn_injective h
  funext i
  have hi := congrFun h i
  have key : ∀ a : Fin 128, (Char.ofNat a).toNat = a := by decide
  have hi := congrArg Char.toNat hi
  rw [key, key] at hi
  exact Fin.ext hi

end LogCache
