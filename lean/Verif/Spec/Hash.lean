import Verif.Model.Hash
import Mathlib.Algebra.Polynomial.Basic
import Mathlib.Data.ZMod.Basic
import Mathlib.Data.Set.Card

/-!
# Specification vocabulary for the hash of source ids

The hash as the standard ECMA-182 describes it: the remainder of the division of
polynomials with coefficients in the field of two elements.
-/

namespace LogCache.Spec
open Polynomial

/-- The polynomial of ECMA-182. -/
noncomputable def ecmaPoly : (ZMod 2)[X] :=
  X ^ 64 + X ^ 62 + X ^ 57 + X ^ 55 + X ^ 54 + X ^ 53 + X ^ 52 + X ^ 47 + X ^ 46 + X ^ 45 + X ^ 40 + X ^ 39 + X ^ 38 +
    X ^ 37 + X ^ 35 + X ^ 33 + X ^ 32 + X ^ 31 + X ^ 29 + X ^ 27 + X ^ 24 + X ^ 23 + X ^ 22 + X ^ 21 + X ^ 19 + X ^ 17 +
    X ^ 13 + X ^ 12 + X ^ 10 + X ^ 9 + X ^ 7 + X ^ 4 + X + 1

/-- The polynomial with the given coefficients, that of the highest power first. -/
noncomputable def polyOf (bits : List Bool) : (ZMod 2)[X] :=
  bits.foldl (fun p b => X * p + if b then 1 else 0) 0

/-- The lowest `n` bits of a number, the lowest first. -/
def lowBits (n k : Nat) : List Bool := (List.range n).map k.testBit

/-- The bits of some bytes: byte by byte, the lowest bit of each first. -/
def bitsOf (bs : List UInt8) : List Bool := bs.flatMap fun b => lowBits 8 b.toNat

/-- `h` is the CRC-64 checksum of the bytes: the remainder of the message, the first 64 bits
of which are flipped, with every bit flipped again. -/
def IsCrc64 (bs : List UInt8) (h : Nat) : Prop :=
  h < 2 ^ 64 ∧ ecmaPoly ∣
    (polyOf (List.replicate 64 true) * X ^ (8 * bs.length) + polyOf (bitsOf bs) * X ^ 64)
      - polyOf ((lowBits 64 h).map not)

end LogCache.Spec
