import Verif.Model.Protobuf

/-!
# The hash of source ids

Models the hasher of `/repo/internal/cache/log_cache.go:166-169`, which is `Checksum` of the
standard library's `hash/crc64` (from recollection) with the ECMA table.  A table is a
function from bytes.  The tables that the library keeps and compares with (`slicing8TableECMA`)
are computed from the same polynomial, so the comparison in `update` succeeds.
-/

namespace LogCache

/-- `crc64.ECMA`. Library code, reached from `log_cache.go:166-168`. -/
def ecma : BitVec 64 := 0xC96C5795D7870F42#64

/-- One turn of the inner loop of `makeTable`.
Library code, reached from `log_cache.go:166-168`. -/
def crcShift (poly s : BitVec 64) : BitVec 64 :=
  if s &&& 1#64 = 1#64 then (s >>> 1) ^^^ poly else s >>> 1

/-- The inner loop of `makeTable`. Library code, reached from `log_cache.go:166-168`. -/
def crcShifts (poly : BitVec 64) : Nat → BitVec 64 → BitVec 64
  | 0, s => s
  | n + 1, s => crcShifts poly n (crcShift poly s)

/-- `MakeTable` (log_cache.go:166). -/
def makeTable (poly : BitVec 64) (i : BitVec 8) : BitVec 64 := crcShifts poly 8 (i.setWidth 64)

/-- `makeSlicingBy8Table`: entry `i` of table `j`.
Library code, reached from `log_cache.go:166-168`. -/
def slicingTable (t : BitVec 8 → BitVec 64) : Nat → BitVec 8 → BitVec 64
  | 0, i => t i
  | j + 1, i => t ((slicingTable t j i).setWidth 8) ^^^ (slicingTable t j i >>> 8)

/-- `binary.LittleEndian.Uint64` of eight bytes.
Library code, reached from `log_cache.go:166-168`. -/
def littleEndian64 : List UInt8 → BitVec 64
  | [] => 0#64
  | b :: r => b.toBitVec.setWidth 64 ||| (littleEndian64 r <<< 8)

/-- The assignment in the loop over eight bytes of `update`, after the bytes are xored in.
Library code, reached from `log_cache.go:166-168`. -/
def sliceStep (t : BitVec 8 → BitVec 64) (c : BitVec 64) : BitVec 64 :=
  slicingTable t 7 (c.setWidth 8) ^^^ slicingTable t 6 ((c >>> 8).setWidth 8) ^^^
  slicingTable t 5 ((c >>> 16).setWidth 8) ^^^ slicingTable t 4 ((c >>> 24).setWidth 8) ^^^
  slicingTable t 3 ((c >>> 32).setWidth 8) ^^^ slicingTable t 2 ((c >>> 40).setWidth 8) ^^^
  slicingTable t 1 ((c >>> 48).setWidth 8) ^^^ slicingTable t 0 ((c >>> 56).setWidth 8)

/-- The loop `for len(p) > 8` of `update`. Library code, reached from `log_cache.go:166-168`. -/
def sliceLoop (t : BitVec 8 → BitVec 64) (c : BitVec 64) (p : List UInt8) : BitVec 64 × List UInt8 :=
  if 8 < p.length then sliceLoop t (sliceStep t (c ^^^ littleEndian64 (p.take 8))) (p.drop 8) else (c, p)
termination_by p.length
decreasing_by simp only [List.length_drop]; omega

/-- The loop over the remaining bytes of `update`.
Library code, reached from `log_cache.go:166-168`. -/
def byteLoop (t : BitVec 8 → BitVec 64) : BitVec 64 → List UInt8 → BitVec 64
  | c, [] => c
  | c, v :: p => byteLoop t (t (c.setWidth 8 ^^^ v.toBitVec) ^^^ (c >>> 8)) p

/-- `update`: eight bytes at a time from 64 bytes on.
Library code, reached from `log_cache.go:166-168`. -/
def crcUpdate (t : BitVec 8 → BitVec 64) (c : BitVec 64) (p : List UInt8) : BitVec 64 :=
  let r := if 64 ≤ p.length then sliceLoop t (~~~ c) p else (~~~ c, p)
  ~~~ byteLoop t r.1 r.2

/-- `Checksum`. Library code, reached from `log_cache.go:166-168`. -/
def crcChecksum (p : List UInt8) (t : BitVec 8 → BitVec 64) : BitVec 64 := crcUpdate t 0#64 p

/-- The hasher of log_cache.go:167-169, on the bytes of a Go string. -/
def bytesHash (p : List UInt8) : Nat := (crcChecksum p (makeTable ecma)).toNat

/-- The hasher of log_cache.go:167-169 on a source id. -/
def sourceHash (s : Str) : Nat := bytesHash (utf8Bytes s)

end LogCache
