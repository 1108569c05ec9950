/-!
# Packed degree-of-freedom records

Model of `struct DoF` in `src/serac/numerics/functional/element_restriction.hpp` (lines 31-80).
`uint64_t` is `BitVec 64`, so the arithmetic wraps exactly as in C++.
-/

namespace Serac

/-- `struct DoF`, one 64-bit word (element_restriction.hpp:55). -/
structure DoF where
  bits : BitVec 64
  deriving DecidableEq, Repr

namespace DoF

/-- element_restriction.hpp:37. -/
def signMask : BitVec 64 := 0x8000000000000000#64
/-- element_restriction.hpp:38. -/
def orientationMask : BitVec 64 := 0x7000000000000000#64
/-- element_restriction.hpp:39: `0x0000'FFFF'FFFF'FFFF'FFFF`.  The literal has sixteen `F` digits, not twelve, so every bit of the word is set
although the comment of the struct (line 52) reserves 48 bits for the index. -/
def indexMask : BitVec 64 := 0xFFFFFFFFFFFFFFFF#64
/-- element_restriction.hpp:41. -/
def signShift : Nat := 63
/-- element_restriction.hpp:42. -/
def orientationShift : Nat := 60

/-- The three-argument constructor (element_restriction.hpp:64-67).  In C++ `<<` binds tighter than
`&`, so `sign & 0x1ULL << sign_shift` is `sign & (0x1ULL << sign_shift)`; `index` is not masked. -/
def mk3 (index sign orientation : BitVec 64) : DoF :=
  ⟨(sign &&& (0x1#64 <<< signShift)) + ((orientation &&& 0x7#64) <<< orientationShift) + index⟩

/-- `DoF::sign()` (element_restriction.hpp:73): -1 when any bit of the sign field is set, else 1. -/
def sign (d : DoF) : Int := if d.bits &&& signMask ≠ 0#64 then -1 else 1

/-- `DoF::orientation()` (element_restriction.hpp:76). -/
def orientation (d : DoF) : BitVec 64 := (d.bits &&& orientationMask) >>> orientationShift

/-- `DoF::index()` (element_restriction.hpp:79). -/
def index (d : DoF) : BitVec 64 := d.bits &&& indexMask

/-- `int(d.index())` and `uint32_t(d.index())`, the casts at every place where an index is used (element_restriction.cpp:450, 463,
dof_numbering.hpp:311-313, functional.hpp:625-628): the low 32 bits.  A negative `int` is its unsigned pattern, at least 2^31; the size of an
`mfem::Vector` is an `int`, so such a position is outside every vector, as the negative one is. -/
def pos (d : DoF) : Nat := d.index.toNat % 2 ^ 32

end DoF
end Serac
