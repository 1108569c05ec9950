/-!
# Signed indices

Model of `SignedIndex` and `decodeSignedIndex` in
`src/serac/numerics/functional/dof_numbering.hpp` (lines 61-81).
-/

namespace Serac

/-- `static_cast<uint32_t>` of an `int` value: reduction modulo 2^32. -/
def toUInt32 (z : Int) : Nat := (z % 4294967296).toNat

/-- The values an `int` (32 bits) can take. -/
def InInt32 (z : Int) : Prop := -2147483648 ≤ z ∧ z ≤ 2147483647

instance (z : Int) : Decidable (InInt32 z) := inferInstanceAs (Decidable (_ ∧ _))

/-- `struct SignedIndex` (dof_numbering.hpp:61-70). -/
structure SignedIndex where
  index : Nat
  sign : Int
  deriving DecidableEq, Repr

/-- `decodeSignedIndex` (dof_numbering.hpp:78-81).  `-1 - i` is computed in `int`; it cannot overflow
for a negative `int`, so plain integers are used. -/
def decodeSignedIndex (i : Int) : SignedIndex :=
  { index := toUInt32 (if i ≥ 0 then i else -1 - i), sign := if i ≥ 0 then 1 else -1 }

end Serac
