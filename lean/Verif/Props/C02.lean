import Verif.Model.SignedIndex
/-!
# C02: signed index encoding round trip

MFEM packs an index `k` and a sign into one `int`: `k` for plus, `-1 - k` for minus.
-/

namespace Serac.C02

/-- The packing convention: index `k` with sign `s`. -/
def pack (k : Nat) (s : Int) : Int := if s = 1 then (k : Int) else -1 - (k : Int)

/-- **C02.** Decoding recovers exactly what was packed, for every index an `int` can pack and both signs. -/
theorem C02_decode_pack (k : Nat) (s : Int) (hk : k < 2 ^ 31) (hs : s = 1 ∨ s = -1) :
    decodeSignedIndex (pack k s) = ⟨k, s⟩ := by
  rcases hs with rfl | rfl <;> simp only [pack, decodeSignedIndex, toUInt32] <;>
    simp only [SignedIndex.mk.injEq] <;> constructor
  · simp only [if_true]; split <;> omega
  · simp
  · simp; split <;> omega
  · simp; omega

/-- **C02.** Every `int` is the packing of what it decodes to; the decoded index fits in 31 bits, the sign is ±1. -/
theorem C02_pack_decode (i : Int) (hi : InInt32 i) :
    pack (decodeSignedIndex i).index (decodeSignedIndex i).sign = i ∧
      (decodeSignedIndex i).index < 2 ^ 31 ∧
      ((decodeSignedIndex i).sign = 1 ∨ (decodeSignedIndex i).sign = -1) := by
  obtain ⟨h1, h2⟩ := hi
  simp only [decodeSignedIndex, pack, toUInt32]
  by_cases h : i ≥ 0 <;> simp [h] <;> omega

/-- **C02.** No two `int`s decode to the same pair. -/
theorem C02_injective (i j : Int) (hi : InInt32 i) (hj : InInt32 j)
    (h : decodeSignedIndex i = decodeSignedIndex j) : i = j := by
  rw [← (C02_pack_decode i hi).1, h, (C02_pack_decode j hj).1]

example : decodeSignedIndex (-1) = ⟨0, -1⟩ ∧ decodeSignedIndex 0 = ⟨0, 1⟩ ∧ InInt32 (-2147483648) := by decide

end Serac.C02
