import Verif.Model.DoF
/-!
# C01: the packed degree-of-freedom record keeps what was stored

Full statement: for every 48-bit index, sign flag (0 or 1) and 3-bit orientation, the record built from them returns the
same index and orientation, and `sign()` is `-1` when the flag is 1 and `1` when it is 0.

The code satisfies it only for flag 0 and orientation 0: see `C01_sign_flag_lost` and `C01_index_wrong`.
-/

namespace Serac.C01

/-- What a user expects `sign()` to return for a stored flag. -/
def expectedSign (flag : Bool) : Int := if flag then -1 else 1

/-- The record built from an index, a Boolean sign flag and an orientation. -/
def build (i : BitVec 64) (flag : Bool) (o : BitVec 64) : DoF :=
  DoF.mk3 i (if flag then 1#64 else 0#64) o

private theorem signPart (flag : Bool) :
    (if flag then 1#64 else 0#64) &&& (0x1#64 <<< DoF.signShift) = 0#64 := by
  cases flag <;> decide

/-- The mask of the index field has no effect. -/
theorem index_eq (d : DoF) : d.index = d.bits := by
  have : DoF.indexMask = BitVec.allOnes 64 := by decide
  rw [DoF.index, this, BitVec.and_allOnes]

/-- The word, without any bound on the index. -/
theorem bits_toNat_mod (i : BitVec 64) (flag : Bool) (o : BitVec 64) (ho : o.toNat < 8) :
    (build i flag o).bits.toNat = (o.toNat * 2 ^ 60 + i.toNat) % 2 ^ 64 := by
  have h7 : (o &&& 7#64).toNat = o.toNat := by
    rw [BitVec.toNat_and]
    have : (7#64).toNat = 2 ^ 3 - 1 := by decide
    rw [this, Nat.and_two_pow_sub_one_eq_mod]
    omega
  simp only [build, DoF.mk3, signPart, BitVec.zero_add, BitVec.toNat_add, BitVec.toNat_shiftLeft,
    h7, DoF.orientationShift, Nat.shiftLeft_eq]
  omega

private theorem bits_toNat (i : BitVec 64) (flag : Bool) (o : BitVec 64)
    (hi : i.toNat < 2 ^ 48) (ho : o.toNat < 8) :
    (build i flag o).bits.toNat = o.toNat * 2 ^ 60 + i.toNat := by
  rw [bits_toNat_mod i flag o ho]
  omega

/-- The orientation field of a word. -/
theorem orientation_toNat (d : DoF) : d.orientation.toNat = d.bits.toNat / 2 ^ 60 % 8 := by
  have hm : DoF.orientationMask.toNat >>> 60 = 2 ^ 3 - 1 := by decide
  rw [DoF.orientation, BitVec.toNat_ushiftRight, BitVec.toNat_and, DoF.orientationShift,
    Nat.shiftRight_and_distrib, hm, Nat.and_two_pow_sub_one_eq_mod, Nat.shiftRight_eq_div_pow]

/-- The sign field of a word. -/
theorem sign_eq (d : DoF) : d.sign = if d.bits.toNat / 2 ^ 63 = 0 then 1 else -1 := by
  have hlt : d.bits.toNat / 2 ^ 63 < 2 := by have := d.bits.isLt; omega
  have h : (d.bits &&& DoF.signMask = 0#64) ↔ d.bits.toNat / 2 ^ 63 = 0 := by
    have hmask : DoF.signMask = BitVec.twoPow 64 63 := by decide
    have hb : d.bits.getLsbD 63 = decide (d.bits.toNat / 2 ^ 63 % 2 = 1) := by
      rw [BitVec.getLsbD, Nat.testBit_eq_decide_div_mod_eq]
    rw [hmask, BitVec.and_twoPow, hb]
    by_cases hz : d.bits.toNat / 2 ^ 63 = 0
    · simp [hz]
    · have h1 : d.bits.toNat / 2 ^ 63 = 1 := by omega
      simp only [h1]
      decide
  unfold DoF.sign
  by_cases hz : d.bits.toNat / 2 ^ 63 = 0
  · rw [if_neg (by simpa using h.mpr hz), if_pos hz]
  · rw [if_pos (fun hh => hz (h.mp hh)), if_neg hz]

/-- The orientation survives, whatever the other two fields are. -/
theorem orientation_preserved (i : BitVec 64) (flag : Bool) (o : BitVec 64)
    (hi : i.toNat < 2 ^ 48) (ho : o.toNat < 8) : (build i flag o).orientation = o := by
  apply BitVec.eq_of_toNat_eq
  rw [orientation_toNat, bits_toNat i flag o hi ho]
  omega

private theorem sign_plus (i : BitVec 64) (flag : Bool) (o : BitVec 64)
    (hi : i.toNat < 2 ^ 48) (ho : o.toNat < 8) : (build i flag o).sign = 1 := by
  rw [sign_eq, bits_toNat i flag o hi ho, if_pos (by omega)]

/-- **C01, the part that holds.**  The orientation always survives, the index does when the orientation is 0, the sign does when the flag is 0, and the low
32 bits of the index, the only ones its users look at, always do.  Missing from the full statement: the index for other
orientations (`C01_index_wrong`) and the sign for flag 1 (`C01_sign_flag_lost`). -/
theorem C01_roundtrip_partial (i : BitVec 64) (flag : Bool) (o : BitVec 64)
    (hi : i.toNat < 2 ^ 48) (ho : o.toNat < 8) :
    (build i flag o).orientation = o ∧ (o = 0#64 → (build i flag o).index = i) ∧
      (flag = false → (build i flag o).sign = expectedSign flag) ∧ (i.toNat < 2 ^ 32 → (build i flag o).pos = i.toNat) := by
  refine ⟨orientation_preserved i flag o hi ho, ?_, fun h => by subst h; exact sign_plus i false o hi ho, ?_⟩
  · rintro rfl
    apply BitVec.eq_of_toNat_eq
    rw [index_eq, bits_toNat i flag _ hi ho]
    simp
  · intro h32
    rw [DoF.pos, index_eq, bits_toNat i flag o hi ho]
    omega

/-- Two records built from different (index, orientation) pairs are different words: no aliasing. -/
theorem C01_no_aliasing (i i' : BitVec 64) (f f' : Bool) (o o' : BitVec 64)
    (hi : i.toNat < 2 ^ 48) (ho : o.toNat < 8) (hi' : i'.toNat < 2 ^ 48) (ho' : o'.toNat < 8)
    (h : build i f o = build i' f' o') : i = i' ∧ o = o' := by
  have hb := congrArg (fun d : DoF => d.bits.toNat) h
  simp only [bits_toNat i f o hi ho, bits_toNat i' f' o' hi' ho'] at hb
  constructor <;> apply BitVec.eq_of_toNat_eq <;> omega

/-- **The code violates the index part, for every index and every orientation but 0**: the orientation leaks into the index that is
read back.  (The literal of `index_mask` at element_restriction.hpp:39 has four digits too many.) -/
theorem C01_index_wrong (i : BitVec 64) (flag : Bool) (o : BitVec 64) (hi : i.toNat < 2 ^ 48) (ho : o.toNat < 8) (h0 : o ≠ 0#64) :
    (build i flag o).index ≠ i ∧ (build i flag o).index.toNat = o.toNat * 2 ^ 60 + i.toNat := by
  have hb := bits_toNat i flag o hi ho
  rw [index_eq]
  refine ⟨fun h => h0 ?_, hb⟩
  rw [h] at hb
  apply BitVec.eq_of_toNat_eq
  simp only [BitVec.toNat_zero]
  omega

/-- **The code violates the sign part, for every index and orientation**: a record built with sign flag 1 reports
sign `+1`, and is the same word as the record built with flag 0.  (Operator precedence at element_restriction.hpp:65.) -/
theorem C01_sign_flag_lost (i o : BitVec 64) (hi : i.toNat < 2 ^ 48) (ho : o.toNat < 8) :
    (build i true o).sign = 1 ∧ (build i true o).sign ≠ expectedSign true ∧
      build i true o = build i false o := by
  refine ⟨sign_plus i true o hi ho, ?_, ?_⟩
  · rw [sign_plus i true o hi ho]; decide
  · unfold build DoF.mk3; rw [signPart, signPart]

/-- An index of 48 bits or more is not rejected: it leaks into the orientation field. -/
theorem C01_wide_index_leaks :
    ∃ i : BitVec 64, 2 ^ 48 ≤ i.toNat ∧ (build i false 0#64).orientation ≠ 0#64 :=
  ⟨BitVec.twoPow 64 60, by decide, by decide⟩

example : (12345#64).toNat < 2 ^ 48 ∧ (5#64).toNat < 8 ∧ (5#64) ≠ 0#64 := by decide
example : (build 12345#64 false 0#64).index = 12345#64 ∧ (build 12345#64 false 5#64).orientation = 5#64 ∧
    (build 12345#64 false 5#64).index = 0x5000000000003039#64 ∧ (build 12345#64 false 5#64).pos = 12345 := by
  decide

end Serac.C01
