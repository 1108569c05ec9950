import Verif.Model.Isotropic
import Verif.Proofs.Tensor
import Mathlib.LinearAlgebra.CrossProduct
import Mathlib.LinearAlgebra.Matrix.Determinant.Basic
import Mathlib.Tactic.NormNum
/-!
# C43: isotropic tensor shortcuts equal the full tensors

Spec.  `full I` is the array of the entries of a compressed tensor.  Every operation gives the result of the same operation on full arrays, written with
sums and Mathlib's matrix operations; the full arrays themselves are the multiples of the identity, of the alternating tensor (a determinant of unit
vectors), and of the three fourth-order isotropic tensors, characterised by what they do to a matrix.
-/

noncomputable section
namespace Serac.C43
open Serac.Iso Serac.Tensor
open scoped Matrix

variable {R : Type} [Field R] {m : ℕ}

/-- The array an object stands for. -/
def full2 (I : Iso2 R m) : Matrix (Fin m) (Fin m) R := Matrix.of fun i j => I.entry i j

/-- It is the multiple of the identity matrix. -/
theorem C43_full (I : Iso2 R m) : full2 I = I.value • (1 : Matrix (Fin m) (Fin m) R) := by
  ext i j
  simp [full2, Iso2.entry, b2, Matrix.one_apply]

theorem b2_eq (i j : Fin m) : (b2 i j : R) = (1 : Matrix (Fin m) (Fin m) R) i j := by simp [b2, Matrix.one_apply]

/-- **C43, linear operations.** -/
theorem C43_linear (I J : Iso2 R m) (s : R) (A : Mat R m m) :
    full2 (Iso2.identity : Iso2 R m) = 1 ∧ full2 (I.scaleLeft s) = s • full2 I ∧ full2 (I.scaleRight s) = s • full2 I ∧
    full2 (I.add J) = full2 I + full2 J ∧ full2 (I.sub J) = full2 I - full2 J ∧
    I.addFull A = full2 I + A ∧ Iso2.fullAdd A I = A + full2 I ∧ I.subFull A = full2 I - A ∧ Iso2.fullSub A I = A - full2 I := by
  refine ⟨?_, ?_, ?_, ?_, ?_, ?_, ?_, ?_, ?_⟩
  · rw [C43_full]; simp [Iso2.identity]
  · simp only [C43_full, Iso2.scaleLeft, smul_smul, mul_comm]
  · simp only [C43_full, Iso2.scaleRight, smul_smul, mul_comm]
  · simp only [C43_full, Iso2.add, add_smul]
  · simp only [C43_full, Iso2.sub, sub_smul]
  all_goals
    ext i j
    rw [C43_full]
    simp [Iso2.addFull, Iso2.fullAdd, Iso2.subFull, Iso2.fullSub, b2_eq]

/-- **C43, products.**  `dot` with trailing (leading) indices `ι` of any kind, and the double contraction. -/
theorem C43_dot {ι : Type} (I : Iso2 R m) (A : Fin m → ι → R) (B : ι → Fin m → R) (C : Mat R m m) :
    (∀ i a, I.dotLeft A i a = ∑ j, full2 I i j * A j a) ∧ (∀ a i, Iso2.dotRight B I a i = ∑ j, B a j * full2 I j i) ∧
    I.doubleDot C = ∑ i, ∑ j, full2 I i j * C i j := by
  refine ⟨?_, ?_, ?_⟩
  · intro i a
    simp [full2, Iso2.entry, b2, Iso2.dotLeft]
  · intro a i
    simp [full2, Iso2.entry, b2, Iso2.dotRight]
  · rw [Iso2.doubleDot, tr_eq, Matrix.trace, Finset.mul_sum]
    refine Finset.sum_congr rfl fun i _ => ?_
    simp [full2, Iso2.entry, b2]

/-- **C43, matrix functions.** -/
theorem C43_functions (I : Iso2 R m) :
    full2 I.transpose = (full2 I)ᵀ ∧ I.tr = (full2 I).trace ∧ I.det = (full2 I).det ∧ I.squaredNorm = ∑ i, ∑ j, full2 I i j * full2 I i j := by
  refine ⟨?_, ?_, ?_, ?_⟩
  · rw [C43_full, C43_full, Matrix.transpose_smul, Matrix.transpose_one]
    rfl
  · rw [C43_full, Matrix.trace_smul, Matrix.trace_one, Fintype.card_fin, smul_eq_mul]
    rfl
  · rw [C43_full, Matrix.det_smul, Matrix.det_one, Fintype.card_fin, mul_one]
    rfl
  · simp [full2, Iso2.entry, b2, Iso2.squaredNorm]
    ring

/-- **C43, symmetric parts** (the model's `sym` and `antisym` of full matrices are tensor.hpp's). -/
theorem C43_sym [CharZero R] (I : Iso2 R m) : full2 I.sym = Tensor.sym (full2 I) ∧ I.antisym = Tensor.antisym (full2 I) := by
  constructor
  · ext i j
    have : b2 (R := R) j i = b2 i j := by simp [b2, eq_comm]
    simp only [full2, Iso2.sym, Tensor.sym, Matrix.of_apply, Iso2.entry, this]
    ring
  · ext i j
    have : b2 (R := R) j i = b2 i j := by simp [b2, eq_comm]
    simp only [full2, Iso2.antisym, Tensor.antisym, Matrix.of_apply, Iso2.entry, this]
    ring

/-- **C43, inverse**, for non-zero values: both products are the identity.  A zero value has no inverse (unless the matrix is empty). -/
theorem C43_inv (I : Iso2 R m) : (I.value ≠ 0 → full2 I.inv * full2 I = 1 ∧ full2 I * full2 I.inv = 1) ∧ (I.value = 0 → 0 < m → ¬ IsUnit (full2 I).det) := by
  constructor
  · intro h
    rw [C43_full, C43_full]
    constructor <;> · simp [Iso2.inv, h, smul_smul]
  · intro h hm
    rw [← (C43_functions I).2.2.1, Iso2.det, h, zero_pow (by omega)]
    simp

/-- **C43, norm.** -/
theorem C43_norm (I : Iso2 ℝ m) : 0 ≤ I.norm ∧ I.norm ^ 2 = ∑ i, ∑ j, full2 I i j ^ 2 := by
  refine ⟨Real.sqrt_nonneg _, ?_⟩
  rw [Iso2.norm, Real.sq_sqrt (mul_nonneg (mul_self_nonneg _) (Nat.cast_nonneg _))]
  have := (C43_functions I).2.2.2
  rw [Iso2.squaredNorm] at this
  rw [this]
  simp [sq]

/-- **C43, alternating tensor.**  Each entry is the value times the determinant of the three unit vectors; contracted with two vectors it is the cross
product. -/
theorem C43_alternating [CharZero R] (I : Iso3 R) (i j k : Fin 3) (u v : Fin 3 → R) :
    I.entry i j k = I.value * (Matrix.of ![Pi.single i 1, Pi.single j 1, Pi.single k 1] : Matrix (Fin 3) (Fin 3) R).det ∧
    ∑ j, ∑ k, I.entry i j k * u j * v k = I.value * (crossProduct u v) i := by
  constructor
  · fin_cases i <;> fin_cases j <;> fin_cases k <;> simp [Iso3.entry, Matrix.det_fin_three]
  · fin_cases i <;> simp [Iso3.entry, cross_apply, Fin.sum_univ_three] <;> ring

/-- The array a fourth-order object stands for. -/
def full4 (I : Iso4 R m) : Fin m → Fin m → Fin m → Fin m → R := I.entry

/-- **C43, fourth order, entries**: linear operations act entry by entry. -/
theorem C43_linear4 (I J : Iso4 R m) (s : R) (i j k l : Fin m) :
    full4 (I.scale s) i j k l = s * full4 I i j k l ∧ full4 (I.add J) i j k l = full4 I i j k l + full4 J i j k l ∧
    full4 (I.sub J) i j k l = full4 I i j k l - full4 J i j k l := by
  refine ⟨?_, ?_, ?_⟩ <;> simp only [full4, Iso4.entry, Iso4.scale, Iso4.add, Iso4.sub] <;> ring

/-- **C43, fourth order, contraction**: the shortcut equals the double sum over the full array. -/
theorem C43_double_dot [CharZero R] (I : Iso4 R m) (A : Mat R m m) (i j : Fin m) : I.doubleDot A i j = ∑ k, ∑ l, full4 I i j k l * A k l := by
  have h1 : ∑ k, ∑ l, (b2 i j * b2 k l : R) * A k l = b2 i j * A.trace := by
    rw [Matrix.trace, Finset.mul_sum]
    refine Finset.sum_congr rfl fun k _ => ?_
    simp [b2]
  have h2 : ∑ k, ∑ l, (b2 i k * b2 j l : R) * A k l = A i j := by simp [b2]
  have h3 : ∑ k, ∑ l, (b2 i l * b2 j k : R) * A k l = A j i := by simp [b2]
  have e : ∀ k l, full4 I i j k l * A k l = I.c1 * ((b2 i j * b2 k l) * A k l) + (I.c2 + I.c3) / 2 * ((b2 i k * b2 j l) * A k l) +
      (I.c2 - I.c3) / 2 * ((b2 i l * b2 j k) * A k l) := by
    intro k l
    simp only [full4, Iso4.entry]
    ring
  simp only [e, Finset.sum_add_distrib, ← Finset.mul_sum, h1, h2, h3]
  simp only [Iso4.doubleDot, Iso2.addFull, Iso2.scaleLeft, Iso2.identity, Tensor.sym, Tensor.antisym, tr_eq]
  ring

/-- **C43, named fourth-order tensors**: they are the derivatives of the symmetric and the antisymmetric part. -/
theorem C43_identities [CharZero R] (A : Mat R m m) (i j : Fin m) :
    ∑ k, ∑ l, full4 (Iso4.symmetricIdentity : Iso4 R m) i j k l * A k l = (A i j + A j i) / 2 ∧
    ∑ k, ∑ l, full4 (Iso4.antisymmetricIdentity : Iso4 R m) i j k l * A k l = (A i j - A j i) / 2 := by
  constructor
  · rw [← C43_double_dot]
    simp only [Iso4.symmetricIdentity, Iso4.doubleDot, Iso2.addFull, Iso2.scaleLeft, Iso2.identity, Tensor.sym, Tensor.antisym]
    ring
  · rw [← C43_double_dot]
    simp only [Iso4.antisymmetricIdentity, Iso4.doubleDot, Iso2.addFull, Iso2.scaleLeft, Iso2.identity, Tensor.sym, Tensor.antisym]
    ring

/-! ### Examples -/

/-- Hooke's law `λ tr(A) 1 + 2μ sym(A)` with `λ = 2`, `2μ = 3`, and an additional antisymmetric part. -/
example : (⟨2, 3, 4⟩ : Iso4 ℚ 2).doubleDot !![1, 5; 1, 0] 0 1 = 17 := by
  rw [C43_double_dot]
  simp [Fin.sum_univ_two, full4, Iso4.entry, b2]
  norm_num

example : (⟨2⟩ : Iso3 ℚ).entry 2 1 0 = -2 := by norm_num [Iso3.entry]

end Serac.C43
