import Verif.Proofs.Tensor
/-!
# C13: small-tensor algebra identities

The specification is Mathlib's matrix algebra: `*`, `det`, `trace`, `ᵀ`, `⁻¹`, and the Fréchet derivative.
-/

noncomputable section
namespace Serac.C13
open Serac Serac.Tensor Matrix

variable {R : Type} [Field R] {m n p q : ℕ}

/-- **C13, products.**  Every product loop computes the sum of products it is documented to. -/
theorem C13_products (A : Mat R m n) (B : Mat R n p) (u : Vec R m) (v w : Vec R n) (C D : Mat R m n) :
    dot A B = A * B ∧ dotMV A v = A *ᵥ v ∧ dotVM u A = u ᵥ* A ∧ dotVV v w = v ⬝ᵥ w ∧ dotVMV u A v = u ⬝ᵥ (A *ᵥ v) ∧
      outer u v = vecMulVec u v ∧ inner C D = trace (Cᵀ * D) ∧ sqNorm C = trace (Cᵀ * C) ∧ sqNormV v = v ⬝ᵥ v := by
  refine ⟨dot_eq A B, dotMV_eq A v, dotVM_eq u A, dotVV_eq v w, dotVMV_eq u A v, rfl, ?_, ?_, sqNormV_eq v⟩
  · rw [inner_eq, Finset.sum_comm]; rfl
  · rw [sqNorm_eq, Finset.sum_comm]; rfl

/-- **C13, transpose, identity, diagonal.** -/
theorem C13_structure (A : Mat R m n) (d : Vec R n) :
    Tensor.transpose A = Aᵀ ∧ identity (R := R) n = 1 ∧ diag d = diagonal d ∧ dot A (identity n) = A ∧ dot (identity m) A = A := by
  refine ⟨rfl, identity_eq, diag_eq d, ?_, ?_⟩
  · rw [dot_eq, identity_eq, Matrix.mul_one]
  · rw [dot_eq, identity_eq, Matrix.one_mul]

/-- **C13, determinant.**  It is the determinant, hence multiplicative and invariant under transposition. -/
theorem C13_det (A B : Mat R 2 2) (C D : Mat R 3 3) :
    (det2 A = A.det ∧ det2 (dot A B) = det2 A * det2 B ∧ det2 (Tensor.transpose A) = det2 A) ∧
      (det3 C = C.det ∧ det3 (dot C D) = det3 C * det3 D ∧ det3 (Tensor.transpose C) = det3 C) := by
  simp only [det2_eq, det3_eq, dot_eq, Matrix.det_mul, transpose_eq, Matrix.det_transpose, and_self]

/-- **C13, `detApIm1`.** -/
theorem C13_detApIm1 (A : Mat R 2 2) (B : Mat R 3 3) :
    detApIm1_2 A = (A + 1).det - 1 ∧ detApIm1_3 B = (B + 1).det - 1 := by
  constructor
  · rw [Matrix.det_fin_two, detApIm1_2]; simp; ring
  · rw [Matrix.det_fin_three, detApIm1_3]; simp; ring

/-- **C13, second invariant.**  `I2` is half of `(tr A)² - tr (A²)` (stated without division). -/
theorem C13_I2 (A : Mat R 3 3) : 2 * I2 A = (tr A) ^ 2 - tr (dot A A) := by
  simp only [tr_eq, dot_eq, Matrix.trace, Matrix.diag_apply, Matrix.mul_apply, Fin.sum_univ_three, I2]
  ring

/-- **C13, inverse.**  The inverse routines succeed exactly on non-singular matrices and then return a two-sided inverse. -/
theorem C13_inv2 [DecidableEq R] (A : Mat R 2 2) :
    (A.det = 0 → inv2 A = none) ∧ (A.det ≠ 0 → ∃ B, inv2 A = some B ∧ A * B = 1 ∧ B * A = 1) := by
  rw [inv2_eq]
  refine ⟨fun h => by simp [h], fun h => ⟨A⁻¹, by simp [h], ?_, ?_⟩⟩
  · exact Matrix.mul_nonsing_inv _ (isUnit_iff_ne_zero.mpr h)
  · exact Matrix.nonsing_inv_mul _ (isUnit_iff_ne_zero.mpr h)

/-- The same for 3x3. -/
theorem C13_inv3 [DecidableEq R] (A : Mat R 3 3) :
    (A.det = 0 → inv3 A = none) ∧ (A.det ≠ 0 → ∃ B, inv3 A = some B ∧ A * B = 1 ∧ B * A = 1) := by
  rw [inv3_eq]
  refine ⟨fun h => by simp [h], fun h => ⟨A⁻¹, by simp [h], ?_, ?_⟩⟩
  · exact Matrix.mul_nonsing_inv _ (isUnit_iff_ne_zero.mpr h)
  · exact Matrix.nonsing_inv_mul _ (isUnit_iff_ne_zero.mpr h)

/-- **C13, deviator.**  In every dimension the deviator is trace-free, changes nothing off the diagonal, differs from the input by a
multiple of the identity, and taking it twice changes nothing. -/
theorem C13_dev (A : Mat R n n) (hn : (n : R) ≠ 0) :
    tr (dev A) = 0 ∧ (∀ i j, i ≠ j → dev A i j = A i j) ∧ (∀ i, dev A i i = A i i - A.trace / n) ∧ dev (dev A) = dev A := by
  have ht : (dev A).trace = 0 := by
    rw [dev_eq, Matrix.trace_sub, Matrix.trace_smul, Matrix.trace_one, Fintype.card_fin, smul_eq_mul]
    field_simp; ring
  refine ⟨by rw [tr_eq, ht], fun i j h => by rw [dev_eq]; simp [h], fun i => by rw [dev_eq]; simp, ?_⟩
  conv_lhs => rw [dev_eq (dev A), ht]
  simp

/-- **C13, symmetric and antisymmetric parts.** -/
theorem C13_sym (h2 : (2 : R) ≠ 0) (A : Mat R n n) :
    (sym A)ᵀ = sym A ∧ (antisym A)ᵀ = -antisym A ∧ sym A + antisym A = A ∧ tr (sym A) = tr A := by
  refine ⟨?_, ?_, ?_, ?_⟩
  · ext i j; simp only [transpose_apply, sym]; ring
  · ext i j; simp only [transpose_apply, Matrix.neg_apply, antisym]; ring
  · ext i j; simp only [Matrix.add_apply, sym, antisym]; field_simp; ring
  · simp only [tr_eq, Matrix.trace, Matrix.diag_apply, sym]
    refine Finset.sum_congr rfl fun i _ => ?_
    field_simp; ring

/-- **C13, cross products.**  The cross product is perpendicular to its factors, the two-column form is the same vector, and its squared
length is the Gram determinant (so that it is the area factor). -/
theorem C13_cross (u v : Vec R 3) (A : Mat R 3 2) :
    cross u v ⬝ᵥ u = 0 ∧ cross u v ⬝ᵥ v = 0 ∧ crossCols A = cross (fun i => A i 0) (fun i => A i 1) ∧
      crossCols A ⬝ᵥ crossCols A = (Aᵀ * A).det := by
  refine ⟨?_, ?_, ?_, ?_⟩
  · simp [cross, dotProduct, Fin.sum_univ_three]; ring
  · simp [cross, dotProduct, Fin.sum_univ_three]; ring
  · simp [cross, crossCols]
  · simp [crossCols, dotProduct, Fin.sum_univ_three, Matrix.det_fin_two, Matrix.mul_apply]; ring

variable {G E : Type} [AddCommGroup G] [Module ℝ G] [NormedAddCommGroup E] [NormedSpace ℝ E]

private theorem invDual_gradient (B : Mat ℝ n n) (A : Fin n → Fin n → Dual G) (i j : Fin n) :
    Fin.foldl n (fun s k => Fin.foldl n (fun s l => s - B l j • (B i k • (A k l).gradient)) s) (0 : G) =
      -∑ k, ∑ l, (B i k * B l j) • (A k l).gradient := by
  have h := accum2_eq n n (0 : G) fun k l => -((B i k * B l j) • (A k l).gradient)
  rw [zero_add] at h
  simp only [Finset.sum_neg_distrib] at h
  rw [← h]
  congr 1
  funext s k
  unfold accum
  congr 1
  funext s l
  rw [sub_eq_add_neg, smul_smul, mul_comm]

/-- **C13, derivative-carrying inverse.**  Let `A` be a matrix of functions at `p` with non-zero determinant, given to the routine with the
values and derivatives of its entries (read through `φ`).  If the plain inverse routine returns the inverse there, the routine returns the
entries of the inverse together with their derivatives.  Any size. -/
theorem C13_inv_dual (φ : G →ₗ[ℝ] (E →L[ℝ] ℝ)) (p : E) (A : E → Matrix (Fin n) (Fin n) ℝ) (D : Fin n → Fin n → Dual G)
    (hv : ∀ i j, (D i j).value = A p i j) (hg : ∀ i j, HasFDerivAt (fun q => A q i j) (φ (D i j).gradient) p)
    (hd : (A p).det ≠ 0) (inv : Mat ℝ n n → Option (Mat ℝ n n)) (hinv : inv (A p) = some (A p)⁻¹) :
    ∃ B, invDual inv D = some B ∧ ∀ i j, (B i j).value = (A p)⁻¹ i j ∧
      HasFDerivAt (fun q => (A q)⁻¹ i j) (φ (B i j).gradient) p := by
  have hval : (fun i j => (D i j).value : Mat ℝ n n) = A p := by funext i j; exact hv i j
  refine ⟨_, by rw [invDual, hval, hinv]; rfl, fun i j => ⟨rfl, ?_⟩⟩
  dsimp only
  rw [invDual_gradient, map_neg, map_sum]
  simp only [map_sum, map_smul]
  exact hasFDerivAt_inv A _ p hg hd i j

/-- For 2x2 and 3x3 matrices the plain inverse routine is the closed form, so the hypothesis of `C13_inv_dual` always holds. -/
theorem C13_inv_dual_small (φ : G →ₗ[ℝ] (E →L[ℝ] ℝ)) (p : E) (A : E → Matrix (Fin 3) (Fin 3) ℝ) (D : Fin 3 → Fin 3 → Dual G)
    (hv : ∀ i j, (D i j).value = A p i j) (hg : ∀ i j, HasFDerivAt (fun q => A q i j) (φ (D i j).gradient) p)
    (A2 : E → Matrix (Fin 2) (Fin 2) ℝ) (D2 : Fin 2 → Fin 2 → Dual G)
    (hv2 : ∀ i j, (D2 i j).value = A2 p i j) (hg2 : ∀ i j, HasFDerivAt (fun q => A2 q i j) (φ (D2 i j).gradient) p) :
    ((A p).det ≠ 0 → ∃ B, invDual inv3 D = some B ∧ ∀ i j, (B i j).value = (A p)⁻¹ i j ∧
      HasFDerivAt (fun q => (A q)⁻¹ i j) (φ (B i j).gradient) p) ∧
    ((A2 p).det ≠ 0 → ∃ B, invDual inv2 D2 = some B ∧ ∀ i j, (B i j).value = (A2 p)⁻¹ i j ∧
      HasFDerivAt (fun q => (A2 q)⁻¹ i j) (φ (B i j).gradient) p) :=
  ⟨fun hd => C13_inv_dual φ p A D hv hg hd inv3 (by rw [inv3_eq]; simp [hd]),
   fun hd => C13_inv_dual φ p A2 D2 hv2 hg2 hd inv2 (by rw [inv2_eq]; simp [hd])⟩

/-! ### Examples -/

example : (!![1, 2; 3, 4] : Mat ℝ 2 2).det ≠ 0 := by rw [Matrix.det_fin_two]; norm_num
example : ((3 : ℕ) : ℝ) ≠ 0 ∧ (2 : ℝ) ≠ 0 := by norm_num
/-- The dimension hypothesis of `C13_dev` is met by 3x3 matrices, and `dev` is not the identity. -/
example : dev (!![1, 2; 3, 5] : Mat ℝ 2 2) 0 0 = -2 := by
  rw [dev_eq]; simp [Matrix.trace, Fin.sum_univ_two]; norm_num
/-- Hypotheses of `C13_inv_dual`: the matrix `[[t, 1], [0, 2]]` at `t = 3`. -/
example : ∃ (φ : ℝ →ₗ[ℝ] (ℝ →L[ℝ] ℝ)) (A : ℝ → Matrix (Fin 2) (Fin 2) ℝ) (D : Fin 2 → Fin 2 → Dual ℝ),
    (∀ i j, (D i j).value = A 3 i j) ∧ (∀ i j, HasFDerivAt (fun q => A q i j) (φ (D i j).gradient) 3) ∧ (A 3).det ≠ 0 := by
  refine ⟨(LinearMap.id.smulRight (ContinuousLinearMap.id ℝ ℝ)), fun t => !![t, 1; 0, 2],
    fun i j => if i = 0 ∧ j = 0 then ⟨3, 1⟩ else ⟨!![(3 : ℝ), 1; 0, 2] i j, 0⟩, ?_, ?_, ?_⟩
  · intro i j; fin_cases i <;> fin_cases j <;> simp
  · intro i j
    fin_cases i <;> fin_cases j <;> simp
    · exact hasFDerivAt_id 3
    · exact hasFDerivAt_const _ _
    · exact hasFDerivAt_const _ _
    · exact hasFDerivAt_const _ _
  · rw [Matrix.det_fin_two]; norm_num

end Serac.C13
