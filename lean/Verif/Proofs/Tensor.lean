import Verif.Model.Tensor
import Mathlib.LinearAlgebra.Matrix.NonsingularInverse
import Mathlib.LinearAlgebra.Matrix.Trace
import Mathlib.Analysis.Calculus.FDeriv.Mul
import Mathlib.Analysis.Calculus.FDeriv.Add
import Mathlib.Tactic.FieldSimp
import Mathlib.Tactic.FinCases
/-!
# Lemmas: the loops of tensor.hpp as sums and Mathlib matrix operations
-/

noncomputable section
namespace Serac.Tensor

theorem accum_eq {S : Type} [AddCommMonoid S] (n : ℕ) (s : S) (f : Fin n → S) : accum n s f = s + ∑ i, f i := by
  unfold accum
  induction n generalizing s with
  | zero => simp
  | succ n ih =>
    rw [Fin.foldl_succ_last, Fin.sum_univ_castSucc, ← add_assoc, ← ih]

theorem accum2_eq {S : Type} [AddCommMonoid S] (m n : ℕ) (s : S) (f : Fin m → Fin n → S) :
    Fin.foldl m (fun s i => accum n s (f i)) s = s + ∑ i, ∑ j, f i j := by
  have h := accum_eq m s fun i => ∑ j, f i j
  rw [← h]
  unfold accum
  congr 1
  funext s i
  exact accum_eq n s (f i)

section ring
variable {R : Type} [Field R] {l m n p q : ℕ}

theorem inner_eq (A B : Mat R m n) : inner A B = ∑ i, ∑ j, A i j * B i j := by
  rw [inner, accum2_eq, zero_add]

theorem sqNorm_eq (A : Mat R m n) : sqNorm A = ∑ i, ∑ j, A i j * A i j := by
  rw [sqNorm, accum2_eq, zero_add]

theorem sqNormV_eq (A : Vec R m) : sqNormV A = ∑ i, A i * A i := by
  rw [sqNormV, accum_eq, zero_add]

theorem dotVV_eq (A B : Vec R m) : dotVV A B = ∑ i, A i * B i := by
  rw [dotVV, accum_eq, zero_add]

theorem dot_eq (A : Mat R m n) (B : Mat R n p) : dot A B = A * B := by
  ext i j; rw [dot, accum_eq, zero_add, Matrix.mul_apply]

theorem dotVM_eq (A : Vec R m) (B : Mat R m n) : dotVM A B = Matrix.vecMul A B := by
  ext i; rw [dotVM, accum_eq, zero_add]; rfl

theorem dotMV_eq (A : Mat R m n) (B : Vec R n) : dotMV A B = Matrix.mulVec A B := by
  ext i; rw [dotMV, accum_eq, zero_add]; rfl

theorem dotVMV_eq (u : Vec R m) (A : Mat R m n) (v : Vec R n) : dotVMV u A v = u ⬝ᵥ A.mulVec v := by
  rw [dotVMV, accum2_eq, zero_add]
  simp [dotProduct, Matrix.mulVec, Finset.mul_sum, mul_assoc]

theorem doubleDot4_eq (A : Fin m → Fin n → Fin p → Fin q → R) (B : Mat R p q) (i : Fin m) (j : Fin n) :
    doubleDot4 A B i j = ∑ k, ∑ l, A i j k l * B k l := by
  rw [doubleDot4, accum2_eq, zero_add]

theorem tr_eq (A : Mat R n n) : tr A = A.trace := by
  rw [tr, accum_eq, zero_add]; rfl

omit [Field R] in
theorem transpose_eq (A : Mat R m n) : transpose A = A.transpose := rfl

theorem identity_eq : identity (R := R) n = 1 := by
  ext i j; rw [identity, Matrix.one_apply]

/-- A loop that touches only the diagonal, each entry once. -/
theorem diagLoop {S : Type} (n : ℕ) (g : Fin n → S → S) (A : Fin n → Fin n → S) :
    Fin.foldl n (fun (D : Fin n → Fin n → S) i => Function.update D i (Function.update (D i) i (g i (D i i)))) A =
      fun i j => if i = j then g i (A i j) else A i j := by
  have key : ∀ k (hk : k ≤ n), Fin.foldl k (fun (D : Fin n → Fin n → S) (i : Fin k) =>
      Function.update D (i.castLE hk) (Function.update (D (i.castLE hk)) (i.castLE hk) (g (i.castLE hk) (D (i.castLE hk) (i.castLE hk))))) A =
      fun i j => if i = j ∧ i.val < k then g i (A i j) else A i j := by
    intro k
    induction k with
    | zero => intro hk; simp
    | succ k ih =>
      intro hk
      rw [Fin.foldl_succ_last]
      have := ih (by omega)
      simp only [Fin.castLE_castSucc]
      rw [this]
      funext i j
      by_cases hi : i = (Fin.last k).castLE hk
      · subst hi
        rw [Function.update_self]
        by_cases hj : j = (Fin.last k).castLE hk
        · subst hj; simp
        · rw [Function.update_of_ne hj]; simp [Ne.symm hj]
      · rw [Function.update_of_ne hi]
        have hv : i.val ≠ k := fun h => hi (Fin.ext (by simpa using h))
        have : (i.val < k + 1) ↔ (i.val < k) := by omega
        simp only [this]
  have := key n le_rfl
  simpa using this

theorem dev_eq (A : Mat R n n) : dev A = A - (A.trace / (n : R)) • (1 : Matrix (Fin n) (Fin n) R) := by
  unfold dev
  refine (diagLoop n (fun _ x => x - tr A / (n : R)) A).trans ?_
  rw [tr_eq]
  ext i j
  by_cases h : i = j <;> simp [h]

theorem diag_eq (d : Vec R n) : diag d = Matrix.diagonal d := by
  unfold diag
  refine (diagLoop n (fun i _ => d i) _).trans ?_
  ext i j
  by_cases h : i = j <;> simp [h]

theorem det2_eq (A : Mat R 2 2) : det2 A = A.det := by rw [Matrix.det_fin_two]; rfl

theorem det3_eq (A : Mat R 3 3) : det3 A = A.det := by rw [Matrix.det_fin_three, det3]; ring

variable [DecidableEq R]

theorem inv2_eq (A : Mat R 2 2) : inv2 A = if A.det = 0 then none else some A⁻¹ := by
  unfold inv2
  rw [det2_eq]
  by_cases h : A.det = 0
  · simp [h]
  · rw [if_neg h, if_neg h]
    dsimp only
    congr 1
    symm
    apply Matrix.inv_eq_right_inv
    have hd : A.det = det2 A := (det2_eq A).symm
    have h' : det2 A ≠ 0 := by rwa [← hd]
    rw [hd]
    ext i j
    fin_cases i <;> fin_cases j <;> simp [Matrix.mul_apply, Fin.sum_univ_two] <;> field_simp <;> rw [det2] <;> ring

theorem inv3_eq (A : Mat R 3 3) : inv3 A = if A.det = 0 then none else some A⁻¹ := by
  unfold inv3
  rw [det3_eq]
  by_cases h : A.det = 0
  · simp [h]
  · rw [if_neg h, if_neg h]
    dsimp only
    congr 1
    symm
    apply Matrix.inv_eq_right_inv
    have hd : A.det = det3 A := (det3_eq A).symm
    have h' : det3 A ≠ 0 := by rwa [← hd]
    rw [hd]
    ext i j
    fin_cases i <;> fin_cases j <;> simp [Matrix.mul_apply, Fin.sum_univ_three] <;> field_simp <;> rw [det3] <;> ring

end ring

section deriv
variable {E : Type} [NormedAddCommGroup E] [NormedSpace ℝ E] {n : ℕ}

theorem differentiableAt_det (A : E → Matrix (Fin n) (Fin n) ℝ) (p : E) (h : ∀ i j, DifferentiableAt ℝ (fun q => A q i j) p) :
    DifferentiableAt ℝ (fun q => (A q).det) p := by
  simp only [Matrix.det_apply]
  refine DifferentiableAt.fun_sum fun σ _ => ?_
  refine DifferentiableAt.const_smul (c := Equiv.Perm.sign σ) ?_
  exact (HasFDerivAt.finsetProd fun i _ => (h (σ i) i).hasFDerivAt).differentiableAt

theorem differentiableAt_inv (A : E → Matrix (Fin n) (Fin n) ℝ) (p : E) (h : ∀ i j, DifferentiableAt ℝ (fun q => A q i j) p)
    (hd : (A p).det ≠ 0) (i j : Fin n) : DifferentiableAt ℝ (fun q => (A q)⁻¹ i j) p := by
  have e : (fun q => (A q)⁻¹ i j) = fun q => (A q).det⁻¹ * (A q).adjugate i j := by
    funext q; simp [Matrix.inv_def, Ring.inverse_eq_inv']
  rw [e]
  refine ((differentiableAt_det A p h).inv hd).mul ?_
  simp only [Matrix.adjugate_apply]
  refine differentiableAt_det _ p fun a b => ?_
  by_cases ha : a = j
  · subst ha; simp
  · simp [Matrix.updateRow_ne ha, h]

/-- Derivative of the inverse matrix, entry by entry. -/
theorem hasFDerivAt_inv (A : E → Matrix (Fin n) (Fin n) ℝ) (A' : Fin n → Fin n → E →L[ℝ] ℝ) (p : E)
    (h : ∀ i j, HasFDerivAt (fun q => A q i j) (A' i j) p) (hd : (A p).det ≠ 0) (i j : Fin n) :
    HasFDerivAt (fun q => (A q)⁻¹ i j) (-∑ k, ∑ l, ((A p)⁻¹ i k * (A p)⁻¹ l j) • A' k l) p := by
  have hB := differentiableAt_inv A p (fun i j => (h i j).differentiableAt) hd
  set B' : Fin n → Fin n → E →L[ℝ] ℝ := fun i j => fderiv ℝ (fun q => (A q)⁻¹ i j) p with hB'
  have hB2 : ∀ i j, HasFDerivAt (fun q => (A q)⁻¹ i j) (B' i j) p := fun i j => (hB i j).hasFDerivAt
  -- the product is locally constant
  have hev : ∀ᶠ q in nhds p, (A q).det ≠ 0 :=
    (differentiableAt_det A p fun i j => (h i j).differentiableAt).continuousAt.eventually_ne hd
  have hprod : ∀ k, ∑ l, (A p k l • B' l j + (A p)⁻¹ l j • A' k l) = 0 := by
    intro k
    have h1 : HasFDerivAt (fun q => ∑ l, A q k l * (A q)⁻¹ l j) (∑ l, (A p k l • B' l j + (A p)⁻¹ l j • A' k l)) p :=
      HasFDerivAt.fun_sum fun l _ => (h k l).mul (hB2 l j)
    have h2 : HasFDerivAt (fun q => ∑ l, A q k l * (A q)⁻¹ l j) (0 : E →L[ℝ] ℝ) p := by
      refine (hasFDerivAt_const ((1 : Matrix (Fin n) (Fin n) ℝ) k j) p).congr_of_eventuallyEq ?_
      filter_upwards [hev] with q hq
      rw [← Matrix.mul_apply, Matrix.mul_nonsing_inv _ (isUnit_iff_ne_zero.mpr hq)]
    exact h1.unique h2
  have hsolve : B' i j = -∑ k, ∑ l, ((A p)⁻¹ i k * (A p)⁻¹ l j) • A' k l := by
    have hinv : ∀ l, ∑ k, (A p)⁻¹ i k * A p k l = (1 : Matrix (Fin n) (Fin n) ℝ) i l := by
      intro l; rw [← Matrix.mul_apply, Matrix.nonsing_inv_mul _ (isUnit_iff_ne_zero.mpr hd)]
    have e1 : ∑ k, (A p)⁻¹ i k • ∑ l, (A p k l • B' l j + (A p)⁻¹ l j • A' k l) = 0 := by
      simp only [hprod, smul_zero, Finset.sum_const_zero]
    simp only [Finset.smul_sum, smul_add, smul_smul, Finset.sum_add_distrib] at e1
    have e2 : ∑ k, ∑ l, ((A p)⁻¹ i k * A p k l) • B' l j = B' i j := by
      rw [Finset.sum_comm]
      simp only [← Finset.sum_smul, hinv, Matrix.one_apply, ite_smul, one_smul, zero_smul]
      simp
    rw [e2] at e1
    exact eq_neg_of_add_eq_zero_left e1
  rw [← hsolve]
  exact hB2 i j

end deriv
end Serac.Tensor
