import Verif.Model.Transforms
import Verif.Proofs.Tensor
import Mathlib.Analysis.Calculus.FDeriv.Symmetric
import Mathlib.MeasureTheory.Function.Jacobian
import Mathlib.Analysis.Calculus.FDeriv.Pi
import Mathlib.Analysis.Calculus.FDeriv.Mul
/-! # Lemmas for the coordinate transforms -/

noncomputable section
namespace Serac.Transform
open Tensor Matrix MeasureTheory Filter Topology

theorem det_eq (d : Dim) (A : Mat ℝ d.n d.n) : det d A = Matrix.det A := by
  cases d
  · exact det2_eq A
  · exact det3_eq A

theorem inv_eq (d : Dim) (A : Mat ℝ d.n d.n) (h : Matrix.det A ≠ 0) : inv d A = some A⁻¹ := by
  cases d
  · exact (inv2_eq A).trans (if_neg h)
  · exact (inv3_eq A).trans (if_neg h)

theorem loadJ_store {n q : ℕ} (J : Fin q → Mat ℝ n n) (k : Fin q) : loadJ (storeJacobian J) k = J k := rfl
theorem loadJT_store {n q : ℕ} (J : Fin q → Mat ℝ n n) (k : Fin q) : loadJT (storeJacobian J) k = (J k)ᵀ := rfl
theorem smulM_eq {m n : ℕ} (A : Mat ℝ m n) (s : ℝ) : smulM A s = s • A := by ext i j; simp [smulM, mul_comm]
theorem smulV_eq {n : ℕ} (A : Vec ℝ n) (s : ℝ) : smulV A s = s • A := by ext i; simp [smulV, mul_comm]
theorem divV_eq {n : ℕ} (A : Vec ℝ n) (s : ℝ) : divV A s = s⁻¹ • A := by ext i; simp [divV, div_eq_mul_inv, mul_comm]
theorem addM_eq {m n : ℕ} (A B : Mat ℝ m n) : addM A B = A + B := rfl
theorem addV_eq {n : ℕ} (A B : Vec ℝ n) : addV A B = A + B := rfl

/-- `f` is differentiable at `x` and `D i j` is the derivative of component `i` in direction `j`. -/
def IsDeriv {m n : ℕ} (f : (Fin n → ℝ) → (Fin m → ℝ)) (D : Matrix (Fin m) (Fin n) ℝ) (x : Fin n → ℝ) : Prop :=
  HasFDerivAt f (LinearMap.toContinuousLinearMap (Matrix.toLin' D)) x

theorem IsDeriv.comp {m n p : ℕ} {f : (Fin n → ℝ) → (Fin m → ℝ)} {g : (Fin p → ℝ) → (Fin n → ℝ)} {D : Matrix (Fin m) (Fin n) ℝ}
    {G : Matrix (Fin n) (Fin p) ℝ} {x : Fin p → ℝ} (hf : IsDeriv f D (g x)) (hg : IsDeriv g G x) : IsDeriv (f ∘ g) (D * G) x := by
  refine HasFDerivAt.congr_fderiv (HasFDerivAt.comp x hf hg) (ContinuousLinearMap.ext fun v => ?_)
  simp [Matrix.mulVec_mulVec]

theorem IsDeriv.unique {m n : ℕ} {f : (Fin n → ℝ) → (Fin m → ℝ)} {D D' : Matrix (Fin m) (Fin n) ℝ} {x : Fin n → ℝ}
    (h : IsDeriv f D x) (h' : IsDeriv f D' x) : D = D' := by
  have := HasFDerivAt.unique h h'
  exact Matrix.toLin'.injective (LinearMap.toContinuousLinearMap.injective this)

/-- Entries of the derivative matrix are the partial derivatives of the components. -/
theorem IsDeriv.apply {m n : ℕ} {f : (Fin n → ℝ) → (Fin m → ℝ)} {D : Matrix (Fin m) (Fin n) ℝ} {x : Fin n → ℝ} (h : IsDeriv f D x)
    (i : Fin m) : ∃ L : (Fin n → ℝ) →L[ℝ] ℝ, HasFDerivAt (fun y => f y i) L x ∧ (∀ v, L v = ∑ j, D i j * v j) ∧ ∀ j, L (Pi.single j 1) = D i j := by
  have h' := (hasFDerivAt_pi'.1 h) i
  refine ⟨_, h', fun v => ?_, fun j => ?_⟩
  · simp [Matrix.mulVec, dotProduct]
  · simp

theorem contract_H1 {c n : ℕ} (f w : Matrix (Fin c) (Fin n) ℝ) (J : Matrix (Fin n) (Fin n) ℝ) (hJ : J.det ≠ 0) :
    ∑ i, ∑ j, (f * Jᵀ⁻¹) i j * (w * J) i j = ∑ i, ∑ j, f i j * w i j := by
  have e : ∀ A B : Matrix (Fin c) (Fin n) ℝ, ∑ i, ∑ j, A i j * B i j = (A * Bᵀ).trace := by
    intro A B; simp [Matrix.trace, Matrix.mul_apply]
  rw [e, e, Matrix.transpose_mul, Matrix.mul_assoc, ← Matrix.mul_assoc Jᵀ⁻¹,
    Matrix.nonsing_inv_mul _ (by rw [Matrix.det_transpose]; exact hJ.isUnit), Matrix.one_mul]

theorem integral_change {n : ℕ} {φ : (Fin n → ℝ) → (Fin n → ℝ)} {J : (Fin n → ℝ) → Matrix (Fin n) (Fin n) ℝ} {K : Set (Fin n → ℝ)}
    (hK : MeasurableSet K) (hφ : ∀ ξ ∈ K, IsDeriv φ (J ξ) ξ) (hinj : Set.InjOn φ K) (g r : (Fin n → ℝ) → ℝ) (σ : ℝ)
    (hσ : ∀ ξ ∈ K, |(J ξ).det| = σ * (J ξ).det)
    (h : ∀ ξ ∈ K, r ξ = (J ξ).det * g (φ ξ)) : ∫ x in φ '' K, g x = σ * ∫ ξ in K, r ξ := by
  rw [integral_image_eq_integral_abs_det_fderiv_smul volume hK (fun x hx => (hφ x hx).hasFDerivWithinAt) hinj,
    ← integral_const_mul]
  refine setIntegral_congr_fun hK fun ξ hξ => ?_
  have : (LinearMap.toContinuousLinearMap (Matrix.toLin' (J ξ))).det = (J ξ).det := by
    rw [LinearMap.det_toContinuousLinearMap, LinearMap.det_toLin']
  show |(LinearMap.toContinuousLinearMap (Matrix.toLin' (J ξ))).det| • g (φ ξ) = _
  rw [this, smul_eq_mul, h ξ hξ, hσ ξ hξ]; ring

/-- Second derivatives of a map whose derivative matrix is `J` near `ξ`: the array of first derivatives of `J` is symmetric in the two
derivative indices. -/
theorem jacobian_deriv_symm {n : ℕ} {φ : (Fin n → ℝ) → (Fin n → ℝ)} {J : (Fin n → ℝ) → Matrix (Fin n) (Fin n) ℝ} {ξ : Fin n → ℝ}
    (hφ : ∀ᶠ y in 𝓝 ξ, IsDeriv φ (J y) y) (hJ : ∀ k i, DifferentiableAt ℝ (fun y => J y k i) ξ) (k i j : Fin n) :
    fderiv ℝ (fun y => J y k i) ξ (Pi.single j 1) = fderiv ℝ (fun y => J y k j) ξ (Pi.single i 1) := by
  let f' : (Fin n → ℝ) → (Fin n → ℝ) →L[ℝ] ℝ := fun y => ∑ i, J y k i • ContinuousLinearMap.proj (R := ℝ) (φ := fun _ : Fin n => ℝ) i
  let f'' : (Fin n → ℝ) →L[ℝ] ((Fin n → ℝ) →L[ℝ] ℝ) :=
    ∑ i, (fderiv ℝ (fun y => J y k i) ξ).smulRight (ContinuousLinearMap.proj (R := ℝ) (φ := fun _ : Fin n => ℝ) i)
  have h1 : ∀ᶠ y in 𝓝 ξ, HasFDerivAt (fun y => φ y k) (f' y) y := by
    filter_upwards [hφ] with y hy
    obtain ⟨L, hL, hL', -⟩ := hy.apply k
    convert hL using 1
    ext v
    rw [hL' v]
    simp [f']
  have h2 : HasFDerivAt f' f'' ξ := by
    have := HasFDerivAt.fun_sum (u := Finset.univ) (fun i _ => (hJ k i).hasFDerivAt.smul_const
      (ContinuousLinearMap.proj (R := ℝ) (φ := fun _ : Fin n => ℝ) i))
    exact this
  have hs := second_derivative_symmetric_of_eventually h1 h2 (Pi.single j 1) (Pi.single i 1)
  have e : ∀ a b : Fin n, f'' (Pi.single a 1) (Pi.single b 1) = fderiv ℝ (fun y => J y k b) ξ (Pi.single a 1) := by
    intro a b
    simp [f'', Pi.single_apply]
  rw [e, e] at hs
  exact hs

/-- Derivative of a covariantly transformed field: the product-rule expression, with symmetric second derivatives. -/
theorem covariant_deriv {n : ℕ} {φ u û : (Fin n → ℝ) → (Fin n → ℝ)} {J : (Fin n → ℝ) → Matrix (Fin n) (Fin n) ℝ} {ξ : Fin n → ℝ}
    {Du Dû : Matrix (Fin n) (Fin n) ℝ}
    (hφ : ∀ᶠ y in 𝓝 ξ, IsDeriv φ (J y) y) (hJ : ∀ k i, DifferentiableAt ℝ (fun y => J y k i) ξ)
    (hu : IsDeriv u Du (φ ξ)) (hpull : ∀ᶠ y in 𝓝 ξ, û y = u (φ y) ᵥ* J y) (hû : IsDeriv û Dû ξ) :
    ∃ H : Fin n → Fin n → Fin n → ℝ, (∀ k i j, H k i j = H k j i) ∧
      ∀ i j, Dû i j = ∑ k, ((∑ l, Du k l * J ξ l j) * J ξ k i + u (φ ξ) k * H k i j) := by
  refine ⟨fun k i j => fderiv ℝ (fun y => J y k i) ξ (Pi.single j 1), fun k i j => jacobian_deriv_symm hφ hJ k i j, fun i j => ?_⟩
  obtain ⟨L, hL, -, hL'⟩ := hû.apply i
  have hφξ : IsDeriv φ (J ξ) ξ := hφ.self_of_nhds
  have hcomp := hu.comp hφξ
  have hex : ∀ k, ∃ M : (Fin n → ℝ) →L[ℝ] ℝ, HasFDerivAt (fun y => u (φ y) k) M ξ ∧ M (Pi.single j 1) = ∑ l, Du k l * J ξ l j := by
    intro k
    obtain ⟨M, hM, -, hM'⟩ := hcomp.apply k
    exact ⟨M, hM, by rw [hM' j, Matrix.mul_apply]⟩
  choose M hM hM' using hex
  have hprod : HasFDerivAt (fun y => ∑ k, u (φ y) k * J y k i)
      (∑ k, (u (φ ξ) k • fderiv ℝ (fun y => J y k i) ξ + J ξ k i • M k)) ξ :=
    HasFDerivAt.fun_sum fun k _ => (hM k).mul (hJ k i).hasFDerivAt
  have heq : (fun y => û y i) =ᶠ[𝓝 ξ] fun y => ∑ k, u (φ y) k * J y k i := by
    filter_upwards [hpull] with y hy
    rw [hy]; rfl
  have := (hL.congr_of_eventuallyEq heq.symm).unique hprod
  rw [← hL' j, this]
  simp [hM']
  refine Finset.sum_congr rfl fun k _ => by ring

end Serac.Transform
