import Verif.Proofs.Transforms
/-!
# C18: the reference/physical transforms preserve the weak form

Spec.  An element is the image of a reference set under a differentiable map `φ` with Jacobian matrix `J ξ` (row: coordinate, column:
reference direction).  Fields live on the physical side: a (scalar or vector) field `v` with its gradient, or a vector field `u` with its
curl.  On the reference side the kernels see `v ∘ φ` and its reference gradient (H1, L2), or the covariant pull-back `u(φ(ξ)) · J(ξ)` and
its reference curl (Hcurl).  The spec never mentions an inverse Jacobian.

* `C18_*_pull`: the data handed to the q-function are the physical value and the physical gradient / curl at the mapped point.
* `C18_*_push`: the pushed-back q-function output, contracted with the reference test function, is `det J` times the physical contraction,
  for every invertible Jacobian.
* `C18_weak_form*`: hence the reference integral is the physical integral on every element whose Jacobian is positive.
* `C18_negative_partial`: for an element of negative orientation (invertible Jacobian, negative determinant) the code's integral is the
  *negative* of the physical one, so the catalogue statement "for every invertible Jacobian" holds up to the orientation sign only.
-/

noncomputable section
namespace Serac.C18
open Serac.Tensor Serac.Transform Matrix MeasureTheory Filter Topology

/-! ## H1 and L2 -/

/-- Trial side, H1/L2, any number of components and quadrature points. -/
theorem C18_H1_pull (d : Dim) {c q : ℕ} (φ : (Fin d.n → ℝ) → (Fin d.n → ℝ)) (v : (Fin d.n → ℝ) → (Fin c → ℝ))
    (ξ : Fin q → Fin d.n → ℝ) (J : Fin q → Matrix (Fin d.n) (Fin d.n) ℝ) (Dv : Fin q → Matrix (Fin c) (Fin d.n) ℝ)
    (u : Fin q → Vec ℝ c × Mat ℝ c d.n)
    (hφ : ∀ k, IsDeriv φ (J k) (ξ k)) (hJ : ∀ k, (J k).det ≠ 0) (hv : ∀ k, IsDeriv v (Dv k) (φ (ξ k)))
    (hval : ∀ k, (u k).1 = (v ∘ φ) (ξ k)) (hder : ∀ k, IsDeriv (v ∘ φ) (u k).2 (ξ k)) (k : Fin q) :
    parentToPhysicalH1 d (storeJacobian J) u k = some (v (φ (ξ k)), Dv k) := by
  have e : (u k).2 = Dv k * J k := (hder k).unique ((hv k).comp (hφ k))
  unfold parentToPhysicalH1
  rw [loadJ_store]
  dsimp only
  rw [inv_eq d _ (hJ k), Option.map_some, dot_eq, e, Matrix.mul_assoc, Matrix.mul_nonsing_inv _ (hJ k).isUnit, Matrix.mul_one, hval k]
  rfl

/-- Test side, H1/L2: pointwise conservation, every invertible Jacobian, every q-function output, every test function. -/
theorem C18_H1_push (d : Dim) {c q : ℕ} (J : Fin q → Matrix (Fin d.n) (Fin d.n) ℝ) (out : Fin q → Vec ℝ c × Mat ℝ c d.n) (k : Fin q)
    (hJ : (J k).det ≠ 0) :
    ∃ r, physicalToParentH1 d (storeJacobian J) out k = some r ∧
      ∀ (w : Fin c → ℝ) (Dw : Matrix (Fin c) (Fin d.n) ℝ),
        (∑ i, r.1 i * w i) + ∑ i, ∑ j, r.2 i j * (Dw * J k) i j =
          (J k).det * ((∑ i, (out k).1 i * w i) + ∑ i, ∑ j, (out k).2 i j * Dw i j) := by
  have hJT : ((J k)ᵀ).det ≠ 0 := by rwa [Matrix.det_transpose]
  refine ⟨(smulV (out k).1 (J k).det, smulM ((out k).2 * (J k)ᵀ⁻¹) (J k).det), ?_, fun w Dw => ?_⟩
  · unfold physicalToParentH1
    rw [loadJT_store]
    dsimp only
    rw [inv_eq d _ hJT, Option.map_some, dot_eq, det_eq, Matrix.det_transpose]
  · rw [← contract_H1 (out k).2 Dw (J k) hJ, mul_add, Finset.mul_sum, Finset.mul_sum]
    congr 1
    · exact Finset.sum_congr rfl fun i _ => by dsimp only [smulV]; ring
    · refine Finset.sum_congr rfl fun i _ => ?_
      rw [Finset.mul_sum]
      exact Finset.sum_congr rfl fun j _ => by dsimp only [smulM]; ring

/-- What the domain kernel does at one reference point for an H1/L2 trial and test space (domain_integral_kernels.hpp:176-216): transform
the trial data, call the q-function with the physical position, transform its output back. -/
def kernelPointH1 (d : Dim) {c c' : ℕ} (qf : Vec ℝ d.n → Vec ℝ c × Mat ℝ c d.n → Vec ℝ c' × Mat ℝ c' d.n) (x : Vec ℝ d.n)
    (J : Mat ℝ d.n d.n) (u : Vec ℝ c × Mat ℝ c d.n) : Option (Vec ℝ c' × Mat ℝ c' d.n) :=
  (parentToPhysicalH1 d (storeJacobian fun _ : Fin 1 => J) (fun _ => u) 0).bind fun a =>
    physicalToParentH1 d (storeJacobian fun _ : Fin 1 => J) (fun _ => qf x a) 0

/-- The weak form on an element, H1/L2 trial and test functions: integrating the kernel output against the reference test function over
the reference set is integrating the q-function against the physical test function over the physical element. -/
theorem C18_weak_form_H1 (d : Dim) {c c' : ℕ} (qf : Vec ℝ d.n → Vec ℝ c × Mat ℝ c d.n → Vec ℝ c' × Mat ℝ c' d.n)
    (K : Set (Fin d.n → ℝ)) (hK : MeasurableSet K)
    (φ : (Fin d.n → ℝ) → (Fin d.n → ℝ)) (J : (Fin d.n → ℝ) → Matrix (Fin d.n) (Fin d.n) ℝ)
    (hφ : ∀ ξ ∈ K, IsDeriv φ (J ξ) ξ) (hinj : Set.InjOn φ K) (hpos : ∀ ξ ∈ K, 0 < (J ξ).det)
    -- trial and test fields on the physical element, with their gradients
    (u : (Fin d.n → ℝ) → (Fin c → ℝ)) (Du : (Fin d.n → ℝ) → Matrix (Fin c) (Fin d.n) ℝ) (hu : ∀ x ∈ φ '' K, IsDeriv u (Du x) x)
    (w : (Fin d.n → ℝ) → (Fin c' → ℝ)) (Dw : (Fin d.n → ℝ) → Matrix (Fin c') (Fin d.n) ℝ) (hw : ∀ x ∈ φ '' K, IsDeriv w (Dw x) x)
    -- reference gradients of the pulled-back fields
    (Dû : (Fin d.n → ℝ) → Matrix (Fin c) (Fin d.n) ℝ) (hû : ∀ ξ ∈ K, IsDeriv (u ∘ φ) (Dû ξ) ξ)
    (Dŵ : (Fin d.n → ℝ) → Matrix (Fin c') (Fin d.n) ℝ) (hŵ : ∀ ξ ∈ K, IsDeriv (w ∘ φ) (Dŵ ξ) ξ) :
    ∃ r : (Fin d.n → ℝ) → Vec ℝ c' × Mat ℝ c' d.n,
      (∀ ξ ∈ K, kernelPointH1 d qf (φ ξ) (J ξ) (u (φ ξ), Dû ξ) = some (r ξ)) ∧
      ∫ ξ in K, ((∑ i, (r ξ).1 i * w (φ ξ) i) + ∑ i, ∑ j, (r ξ).2 i j * Dŵ ξ i j) =
        ∫ x in φ '' K, ((∑ i, (qf x (u x, Du x)).1 i * w x i) + ∑ i, ∑ j, (qf x (u x, Du x)).2 i j * Dw x i j) := by
  have key : ∀ ξ, ∃ r : Vec ℝ c' × Mat ℝ c' d.n, ξ ∈ K →
      kernelPointH1 d qf (φ ξ) (J ξ) (u (φ ξ), Dû ξ) = some r ∧
      ((∑ i, r.1 i * w (φ ξ) i) + ∑ i, ∑ j, r.2 i j * Dŵ ξ i j) = (J ξ).det *
        ((∑ i, (qf (φ ξ) (u (φ ξ), Du (φ ξ))).1 i * w (φ ξ) i) +
          ∑ i, ∑ j, (qf (φ ξ) (u (φ ξ), Du (φ ξ))).2 i j * Dw (φ ξ) i j) := by
    intro ξ
    by_cases hξ : ξ ∈ K
    · obtain ⟨r, hr, hr'⟩ := C18_H1_push d (fun _ : Fin 1 => J ξ) (fun _ => qf (φ ξ) (u (φ ξ), Du (φ ξ))) 0 (hpos ξ hξ).ne'
      refine ⟨r, fun _ => ⟨?_, ?_⟩⟩
      · unfold kernelPointH1
        rw [C18_H1_pull d φ u (fun _ : Fin 1 => ξ) (fun _ => J ξ) (fun _ => Du (φ ξ)) (fun _ => (u (φ ξ), Dû ξ))
          (fun _ => hφ ξ hξ) (fun _ => (hpos ξ hξ).ne') (fun _ => hu _ ⟨ξ, hξ, rfl⟩) (fun _ => rfl) (fun _ => hû ξ hξ) 0,
          Option.bind_some]
        exact hr
      · have e : Dŵ ξ = Dw (φ ξ) * J ξ := (hŵ ξ hξ).unique ((hw _ ⟨ξ, hξ, rfl⟩).comp (hφ ξ hξ))
        rw [e]
        exact hr' (w (φ ξ)) (Dw (φ ξ))
    · exact ⟨(fun _ => 0, fun _ _ => 0), fun h => absurd h hξ⟩
  choose r hr using key
  refine ⟨r, fun ξ hξ => (hr ξ hξ).1, ?_⟩
  rw [integral_change hK hφ hinj
    (fun x => (∑ i, (qf x (u x, Du x)).1 i * w x i) + ∑ i, ∑ j, (qf x (u x, Du x)).2 i j * Dw x i j)
    (fun ξ => (∑ i, (r ξ).1 i * w (φ ξ) i) + ∑ i, ∑ j, (r ξ).2 i j * Dŵ ξ i j) 1
    (fun ξ hξ => by rw [abs_of_pos (hpos ξ hξ), one_mul]) (fun ξ hξ => (hr ξ hξ).2), one_mul]

/-! ## Quantities of interest -/

/-- A scalar q-function output is weighted by the measure: the reference integral is the physical one. -/
theorem C18_weak_form_QOI (d : Dim) (g : (Fin d.n → ℝ) → ℝ) (K : Set (Fin d.n → ℝ)) (hK : MeasurableSet K)
    (φ : (Fin d.n → ℝ) → (Fin d.n → ℝ)) (J : (Fin d.n → ℝ) → Matrix (Fin d.n) (Fin d.n) ℝ)
    (hφ : ∀ ξ ∈ K, IsDeriv φ (J ξ) ξ) (hinj : Set.InjOn φ K) (hpos : ∀ ξ ∈ K, 0 < (J ξ).det) :
    ∫ ξ in K, physicalToParentQOI d (storeJacobian fun _ : Fin 1 => J ξ) (fun _ => g (φ ξ)) 0 = ∫ x in φ '' K, g x := by
  rw [integral_change hK hφ hinj g _ 1 (fun ξ hξ => by rw [abs_of_pos (hpos ξ hξ), one_mul]) (fun ξ _ => ?_), one_mul]
  unfold physicalToParentQOI
  rw [loadJT_store]
  dsimp only
  rw [det_eq, Matrix.det_transpose, mul_comm]

/-- Elements of negative orientation: the sign is lost.  (`dv = det(J_T)` is signed.) -/
theorem C18_negative_partial (d : Dim) (g : (Fin d.n → ℝ) → ℝ) (K : Set (Fin d.n → ℝ)) (hK : MeasurableSet K)
    (φ : (Fin d.n → ℝ) → (Fin d.n → ℝ)) (J : (Fin d.n → ℝ) → Matrix (Fin d.n) (Fin d.n) ℝ)
    (hφ : ∀ ξ ∈ K, IsDeriv φ (J ξ) ξ) (hinj : Set.InjOn φ K) (hneg : ∀ ξ ∈ K, (J ξ).det < 0) :
    ∫ ξ in K, physicalToParentQOI d (storeJacobian fun _ : Fin 1 => J ξ) (fun _ => g (φ ξ)) 0 = -∫ x in φ '' K, g x := by
  rw [integral_change hK hφ hinj g _ (-1) (fun ξ hξ => by rw [abs_of_neg (hneg ξ hξ), neg_one_mul]) (fun ξ _ => ?_), neg_one_mul, neg_neg]
  unfold physicalToParentQOI
  rw [loadJT_store]
  dsimp only
  rw [det_eq, Matrix.det_transpose, mul_comm]

/-! ## Hcurl -/

/-- Curl of a plane field with derivative matrix `D`. -/
def curl2 (D : Matrix (Fin 2) (Fin 2) ℝ) : ℝ := D 1 0 - D 0 1

/-- Curl of a space field with derivative matrix `D`. -/
def curl3 (D : Matrix (Fin 3) (Fin 3) ℝ) : Fin 3 → ℝ := ![D 2 1 - D 1 2, D 0 2 - D 2 0, D 1 0 - D 0 1]

/-- Trial side, Hcurl in the plane. -/
theorem C18_curl2_pull {q : ℕ} (φ u û : (Fin 2 → ℝ) → (Fin 2 → ℝ)) (J : (Fin 2 → ℝ) → Matrix (Fin 2) (Fin 2) ℝ)
    (ξ : Fin q → Fin 2 → ℝ) (Du Dû : Fin q → Matrix (Fin 2) (Fin 2) ℝ)
    (hφ : ∀ k, ∀ᶠ y in 𝓝 (ξ k), IsDeriv φ (J y) y) (hJd : ∀ k a i, DifferentiableAt ℝ (fun y => J y a i) (ξ k))
    (hdet : ∀ k, (J (ξ k)).det ≠ 0) (hu : ∀ k, IsDeriv u (Du k) (φ (ξ k)))
    (hpull : ∀ k, ∀ᶠ y in 𝓝 (ξ k), û y = u (φ y) ᵥ* J y) (hû : ∀ k, IsDeriv û (Dû k) (ξ k)) (k : Fin q) :
    parentToPhysicalCurl2 (storeJacobian fun k => J (ξ k)) (fun k => (û (ξ k), curl2 (Dû k))) k =
      some (u (φ (ξ k)), curl2 (Du k)) := by
  obtain ⟨H, hH, hD⟩ := covariant_deriv (hφ k) (hJd k) (hu k) (hpull k) (hû k)
  unfold parentToPhysicalCurl2
  rw [loadJ_store]
  dsimp only
  rw [show inv2 (J (ξ k)) = some (J (ξ k))⁻¹ from (inv2_eq _).trans (if_neg (hdet k)), Option.map_some, dotVM_eq, det2_eq,
    (hpull k).self_of_nhds, Matrix.vecMul_vecMul, Matrix.mul_nonsing_inv _ (hdet k).isUnit, Matrix.vecMul_one]
  congr 2
  rw [div_eq_iff (hdet k), curl2, curl2, hD, hD, Matrix.det_fin_two]
  simp only [Fin.sum_univ_two]
  linear_combination (u (φ (ξ k)) 0) * hH 0 1 0 + (u (φ (ξ k)) 1) * hH 1 1 0

/-- Trial side, Hcurl in space. -/
theorem C18_curl3_pull {q : ℕ} (φ u û : (Fin 3 → ℝ) → (Fin 3 → ℝ)) (J : (Fin 3 → ℝ) → Matrix (Fin 3) (Fin 3) ℝ)
    (ξ : Fin q → Fin 3 → ℝ) (Du Dû : Fin q → Matrix (Fin 3) (Fin 3) ℝ)
    (hφ : ∀ k, ∀ᶠ y in 𝓝 (ξ k), IsDeriv φ (J y) y) (hJd : ∀ k a i, DifferentiableAt ℝ (fun y => J y a i) (ξ k))
    (hdet : ∀ k, (J (ξ k)).det ≠ 0) (hu : ∀ k, IsDeriv u (Du k) (φ (ξ k)))
    (hpull : ∀ k, ∀ᶠ y in 𝓝 (ξ k), û y = u (φ y) ᵥ* J y) (hû : ∀ k, IsDeriv û (Dû k) (ξ k)) (k : Fin q) :
    parentToPhysicalCurl3 (storeJacobian fun k => J (ξ k)) (fun k => (û (ξ k), curl3 (Dû k))) k =
      some (u (φ (ξ k)), curl3 (Du k)) := by
  obtain ⟨H, hH, hD⟩ := covariant_deriv (hφ k) (hJd k) (hu k) (hpull k) (hû k)
  unfold parentToPhysicalCurl3
  rw [loadJ_store]
  dsimp only
  rw [show inv3 (J (ξ k)) = some (J (ξ k))⁻¹ from (inv3_eq _).trans (if_neg (hdet k)), Option.map_some, dotVM_eq, dotVM_eq, det3_eq,
    (hpull k).self_of_nhds, Matrix.vecMul_vecMul, Matrix.mul_nonsing_inv _ (hdet k).isUnit, Matrix.vecMul_one, divV_eq,
    Matrix.smul_vecMul, transpose_eq, Matrix.vecMul_transpose]
  congr 2
  rw [inv_smul_eq_iff₀ (hdet k)]
  have h1 : ∀ a, H a 1 0 = H a 0 1 := fun a => hH a 1 0
  have h2 : ∀ a, H a 2 0 = H a 0 2 := fun a => hH a 2 0
  have h3 : ∀ a, H a 2 1 = H a 1 2 := fun a => hH a 2 1
  funext i
  fin_cases i <;>
  · simp only [curl3, hD, Matrix.mulVec, dotProduct, Fin.sum_univ_three, Pi.smul_apply, smul_eq_mul, Matrix.det_fin_three, h1, h2, h3,
      Fin.isValue, Fin.reduceFinMk, Fin.mk_one, Fin.zero_eta, Matrix.cons_val]
    ring

/-- Test side, Hcurl in the plane: pointwise conservation.  The physical test function has value `w` and curl `curl2 Dw`; its covariant
pull-back has value `w · J` and curl `det J · curl2 Dw`, which is what `C18_curl2_pull` says of any pulled-back field. -/
theorem C18_curl2_push {q : ℕ} (J : Fin q → Matrix (Fin 2) (Fin 2) ℝ) (out : Fin q → Vec ℝ 2 × ℝ) (k : Fin q) (hJ : (J k).det ≠ 0) :
    ∃ r, physicalToParentCurl2 (storeJacobian J) out k = some r ∧
      ∀ (w : Fin 2 → ℝ) (cw : ℝ) (ŵ : Fin 2 → ℝ) (cŵ : ℝ),
        (parentToPhysicalCurl2 (storeJacobian J) (fun _ => (ŵ, cŵ)) k = some (w, cw)) →
        (∑ i, r.1 i * ŵ i) + r.2 * cŵ = (J k).det * ((∑ i, (out k).1 i * w i) + (out k).2 * cw) := by
  have hJT : ((J k)ᵀ).det ≠ 0 := by rwa [Matrix.det_transpose]
  refine ⟨(smulV ((out k).1 ᵥ* (J k)ᵀ⁻¹) (J k).det, (out k).2), ?_, fun w cw ŵ cŵ h => ?_⟩
  · unfold physicalToParentCurl2
    rw [loadJT_store]
    dsimp only
    rw [show inv2 (J k)ᵀ = some (J k)ᵀ⁻¹ from (inv2_eq _).trans (if_neg hJT), Option.map_some, dotVM_eq, det2_eq, Matrix.det_transpose]
  · unfold parentToPhysicalCurl2 at h
    rw [loadJ_store] at h
    dsimp only at h
    rw [show inv2 (J k) = some (J k)⁻¹ from (inv2_eq _).trans (if_neg hJ), Option.map_some, dotVM_eq, det2_eq, Option.some_inj,
      Prod.mk.injEq] at h
    obtain ⟨rfl, rfl⟩ := h
    have e : ((out k).1 ᵥ* (J k)ᵀ⁻¹) ⬝ᵥ ŵ = (out k).1 ⬝ᵥ (ŵ ᵥ* (J k)⁻¹) := by
      rw [← Matrix.dotProduct_mulVec, ← Matrix.transpose_nonsing_inv, Matrix.mulVec_transpose]
    have e' : (∑ i, smulV ((out k).1 ᵥ* (J k)ᵀ⁻¹) (J k).det i * ŵ i) = (J k).det * (((out k).1 ᵥ* (J k)ᵀ⁻¹) ⬝ᵥ ŵ) := by
      rw [smulV_eq, ← smul_eq_mul, ← smul_dotProduct]; rfl
    dsimp only
    rw [e', e, mul_add]
    congr 1
    field_simp

/-- Test side, Hcurl in space. -/
theorem C18_curl3_push {q : ℕ} (J : Fin q → Matrix (Fin 3) (Fin 3) ℝ) (out : Fin q → Vec ℝ 3 × Vec ℝ 3) (k : Fin q)
    (hJ : (J k).det ≠ 0) :
    ∃ r, physicalToParentCurl3 (storeJacobian J) out k = some r ∧
      ∀ (w cw ŵ cŵ : Fin 3 → ℝ),
        (parentToPhysicalCurl3 (storeJacobian J) (fun _ => (ŵ, cŵ)) k = some (w, cw)) →
        (∑ i, r.1 i * ŵ i) + (∑ i, r.2 i * cŵ i) =
          (J k).det * ((∑ i, (out k).1 i * w i) + ∑ i, (out k).2 i * cw i) := by
  have hJT : ((J k)ᵀ).det ≠ 0 := by rwa [Matrix.det_transpose]
  refine ⟨(smulV ((out k).1 ᵥ* (J k)ᵀ⁻¹) (J k).det, (out k).2 ᵥ* (J k)), ?_, fun w cw ŵ cŵ h => ?_⟩
  · unfold physicalToParentCurl3
    rw [loadJT_store]
    dsimp only
    rw [show inv3 (J k)ᵀ = some (J k)ᵀ⁻¹ from (inv3_eq _).trans (if_neg hJT), Option.map_some, dotVM_eq, dotVM_eq, det3_eq,
      Matrix.det_transpose, transpose_eq, Matrix.transpose_transpose]
  · unfold parentToPhysicalCurl3 at h
    rw [loadJ_store] at h
    dsimp only at h
    rw [show inv3 (J k) = some (J k)⁻¹ from (inv3_eq _).trans (if_neg hJ), Option.map_some, dotVM_eq, dotVM_eq, det3_eq, Option.some_inj,
      Prod.mk.injEq, divV_eq, Matrix.smul_vecMul, transpose_eq, Matrix.vecMul_transpose] at h
    obtain ⟨rfl, rfl⟩ := h
    have e : ((out k).1 ᵥ* (J k)ᵀ⁻¹) ⬝ᵥ ŵ = (out k).1 ⬝ᵥ (ŵ ᵥ* (J k)⁻¹) := by
      rw [← Matrix.dotProduct_mulVec, ← Matrix.transpose_nonsing_inv, Matrix.mulVec_transpose]
    have e' : (∑ i, smulV ((out k).1 ᵥ* (J k)ᵀ⁻¹) (J k).det i * ŵ i) = (J k).det * (((out k).1 ᵥ* (J k)ᵀ⁻¹) ⬝ᵥ ŵ) := by
      rw [smulV_eq, ← smul_eq_mul, ← smul_dotProduct]; rfl
    have e2 : (∑ i, ((out k).2 ᵥ* (J k)) i * cŵ i) = (J k).det * ((out k).2 ⬝ᵥ ((J k).det⁻¹ • ((J k) *ᵥ cŵ))) := by
      rw [dotProduct_smul, smul_eq_mul, ← mul_assoc, mul_inv_cancel₀ hJ, one_mul, Matrix.dotProduct_mulVec]; rfl
    dsimp only
    rw [e', e, e2, mul_add]
    rfl

/-- The weak form on an element, Hcurl trial and test functions in space. -/
theorem C18_weak_form_curl3 (qf : Vec ℝ 3 → Vec ℝ 3 × Vec ℝ 3 → Vec ℝ 3 × Vec ℝ 3) (K : Set (Fin 3 → ℝ)) (hK : MeasurableSet K)
    (φ : (Fin 3 → ℝ) → (Fin 3 → ℝ)) (J : (Fin 3 → ℝ) → Matrix (Fin 3) (Fin 3) ℝ)
    (hφ : ∀ ξ ∈ K, ∀ᶠ y in 𝓝 ξ, IsDeriv φ (J y) y) (hJd : ∀ ξ ∈ K, ∀ a i, DifferentiableAt ℝ (fun y => J y a i) ξ)
    (hinj : Set.InjOn φ K) (hpos : ∀ ξ ∈ K, 0 < (J ξ).det)
    (u w : (Fin 3 → ℝ) → (Fin 3 → ℝ)) (Du Dw : (Fin 3 → ℝ) → Matrix (Fin 3) (Fin 3) ℝ)
    (hu : ∀ x ∈ φ '' K, IsDeriv u (Du x) x) (hw : ∀ x ∈ φ '' K, IsDeriv w (Dw x) x)
    (Dû Dŵ : (Fin 3 → ℝ) → Matrix (Fin 3) (Fin 3) ℝ)
    (hû : ∀ ξ ∈ K, IsDeriv (fun y => u (φ y) ᵥ* J y) (Dû ξ) ξ) (hŵ : ∀ ξ ∈ K, IsDeriv (fun y => w (φ y) ᵥ* J y) (Dŵ ξ) ξ) :
    ∃ r : (Fin 3 → ℝ) → Vec ℝ 3 × Vec ℝ 3,
      (∀ ξ ∈ K, ((parentToPhysicalCurl3 (storeJacobian fun _ : Fin 1 => J ξ) (fun _ => (u (φ ξ) ᵥ* J ξ, curl3 (Dû ξ))) 0).bind fun a =>
        physicalToParentCurl3 (storeJacobian fun _ : Fin 1 => J ξ) (fun _ => qf (φ ξ) a) 0) = some (r ξ)) ∧
      ∫ ξ in K, ((∑ i, (r ξ).1 i * (w (φ ξ) ᵥ* J ξ) i) + ∑ i, (r ξ).2 i * curl3 (Dŵ ξ) i) =
        ∫ x in φ '' K, ((∑ i, (qf x (u x, curl3 (Du x))).1 i * w x i) + ∑ i, (qf x (u x, curl3 (Du x))).2 i * curl3 (Dw x) i) := by
  have key : ∀ ξ, ∃ r : Vec ℝ 3 × Vec ℝ 3, ξ ∈ K →
      ((parentToPhysicalCurl3 (storeJacobian fun _ : Fin 1 => J ξ) (fun _ => (u (φ ξ) ᵥ* J ξ, curl3 (Dû ξ))) 0).bind fun a =>
        physicalToParentCurl3 (storeJacobian fun _ : Fin 1 => J ξ) (fun _ => qf (φ ξ) a) 0) = some r ∧
      ((∑ i, r.1 i * (w (φ ξ) ᵥ* J ξ) i) + ∑ i, r.2 i * curl3 (Dŵ ξ) i) = (J ξ).det *
        ((∑ i, (qf (φ ξ) (u (φ ξ), curl3 (Du (φ ξ)))).1 i * w (φ ξ) i) +
          ∑ i, (qf (φ ξ) (u (φ ξ), curl3 (Du (φ ξ)))).2 i * curl3 (Dw (φ ξ)) i) := by
    intro ξ
    by_cases hξ : ξ ∈ K
    · obtain ⟨r, hr, hr'⟩ := C18_curl3_push (fun _ : Fin 1 => J ξ) (fun _ => qf (φ ξ) (u (φ ξ), curl3 (Du (φ ξ)))) 0 (hpos ξ hξ).ne'
      have pull : ∀ (v : (Fin 3 → ℝ) → (Fin 3 → ℝ)) (Dv Dv' : Matrix (Fin 3) (Fin 3) ℝ), IsDeriv v Dv (φ ξ) →
          IsDeriv (fun y => v (φ y) ᵥ* J y) Dv' ξ →
          parentToPhysicalCurl3 (storeJacobian fun _ : Fin 1 => J ξ) (fun _ => (v (φ ξ) ᵥ* J ξ, curl3 Dv')) 0 =
            some (v (φ ξ), curl3 Dv) := fun v Dv Dv' h h' =>
        C18_curl3_pull φ v (fun y => v (φ y) ᵥ* J y) J (fun _ : Fin 1 => ξ) (fun _ => Dv) (fun _ => Dv') (fun _ => hφ ξ hξ)
          (fun _ => hJd ξ hξ) (fun _ => (hpos ξ hξ).ne') (fun _ => h) (fun _ => Eventually.of_forall fun _ => rfl) (fun _ => h') 0
      refine ⟨r, fun _ => ⟨?_, ?_⟩⟩
      · rw [pull u (Du (φ ξ)) (Dû ξ) (hu _ ⟨ξ, hξ, rfl⟩) (hû ξ hξ), Option.bind_some]
        exact hr
      · exact hr' _ _ _ _ (pull w (Dw (φ ξ)) (Dŵ ξ) (hw _ ⟨ξ, hξ, rfl⟩) (hŵ ξ hξ))
    · exact ⟨(fun _ => 0, fun _ => 0), fun h => absurd h hξ⟩
  choose r hr using key
  refine ⟨r, fun ξ hξ => (hr ξ hξ).1, ?_⟩
  rw [integral_change hK (fun ξ hξ => (hφ ξ hξ).self_of_nhds) hinj
    (fun x => (∑ i, (qf x (u x, curl3 (Du x))).1 i * w x i) + ∑ i, (qf x (u x, curl3 (Du x))).2 i * curl3 (Dw x) i)
    (fun ξ => (∑ i, (r ξ).1 i * (w (φ ξ) ᵥ* J ξ) i) + ∑ i, (r ξ).2 i * curl3 (Dŵ ξ) i) 1
    (fun ξ hξ => by rw [abs_of_pos (hpos ξ hξ), one_mul]) (fun ξ hξ => (hr ξ hξ).2), one_mul]

/-- The weak form on an element, Hcurl trial and test functions in the plane. -/
theorem C18_weak_form_curl2 (qf : Vec ℝ 2 → Vec ℝ 2 × ℝ → Vec ℝ 2 × ℝ) (K : Set (Fin 2 → ℝ)) (hK : MeasurableSet K)
    (φ : (Fin 2 → ℝ) → (Fin 2 → ℝ)) (J : (Fin 2 → ℝ) → Matrix (Fin 2) (Fin 2) ℝ)
    (hφ : ∀ ξ ∈ K, ∀ᶠ y in 𝓝 ξ, IsDeriv φ (J y) y) (hJd : ∀ ξ ∈ K, ∀ a i, DifferentiableAt ℝ (fun y => J y a i) ξ)
    (hinj : Set.InjOn φ K) (hpos : ∀ ξ ∈ K, 0 < (J ξ).det)
    (u w : (Fin 2 → ℝ) → (Fin 2 → ℝ)) (Du Dw : (Fin 2 → ℝ) → Matrix (Fin 2) (Fin 2) ℝ)
    (hu : ∀ x ∈ φ '' K, IsDeriv u (Du x) x) (hw : ∀ x ∈ φ '' K, IsDeriv w (Dw x) x)
    (Dû Dŵ : (Fin 2 → ℝ) → Matrix (Fin 2) (Fin 2) ℝ)
    (hû : ∀ ξ ∈ K, IsDeriv (fun y => u (φ y) ᵥ* J y) (Dû ξ) ξ) (hŵ : ∀ ξ ∈ K, IsDeriv (fun y => w (φ y) ᵥ* J y) (Dŵ ξ) ξ) :
    ∃ r : (Fin 2 → ℝ) → Vec ℝ 2 × ℝ,
      (∀ ξ ∈ K, ((parentToPhysicalCurl2 (storeJacobian fun _ : Fin 1 => J ξ) (fun _ => (u (φ ξ) ᵥ* J ξ, curl2 (Dû ξ))) 0).bind fun a =>
        physicalToParentCurl2 (storeJacobian fun _ : Fin 1 => J ξ) (fun _ => qf (φ ξ) a) 0) = some (r ξ)) ∧
      ∫ ξ in K, ((∑ i, (r ξ).1 i * (w (φ ξ) ᵥ* J ξ) i) + (r ξ).2 * curl2 (Dŵ ξ)) =
        ∫ x in φ '' K, ((∑ i, (qf x (u x, curl2 (Du x))).1 i * w x i) + (qf x (u x, curl2 (Du x))).2 * curl2 (Dw x)) := by
  have key : ∀ ξ, ∃ r : Vec ℝ 2 × ℝ, ξ ∈ K →
      ((parentToPhysicalCurl2 (storeJacobian fun _ : Fin 1 => J ξ) (fun _ => (u (φ ξ) ᵥ* J ξ, curl2 (Dû ξ))) 0).bind fun a =>
        physicalToParentCurl2 (storeJacobian fun _ : Fin 1 => J ξ) (fun _ => qf (φ ξ) a) 0) = some r ∧
      ((∑ i, r.1 i * (w (φ ξ) ᵥ* J ξ) i) + r.2 * curl2 (Dŵ ξ)) = (J ξ).det *
        ((∑ i, (qf (φ ξ) (u (φ ξ), curl2 (Du (φ ξ)))).1 i * w (φ ξ) i) +
          (qf (φ ξ) (u (φ ξ), curl2 (Du (φ ξ)))).2 * curl2 (Dw (φ ξ))) := by
    intro ξ
    by_cases hξ : ξ ∈ K
    · obtain ⟨r, hr, hr'⟩ := C18_curl2_push (fun _ : Fin 1 => J ξ) (fun _ => qf (φ ξ) (u (φ ξ), curl2 (Du (φ ξ)))) 0 (hpos ξ hξ).ne'
      have pull : ∀ (v : (Fin 2 → ℝ) → (Fin 2 → ℝ)) (Dv Dv' : Matrix (Fin 2) (Fin 2) ℝ), IsDeriv v Dv (φ ξ) →
          IsDeriv (fun y => v (φ y) ᵥ* J y) Dv' ξ →
          parentToPhysicalCurl2 (storeJacobian fun _ : Fin 1 => J ξ) (fun _ => (v (φ ξ) ᵥ* J ξ, curl2 Dv')) 0 =
            some (v (φ ξ), curl2 Dv) := fun v Dv Dv' h h' =>
        C18_curl2_pull φ v (fun y => v (φ y) ᵥ* J y) J (fun _ : Fin 1 => ξ) (fun _ => Dv) (fun _ => Dv') (fun _ => hφ ξ hξ)
          (fun _ => hJd ξ hξ) (fun _ => (hpos ξ hξ).ne') (fun _ => h) (fun _ => Eventually.of_forall fun _ => rfl) (fun _ => h') 0
      refine ⟨r, fun _ => ⟨?_, ?_⟩⟩
      · rw [pull u (Du (φ ξ)) (Dû ξ) (hu _ ⟨ξ, hξ, rfl⟩) (hû ξ hξ), Option.bind_some]
        exact hr
      · exact hr' _ _ _ _ (pull w (Dw (φ ξ)) (Dŵ ξ) (hw _ ⟨ξ, hξ, rfl⟩) (hŵ ξ hξ))
    · exact ⟨(fun _ => 0, 0), fun h => absurd h hξ⟩
  choose r hr using key
  refine ⟨r, fun ξ hξ => (hr ξ hξ).1, ?_⟩
  rw [integral_change hK (fun ξ hξ => (hφ ξ hξ).self_of_nhds) hinj
    (fun x => (∑ i, (qf x (u x, curl2 (Du x))).1 i * w x i) + (qf x (u x, curl2 (Du x))).2 * curl2 (Dw x))
    (fun ξ => (∑ i, (r ξ).1 i * (w (φ ξ) ᵥ* J ξ) i) + (r ξ).2 * curl2 (Dŵ ξ)) 1
    (fun ξ hξ => by rw [abs_of_pos (hpos ξ hξ), one_mul]) (fun ξ hξ => (hr ξ hξ).2), one_mul]

/-! ## Non-vacuity: a sheared, stretched element -/

def exJ : Matrix (Fin 2) (Fin 2) ℝ := !![2, 1; 0, 3]

example : IsDeriv (fun x => exJ *ᵥ x) exJ ![1, 1] ∧ 0 < exJ.det ∧ Function.Injective (fun x => exJ *ᵥ x) := by
  refine ⟨(LinearMap.toContinuousLinearMap (Matrix.toLin' exJ)).hasFDerivAt, ?_, ?_⟩
  · simp [exJ, Matrix.det_fin_two]
  · intro a b h
    have h0 := congrFun h 0
    have h1 := congrFun h 1
    simp [exJ, Matrix.vecHead, Matrix.vecTail] at h0 h1
    ext i
    fin_cases i
    · simp only [Fin.zero_eta]; linarith
    · exact h1

/-- The mirrored element `x ↦ (x₁, x₀)` is invertible with negative determinant. -/
example : (!![0, 1; 1, 0] : Matrix (Fin 2) (Fin 2) ℝ).det < 0 := by simp [Matrix.det_fin_two]

end Serac.C18
