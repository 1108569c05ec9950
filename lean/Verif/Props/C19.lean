import Verif.Props.C18
/-!
# C19: shape-aware integrals equal integrals on the displaced mesh

Spec.  The undisplaced element is `φ(K)`, the displacement is a field `p` on it, and the displaced element is the image of
`ψ = φ + p ∘ φ`.  The plain kernels of C18, run on `ψ`, are the reference: C18 says they compute the physical integral there.

* `C19_*_trial`, `C19_*_test`, `C19_QOI_test`: correcting the undisplaced data gives exactly the data of the plain transform run with the
  displaced Jacobian, for every pair of invertible matrices.
* `C19_weak_form_H1`: hence the shape-aware kernel integrates over the displaced element.
* `C19_boundary2/3`, `C19_area`: boundary integrals.
* `C19_curl3_trial_partial` / `C19_curl3_wrong`: for three-dimensional curl-space trial functions the code omits the division by the
  determinant (shape_aware_functional.hpp:81, compare line 77 and finite_element.hpp:266), so the curl handed to the q-function is
  `det(I + ∂p/∂X)` times the curl on the displaced element: it is wrong exactly when that determinant is not one and the curl is not zero.
-/

noncomputable section
namespace Serac.C19
open Serac.Tensor Serac.Transform Serac.C18 Matrix MeasureTheory Filter Topology

/-- The Jacobian of the displaced map: `∂x/∂ξ = (I + ∂p/∂X) ∂X/∂ξ`. -/
theorem C19_displaced_map {n : ℕ} (φ p : (Fin n → ℝ) → (Fin n → ℝ)) (J P : Matrix (Fin n) (Fin n) ℝ) (ξ : Fin n → ℝ)
    (hφ : IsDeriv φ J ξ) (hp : IsDeriv p P (φ ξ)) : IsDeriv (fun y => φ y + p (φ y)) ((1 + P) * J) ξ := by
  have h := HasFDerivAt.add hφ (hp.comp hφ)
  refine HasFDerivAt.congr_fderiv h (ContinuousLinearMap.ext fun v => ?_)
  simp [Matrix.add_mul]

/-- The position argument: value and reference derivative of the displaced map. -/
theorem C19_position (d : Dim) (φ p : (Fin d.n → ℝ) → (Fin d.n → ℝ)) (J P : Matrix (Fin d.n) (Fin d.n) ℝ) (ξ : Fin d.n → ℝ)
    (hφ : IsDeriv φ J ξ) (hp : IsDeriv p P (φ ξ)) :
    (shapedPosition d (φ ξ) (p (φ ξ)) J P).1 = φ ξ + p (φ ξ) ∧
      IsDeriv (fun y => φ y + p (φ y)) (shapedPosition d (φ ξ) (p (φ ξ)) J P).2 ξ := by
  refine ⟨rfl, ?_⟩
  have h := C19_displaced_map φ p J P ξ hφ hp
  rw [Matrix.add_mul, Matrix.one_mul] at h
  unfold shapedPosition
  rw [dot_eq]
  exact h

theorem mk_eq (d : Dim) (P : Matrix (Fin d.n) (Fin d.n) ℝ) (h : (1 + P).det ≠ 0) :
    mkShapeCorrection d P = some ⟨1 + P, (1 + P).det, (1 + P)⁻¹, (1 + P)⁻¹ᵀ⟩ := by
  unfold mkShapeCorrection
  rw [identity_eq, addM_eq]
  dsimp only
  rw [inv_eq d _ h, Option.map_some, det_eq, transpose_eq]

section
variable {q : ℕ}

theorem det_mul_ne {n : ℕ} {A B : Matrix (Fin n) (Fin n) ℝ} (hA : A.det ≠ 0) (hB : B.det ≠ 0) : (A * B).det ≠ 0 := by
  rw [Matrix.det_mul]; exact mul_ne_zero hA hB

/-- Trial data, H1 and L2. -/
theorem C19_H1_trial (d : Dim) {c : ℕ} (J P : Fin q → Matrix (Fin d.n) (Fin d.n) ℝ) (u : Fin q → Vec ℝ c × Mat ℝ c d.n) (k : Fin q)
    (hJ : (J k).det ≠ 0) (hP : (1 + P k).det ≠ 0) :
    ∃ s, mkShapeCorrection d (P k) = some s ∧
      (parentToPhysicalH1 d (storeJacobian J) u k).map s.trialH1 =
        parentToPhysicalH1 d (storeJacobian fun k => (1 + P k) * J k) u k := by
  refine ⟨_, mk_eq d (P k) hP, ?_⟩
  unfold parentToPhysicalH1
  simp only [loadJ_store]
  rw [inv_eq d _ hJ, inv_eq d _ (det_mul_ne hP hJ)]
  simp only [Option.map_some, ShapeCorrection.trialH1, dot_eq, Matrix.mul_inv_rev, Matrix.mul_assoc]

/-- Test data, H1 and L2: every q-function output. -/
theorem C19_H1_test (d : Dim) {c : ℕ} (J P : Fin q → Matrix (Fin d.n) (Fin d.n) ℝ) (v : Fin q → Vec ℝ c × Mat ℝ c d.n) (k : Fin q)
    (hJ : (J k).det ≠ 0) (hP : (1 + P k).det ≠ 0) :
    ∃ s, mkShapeCorrection d (P k) = some s ∧
      physicalToParentH1 d (storeJacobian J) (fun k => s.testH1 (v k)) k =
        physicalToParentH1 d (storeJacobian fun k => (1 + P k) * J k) v k := by
  refine ⟨_, mk_eq d (P k) hP, ?_⟩
  unfold physicalToParentH1
  simp only [loadJT_store]
  rw [inv_eq d _ (by rwa [Matrix.det_transpose]), inv_eq d _ (by rw [Matrix.det_transpose]; exact det_mul_ne hP hJ)]
  simp only [Option.map_some, ShapeCorrection.testH1, dot_eq, det_eq, Matrix.det_transpose, Matrix.det_mul, smulM_eq, smulV_eq, smul_smul,
    Matrix.transpose_mul, Matrix.mul_inv_rev, Matrix.smul_mul, Matrix.transpose_nonsing_inv, Matrix.mul_assoc]

/-- Quantities of interest. -/
theorem C19_QOI_test (d : Dim) (J P : Fin q → Matrix (Fin d.n) (Fin d.n) ℝ) (v : Fin q → ℝ) (k : Fin q)
    (hP : (1 + P k).det ≠ 0) :
    ∃ s, mkShapeCorrection d (P k) = some s ∧
      physicalToParentQOI d (storeJacobian J) (fun k => s.testQOI (v k)) k =
        physicalToParentQOI d (storeJacobian fun k => (1 + P k) * J k) v k := by
  refine ⟨_, mk_eq d (P k) hP, ?_⟩
  simp only [physicalToParentQOI, loadJT_store, ShapeCorrection.testQOI, det_eq, Matrix.det_transpose, Matrix.det_mul]
  ring

/-- Trial data, Hcurl in the plane. -/
theorem C19_curl2_trial (J P : Fin q → Matrix (Fin 2) (Fin 2) ℝ) (u : Fin q → Vec ℝ 2 × ℝ) (k : Fin q)
    (hJ : (J k).det ≠ 0) (hP : (1 + P k).det ≠ 0) :
    ∃ s, mkShapeCorrection .two (P k) = some s ∧
      (parentToPhysicalCurl2 (storeJacobian J) u k).map s.trialCurl2 =
        parentToPhysicalCurl2 (storeJacobian fun k => (1 + P k) * J k) u k := by
  refine ⟨_, mk_eq .two (P k) hP, ?_⟩
  have i1 : inv2 (J k) = some (J k)⁻¹ := (inv2_eq _).trans (if_neg hJ)
  have i2 : inv2 ((1 + P k) * J k) = some ((1 + P k) * J k)⁻¹ := (inv2_eq _).trans (if_neg (det_mul_ne hP hJ))
  unfold parentToPhysicalCurl2
  simp only [loadJ_store]
  rw [i1, i2]
  simp only [Option.map_some, ShapeCorrection.trialCurl2, dotVM_eq, det2_eq, Matrix.det_mul, Matrix.mul_inv_rev, Matrix.vecMul_vecMul]
  rw [div_div, mul_comm]

/-- Test data, Hcurl in the plane. -/
theorem C19_curl2_test (J P : Fin q → Matrix (Fin 2) (Fin 2) ℝ) (v : Fin q → Vec ℝ 2 × ℝ) (k : Fin q)
    (hJ : (J k).det ≠ 0) (hP : (1 + P k).det ≠ 0) :
    ∃ s, mkShapeCorrection .two (P k) = some s ∧
      physicalToParentCurl2 (storeJacobian J) (fun k => s.testCurl2 (v k)) k =
        physicalToParentCurl2 (storeJacobian fun k => (1 + P k) * J k) v k := by
  refine ⟨_, mk_eq .two (P k) hP, ?_⟩
  have i1 : inv2 (J k)ᵀ = some (J k)ᵀ⁻¹ := (inv2_eq _).trans (if_neg (by rwa [Matrix.det_transpose]))
  have i2 : inv2 ((1 + P k) * J k)ᵀ = some ((1 + P k) * J k)ᵀ⁻¹ :=
    (inv2_eq _).trans (if_neg (by rw [Matrix.det_transpose]; exact det_mul_ne hP hJ))
  unfold physicalToParentCurl2
  simp only [loadJT_store]
  rw [i1, i2]
  simp only [Option.map_some, ShapeCorrection.testCurl2, dotVM_eq, det2_eq, Matrix.det_transpose, Matrix.det_mul, smulV_eq, smul_smul,
    Matrix.transpose_mul, Matrix.mul_inv_rev, Matrix.smul_vecMul, Matrix.vecMul_vecMul, Matrix.transpose_nonsing_inv]

/-- Test data, Hcurl in space. -/
theorem C19_curl3_test (J P : Fin q → Matrix (Fin 3) (Fin 3) ℝ) (v : Fin q → Vec ℝ 3 × Vec ℝ 3) (k : Fin q)
    (hJ : (J k).det ≠ 0) (hP : (1 + P k).det ≠ 0) :
    ∃ s, mkShapeCorrection .three (P k) = some s ∧
      physicalToParentCurl3 (storeJacobian J) (fun k => s.testCurl3 (v k)) k =
        physicalToParentCurl3 (storeJacobian fun k => (1 + P k) * J k) v k := by
  refine ⟨_, mk_eq .three (P k) hP, ?_⟩
  have i1 : inv3 (J k)ᵀ = some (J k)ᵀ⁻¹ := (inv3_eq _).trans (if_neg (by rwa [Matrix.det_transpose]))
  have i2 : inv3 ((1 + P k) * J k)ᵀ = some ((1 + P k) * J k)ᵀ⁻¹ :=
    (inv3_eq _).trans (if_neg (by rw [Matrix.det_transpose]; exact det_mul_ne hP hJ))
  unfold physicalToParentCurl3
  simp only [loadJT_store]
  rw [i1, i2]
  simp only [Option.map_some, ShapeCorrection.testCurl3, dotVM_eq, det3_eq, Matrix.det_transpose, Matrix.det_mul, smulV_eq, smul_smul,
    Matrix.transpose_mul, Matrix.mul_inv_rev, Matrix.smul_vecMul, Matrix.vecMul_vecMul, Matrix.transpose_nonsing_inv,
    transpose_eq, Matrix.transpose_transpose]

/-- Trial data, Hcurl in space: the value is the one on the displaced element, the curl is off by the factor `det(I + ∂p/∂X)`. -/
theorem C19_curl3_trial_partial (J P : Fin q → Matrix (Fin 3) (Fin 3) ℝ) (u : Fin q → Vec ℝ 3 × Vec ℝ 3) (k : Fin q)
    (hJ : (J k).det ≠ 0) (hP : (1 + P k).det ≠ 0) :
    ∃ s val curl, mkShapeCorrection .three (P k) = some s ∧
      parentToPhysicalCurl3 (storeJacobian fun k => (1 + P k) * J k) u k = some (val, curl) ∧
      (parentToPhysicalCurl3 (storeJacobian J) u k).map s.trialCurl3 = some (val, (1 + P k).det • curl) := by
  refine ⟨_, (u k).1 ᵥ* ((1 + P k) * J k)⁻¹, ((1 + P k) * J k).det⁻¹ • ((u k).2 ᵥ* ((1 + P k) * J k)ᵀ), mk_eq .three (P k) hP, ?_, ?_⟩
  · have i2 : inv3 ((1 + P k) * J k) = some ((1 + P k) * J k)⁻¹ := (inv3_eq _).trans (if_neg (det_mul_ne hP hJ))
    unfold parentToPhysicalCurl3
    simp only [loadJ_store]
    rw [i2]
    simp only [Option.map_some, dotVM_eq, det3_eq, divV_eq, transpose_eq, Matrix.smul_vecMul]
  · have i1 : inv3 (J k) = some (J k)⁻¹ := (inv3_eq _).trans (if_neg hJ)
    unfold parentToPhysicalCurl3
    simp only [loadJ_store]
    rw [i1]
    simp only [Option.map_some, ShapeCorrection.trialCurl3, dotVM_eq, det3_eq, divV_eq, transpose_eq, Matrix.smul_vecMul,
      Matrix.vecMul_vecMul, Matrix.mul_inv_rev, Matrix.transpose_mul, Matrix.det_mul, smul_smul]
    rw [mul_inv, ← mul_assoc, mul_inv_cancel₀ hP, one_mul]

/-- The catalogue statement fails for every such point with nonzero reference curl and a volume-changing displacement. -/
theorem C19_curl3_wrong (J P : Fin q → Matrix (Fin 3) (Fin 3) ℝ) (u : Fin q → Vec ℝ 3 × Vec ℝ 3) (k : Fin q)
    (hJ : (J k).det ≠ 0) (hP : (1 + P k).det ≠ 0) (s : ShapeCorrection .three) (hs : mkShapeCorrection .three (P k) = some s) :
    (parentToPhysicalCurl3 (storeJacobian J) u k).map s.trialCurl3 =
        parentToPhysicalCurl3 (storeJacobian fun k => (1 + P k) * J k) u k ↔ ((1 + P k).det = 1 ∨ (u k).2 = 0) := by
  have i2 : inv3 ((1 + P k) * J k) = some ((1 + P k) * J k)⁻¹ := (inv3_eq _).trans (if_neg (det_mul_ne hP hJ))
  obtain ⟨s', val, curl, hs', h1, h2⟩ := C19_curl3_trial_partial J P u k hJ hP
  obtain rfl : s = s' := Option.some_inj.1 (hs.symm.trans hs')
  have hc : curl = ((1 + P k) * J k).det⁻¹ • ((u k).2 ᵥ* ((1 + P k) * J k)ᵀ) := by
    unfold parentToPhysicalCurl3 at h1
    simp only [loadJ_store] at h1
    rw [i2] at h1
    simp only [Option.map_some, dotVM_eq, det3_eq, divV_eq, transpose_eq, Matrix.smul_vecMul, Option.some_inj, Prod.mk.injEq] at h1
    exact h1.2.symm
  have hz : curl = 0 ↔ (u k).2 = 0 := by
    rw [hc, smul_eq_zero_iff_right (inv_ne_zero (det_mul_ne hP hJ))]
    constructor
    · intro h
      have hu : IsUnit ((1 + P k) * J k)ᵀ.det := by rw [Matrix.det_transpose]; exact (det_mul_ne hP hJ).isUnit
      have := congrArg (fun v => v ᵥ* ((1 + P k) * J k)ᵀ⁻¹) h
      simpa only [Matrix.vecMul_vecMul, Matrix.mul_nonsing_inv _ hu, Matrix.vecMul_one, Matrix.zero_vecMul] using this
    · intro h; rw [h, Matrix.zero_vecMul]
  rw [h1, h2, ← hz, Option.some_inj, Prod.mk.injEq]
  constructor
  · rintro ⟨-, h⟩
    by_cases hd : (1 + P k).det = 1
    · exact Or.inl hd
    · refine Or.inr ?_
      have : ((1 + P k).det - 1) • curl = 0 := by rw [sub_smul, one_smul, h, sub_self]
      exact (smul_eq_zero.1 this).resolve_left (sub_ne_zero.2 hd)
  · rintro (h | h)
    · exact ⟨rfl, by rw [h, one_smul]⟩
    · exact ⟨rfl, by rw [h, smul_zero]⟩
end

/-! ## The whole kernel -/

/-- `ShapeAwareIntegrandWrapper` inside the domain kernel (shape_aware_functional.hpp:379-396 called from
domain_integral_kernels.hpp:176-216), H1/L2 trial and test spaces: the shape field goes through `parent_to_physical` like any H1 argument;
the integrand sees the shaped position and corrected trial data; its output is corrected, then pushed to the reference element. -/
def kernelShapedH1 (d : Dim) {c c' : ℕ} (qf : Vec ℝ d.n × Mat ℝ d.n d.n → Vec ℝ c × Mat ℝ c d.n → Vec ℝ c' × Mat ℝ c' d.n)
    (x : Vec ℝ d.n) (J : Mat ℝ d.n d.n) (p : Vec ℝ d.n × Mat ℝ d.n d.n) (u : Vec ℝ c × Mat ℝ c d.n) :
    Option (Vec ℝ c' × Mat ℝ c' d.n) :=
  (parentToPhysicalH1 d (storeJacobian fun _ : Fin 1 => J) (fun _ => p) 0).bind fun p =>
  (parentToPhysicalH1 d (storeJacobian fun _ : Fin 1 => J) (fun _ => u) 0).bind fun u =>
  (mkShapeCorrection d p.2).bind fun s =>
    physicalToParentH1 d (storeJacobian fun _ : Fin 1 => J)
      (fun _ => s.testH1 (qf (shapedPosition d x p.1 J p.2) (s.trialH1 u))) 0

/-- The shape-aware kernel at a point is the plain kernel of the displaced map at that point. -/
theorem C19_kernel (d : Dim) {c c' : ℕ} (qf : Vec ℝ d.n × Mat ℝ d.n d.n → Vec ℝ c × Mat ℝ c d.n → Vec ℝ c' × Mat ℝ c' d.n)
    (φ p : (Fin d.n → ℝ) → (Fin d.n → ℝ)) (ξ : Fin d.n → ℝ) (J P pr : Matrix (Fin d.n) (Fin d.n) ℝ) (u : Vec ℝ c × Mat ℝ c d.n)
    (hφ : IsDeriv φ J ξ) (hp : IsDeriv p P (φ ξ)) (hpr : IsDeriv (p ∘ φ) pr ξ) (hJ : J.det ≠ 0) (hP : (1 + P).det ≠ 0) :
    kernelShapedH1 d qf (φ ξ) J (p (φ ξ), pr) u =
      kernelPointH1 d (fun x => qf (x, (1 + P) * J)) (φ ξ + p (φ ξ)) ((1 + P) * J) u := by
  unfold kernelShapedH1 kernelPointH1
  rw [C18_H1_pull d φ p (fun _ : Fin 1 => ξ) (fun _ => J) (fun _ => P) (fun _ => (p (φ ξ), pr)) (fun _ => hφ) (fun _ => hJ)
    (fun _ => hp) (fun _ => rfl) (fun _ => hpr) 0, Option.bind_some]
  obtain ⟨s, hs, hu⟩ := C19_H1_trial d (fun _ : Fin 1 => J) (fun _ => P) (fun _ => u) 0 hJ hP
  rw [← hu, hs]
  cases parentToPhysicalH1 d (storeJacobian fun _ : Fin 1 => J) (fun _ => u) 0 with
  | none => rfl
  | some a =>
    rw [Option.bind_some, Option.bind_some, Option.map_some, Option.bind_some]
    obtain ⟨s', hs', ht⟩ := C19_H1_test d (fun _ : Fin 1 => J) (fun _ => P) (fun _ => qf (φ ξ + p (φ ξ), (1 + P) * J) (s.trialH1 a)) 0 hJ hP
    obtain rfl : s = s' := Option.some_inj.1 (hs.symm.trans hs')
    rw [← ht]
    have e : shapedPosition d (φ ξ) (p (φ ξ)) J P = (φ ξ + p (φ ξ), (1 + P) * J) := by
      unfold shapedPosition
      rw [dot_eq, addV_eq, addM_eq, Matrix.add_mul, Matrix.one_mul]
    dsimp only
    rw [e]

/-- Integrating the shape-aware kernel over the reference set is integrating the q-function over the displaced element, against the
trial and test fields *of the displaced element* (`u`, `w` are fields there, pulled back by `ψ = φ + p ∘ φ`). -/
theorem C19_weak_form_H1 (d : Dim) {c c' : ℕ} (qf : Vec ℝ d.n → Vec ℝ c × Mat ℝ c d.n → Vec ℝ c' × Mat ℝ c' d.n)
    (K : Set (Fin d.n → ℝ)) (hK : MeasurableSet K)
    (φ p ψ : (Fin d.n → ℝ) → (Fin d.n → ℝ)) (hψ : ∀ ξ, ψ ξ = φ ξ + p (φ ξ)) (J P pr : (Fin d.n → ℝ) → Matrix (Fin d.n) (Fin d.n) ℝ)
    (hφ : ∀ ξ ∈ K, IsDeriv φ (J ξ) ξ) (hp : ∀ ξ ∈ K, IsDeriv p (P ξ) (φ ξ)) (hpr : ∀ ξ ∈ K, IsDeriv (p ∘ φ) (pr ξ) ξ)
    (hinj : Set.InjOn ψ K) (hJ : ∀ ξ ∈ K, 0 < (J ξ).det) (hP : ∀ ξ ∈ K, 0 < (1 + P ξ).det)
    (u : (Fin d.n → ℝ) → (Fin c → ℝ)) (Du : (Fin d.n → ℝ) → Matrix (Fin c) (Fin d.n) ℝ) (hu : ∀ x ∈ ψ '' K, IsDeriv u (Du x) x)
    (w : (Fin d.n → ℝ) → (Fin c' → ℝ)) (Dw : (Fin d.n → ℝ) → Matrix (Fin c') (Fin d.n) ℝ) (hw : ∀ x ∈ ψ '' K, IsDeriv w (Dw x) x)
    (Dû : (Fin d.n → ℝ) → Matrix (Fin c) (Fin d.n) ℝ) (hû : ∀ ξ ∈ K, IsDeriv (u ∘ ψ) (Dû ξ) ξ)
    (Dŵ : (Fin d.n → ℝ) → Matrix (Fin c') (Fin d.n) ℝ) (hŵ : ∀ ξ ∈ K, IsDeriv (w ∘ ψ) (Dŵ ξ) ξ) :
    ∃ r : (Fin d.n → ℝ) → Vec ℝ c' × Mat ℝ c' d.n,
      (∀ ξ ∈ K, kernelShapedH1 d (fun x => qf x.1) (φ ξ) (J ξ) (p (φ ξ), pr ξ) (u (ψ ξ), Dû ξ) = some (r ξ)) ∧
      ∫ ξ in K, ((∑ i, (r ξ).1 i * w (ψ ξ) i) + ∑ i, ∑ j, (r ξ).2 i j * Dŵ ξ i j) =
        ∫ x in ψ '' K, ((∑ i, (qf x (u x, Du x)).1 i * w x i) + ∑ i, ∑ j, (qf x (u x, Du x)).2 i j * Dw x i j) := by
  have hψd : ∀ ξ ∈ K, IsDeriv ψ ((1 + P ξ) * J ξ) ξ := by
    intro ξ hξ
    rw [show ψ = fun y => φ y + p (φ y) from funext hψ]
    exact C19_displaced_map φ p (J ξ) (P ξ) ξ (hφ ξ hξ) (hp ξ hξ)
  obtain ⟨r, hr, hint⟩ := C18_weak_form_H1 d qf K hK ψ (fun ξ => (1 + P ξ) * J ξ) hψd hinj
    (fun ξ hξ => by rw [Matrix.det_mul]; exact mul_pos (hP ξ hξ) (hJ ξ hξ)) u Du hu w Dw hw Dû hû Dŵ hŵ
  refine ⟨r, fun ξ hξ => ?_, hint⟩
  rw [C19_kernel d (fun x => qf x.1) φ p ξ (J ξ) (P ξ) (pr ξ) (u (ψ ξ), Dû ξ) (hφ ξ hξ) (hp ξ hξ) (hpr ξ hξ) (hJ ξ hξ).ne' (hP ξ hξ).ne',
    ← hψ ξ]
  exact hr ξ hξ

/-! ## Boundary integrals -/

theorem sqrt_ne {n : ℕ} {v : Vec ℝ n} (h : v ≠ 0) : Serac.Transform.norm v ≠ 0 := by
  unfold Serac.Transform.norm
  rw [sqNormV_eq]
  intro h0
  apply h
  have hnn : ∀ i ∈ Finset.univ, 0 ≤ v i * v i := fun i _ => mul_self_nonneg _
  rw [Real.sqrt_eq_zero (Finset.sum_nonneg hnn), Finset.sum_eq_zero_iff_of_nonneg hnn] at h0
  funext i
  exact mul_self_eq_zero.1 (h0 i (Finset.mem_univ i))

/-- 3D boundary: the shape-aware integrand on the given face is the plain integrand on the displaced face (position and face Jacobian). -/
theorem C19_boundary3 {c q : ℕ} (qf : Vec ℝ 3 × Mat ℝ 3 2 → Vec ℝ c) (X : Fin q → Vec ℝ 3) (dX : Fin q → Mat ℝ 3 2)
    (p : Fin q → Vec ℝ 3 × Mat ℝ 3 2) (k : Fin q) (h : crossCols (dX k) ≠ 0) :
    boundaryApply3 (shapedBoundaryQf3 qf (p k)) (fun j k => X k j) (storeJacobian dX) k =
      boundaryApply3 qf (fun j k => (X k + (p k).1) j) (storeJacobian fun k => dX k + (p k).2) k := by
  unfold boundaryApply3 shapedBoundaryQf3 areaCorrection3
  simp only [smulV_eq, smul_smul]
  congr 1
  show Serac.Transform.norm (crossCols (dX k)) * (Serac.Transform.norm (crossCols (dX k + (p k).2)) / Serac.Transform.norm (crossCols (dX k))) =
    Serac.Transform.norm (crossCols (dX k + (p k).2))
  rw [mul_div_cancel₀ _ (sqrt_ne h)]

/-- 2D boundary. -/
theorem C19_boundary2 {c q : ℕ} (qf : Vec ℝ 2 × Vec ℝ 2 → Vec ℝ c) (X : Fin q → Vec ℝ 2) (dX : Fin q → Vec ℝ 2)
    (p : Fin q → Vec ℝ 2 × Vec ℝ 2) (k : Fin q) (h : crossFace2 (dX k) ≠ 0) :
    boundaryApply2 (shapedBoundaryQf2 qf (p k)) (fun j k => X k j) (fun _ j k => dX k j) k =
      boundaryApply2 qf (fun j k => (X k + (p k).1) j) (fun _ j k => (dX k + (p k).2) j) k := by
  unfold boundaryApply2 shapedBoundaryQf2 areaCorrection2
  simp only [smulV_eq, smul_smul]
  congr 1
  show Serac.Transform.norm (crossFace2 (dX k)) * (Serac.Transform.norm (crossFace2 (dX k + (p k).2)) / Serac.Transform.norm (crossFace2 (dX k))) =
    Serac.Transform.norm (crossFace2 (dX k + (p k).2))
  rw [mul_div_cancel₀ _ (sqrt_ne h)]

/-- The weight the boundary kernel multiplies by is the surface measure `√det(JᵀJ)`, in 3D and in 2D. -/
theorem C19_area (J : Mat ℝ 3 2) (t : Vec ℝ 2) :
    Serac.Transform.norm (crossCols J) = Real.sqrt (Jᵀ * J).det ∧ Serac.Transform.norm (crossFace2 t) = Real.sqrt (t 0 ^ 2 + t 1 ^ 2) := by
  unfold Serac.Transform.norm
  constructor
  · congr 1
    rw [sqNormV_eq, Matrix.det_fin_two]
    simp only [Matrix.mul_apply, Matrix.transpose_apply, Fin.sum_univ_three, crossCols, Fin.isValue, Matrix.cons_val]
    ring
  · congr 1
    rw [sqNormV_eq, Fin.sum_univ_two]
    show t 1 * t 1 + -t 0 * -t 0 = _
    ring

/-! ## Non-vacuity -/

def exP : Matrix (Fin 3) (Fin 3) ℝ := !![1, 0, 0; 0, 0, 0; 0, 0, 0]

/-- A stretch by two in one direction has determinant two, so a unit curl is doubled. -/
example : (1 + exP).det = 2 ∧ (1 + exP).det ≠ 1 := by
  have : (1 + exP).det = 2 := by
    rw [Matrix.det_fin_three]; simp [exP]; norm_num
  exact ⟨this, by rw [this]; norm_num⟩

example : ¬ ∀ s, mkShapeCorrection .three exP = some s →
    (parentToPhysicalCurl3 (storeJacobian fun _ : Fin 1 => 1) (fun _ => (![0, 0, 0], ![1, 0, 0])) 0).map s.trialCurl3 =
      parentToPhysicalCurl3 (storeJacobian fun _ : Fin 1 => (1 + exP) * 1) (fun _ => (![0, 0, 0], ![1, 0, 0])) 0 := by
  have hd : (1 + exP).det = 2 := by rw [Matrix.det_fin_three]; simp [exP]; norm_num
  intro h
  have hP : (1 + exP).det ≠ 0 := by rw [hd]; norm_num
  have := (C19_curl3_wrong (fun _ : Fin 1 => 1) (fun _ => exP) (fun _ => (![0, 0, 0], ![1, 0, 0])) 0 (by simp) hP _
    (mk_eq .three exP hP)).1 (h _ (mk_eq .three exP hP))
  rcases this with h1 | h1
  · rw [hd] at h1; norm_num at h1
  · have := congrFun h1 0
    simp at this

example : crossCols (!![1, 0; 0, 1; 0, 0] : Mat ℝ 3 2) ≠ 0 := by
  intro h
  have := congrFun h 2
  simp [crossCols] at this

end Serac.C19
