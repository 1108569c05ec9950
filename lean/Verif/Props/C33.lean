import Verif.Model.Piola
import Verif.Props.C31
/-!
# C33: stress-measure conversion and the geometric-nonlinearity switch

Spec.  With `F = I + ∇u` invertible and `J = det F`, the first Piola stress of a Kirchhoff stress `τ` is the `P` with `P Fᵀ = τ`, that of a
Cauchy stress `σ` the `P` with `P Fᵀ = J σ`.  Kirchhoff and Cauchy stresses are symmetric; the two conversion functions really compute with
`τᵀ`, so they are right exactly for symmetric stresses (`C33_kirchhoff_iff`).  The flux of the solid mechanics integrand transports any
stress.
-/

noncomputable section
namespace Serac.C33
open Serac.Tensor Serac.Piola Serac.Mat
open scoped Matrix

variable {d : ℕ}

/-- `det` and `inv` mean what they say. -/
structure Exact (o : Ops d) : Prop where
  det : ∀ A, o.det A = Matrix.det A
  inv : ∀ A, o.inv A = if Matrix.det A = 0 then none else some (A : Matrix (Fin d) (Fin d) ℝ)⁻¹

theorem exact2 : Exact ops2 := ⟨det2_eq, inv2_eq⟩
theorem exact3 : Exact ops3 := ⟨det3_eq, inv3_eq⟩

abbrev M (d : ℕ) := Matrix (Fin d) (Fin d) ℝ

theorem kirchhoff_eq {o : Ops d} (ho : Exact o) (τ H : M d) :
    kirchhoffToPiola o τ H = if (1 + H).det = 0 then none else some (τᵀ * ((1 + H)⁻¹)ᵀ) := by
  have hF : @Eq (M d) (fun i j => H i j + identity d i j) (1 + H) := by
    funext i j
    rw [identity_eq, Matrix.add_apply]
    ring
  rw [kirchhoffToPiola, hF, ho.inv]
  split
  · rfl
  · rw [Option.map_some, dot_eq, transpose_eq, Matrix.transpose_mul]

theorem cauchy_eq {o : Ops d} (ho : Exact o) (σ H : M d) :
    cauchyToPiola o σ H = if (1 + H).det = 0 then none else some ((1 + H).det • (σᵀ * ((1 + H)⁻¹)ᵀ)) := by
  have hF : @Eq (M d) (fun i j => H i j + identity d i j) (1 + H) := by
    funext i j
    rw [identity_eq, Matrix.add_apply]
    ring
  dsimp only [cauchyToPiola]
  rw [hF, ho.det]
  have : @Eq (M d) (fun i j => (1 + H).det * σ i j) ((1 + H).det • σ) := rfl
  rw [this, kirchhoff_eq ho, Matrix.transpose_smul, Matrix.smul_mul]

theorem flux_eq {o : Ops d} (ho : Exact o) (gn : GeomNonlin) (σ H : M d) :
    flux o gn σ H = if gn then (if (1 + H).det = 0 then none else some ((1 + H).det • (σ * ((1 + H)⁻¹)ᵀ))) else some σ := by
  have h0 : @Eq (M d) (fun i j => 0 * H i j + identity d i j) 1 := by
    funext i j
    rw [identity_eq]
    ring
  have h1 : @Eq (M d) (fun i j => 0 * H i j + identity d i j + H i j) (1 + H) := by
    funext i j
    rw [identity_eq, Matrix.add_apply]
    ring
  cases gn
  · change (o.inv fun i j => 0 * H i j + identity d i j).map (fun Finv => fun i j => dot σ (transpose Finv) i j *
      o.det fun i j => 0 * H i j + identity d i j) = some σ
    rw [h0, ho.inv, ho.det, Matrix.det_one, if_neg one_ne_zero, inv_one, Option.map_some]
    simp only [transpose_eq, Matrix.transpose_one, dot_eq, mul_one]
    rfl
  · change (o.inv fun i j => 0 * H i j + identity d i j + H i j).map (fun Finv => fun i j => dot σ (transpose Finv) i j *
      o.det fun i j => 0 * H i j + identity d i j + H i j) = if (1 + H).det = 0 then none else some ((1 + H).det • (σ * ((1 + H)⁻¹)ᵀ))
    rw [h1, ho.inv, ho.det]
    split
    · rfl
    · simp only [Option.map_some, transpose_eq, dot_eq]
      congr 1
      funext i j
      exact mul_comm _ _

private theorem unit_of {F : M d} (h : F.det ≠ 0) : IsUnit F.det := isUnit_iff_ne_zero.2 h

private theorem invT_mul {F : M d} (h : F.det ≠ 0) : (F⁻¹)ᵀ * Fᵀ = 1 := by
  rw [← Matrix.transpose_mul, Matrix.mul_nonsing_inv F (unit_of h), Matrix.transpose_one]

private theorem transport_iff {F A P : M d} (h : F.det ≠ 0) : P * Fᵀ = A ↔ P = A * (F⁻¹)ᵀ := by
  constructor
  · rintro rfl
    rw [Matrix.mul_assoc, ← Matrix.transpose_mul, Matrix.nonsing_inv_mul F (unit_of h), Matrix.transpose_one, Matrix.mul_one]
  · rintro rfl
    rw [Matrix.mul_assoc, invT_mul h, Matrix.mul_one]

/-! ## Theorems -/

/-- **C33, Kirchhoff to Piola.**  For every symmetric `τ` the result is defined exactly for invertible `F` and is the unique `P` with
`P Fᵀ = τ`. -/
theorem C33_kirchhoff {o : Ops d} (ho : Exact o) (τ H : M d) (hτ : τᵀ = τ) :
    ((kirchhoffToPiola o τ H).isSome ↔ (1 + H).det ≠ 0) ∧
      ((1 + H).det ≠ 0 → ∀ P : M d, kirchhoffToPiola o τ H = some P ↔ P * (1 + H)ᵀ = τ) := by
  rw [kirchhoff_eq ho, hτ]
  constructor
  · split <;> simp_all
  · intro h P
    rw [if_neg h, transport_iff h, Option.some_inj]
    exact eq_comm

/-- **C33, Cauchy to Piola.**  The unique `P` with `P Fᵀ = J σ`. -/
theorem C33_cauchy {o : Ops d} (ho : Exact o) (σ H : M d) (hσ : σᵀ = σ) :
    ((cauchyToPiola o σ H).isSome ↔ (1 + H).det ≠ 0) ∧
      ((1 + H).det ≠ 0 → ∀ P : M d, cauchyToPiola o σ H = some P ↔ P * (1 + H)ᵀ = (1 + H).det • σ) := by
  rw [cauchy_eq ho, hσ]
  constructor
  · split <;> simp_all
  · intro h P
    rw [if_neg h, transport_iff h, Option.some_inj, Matrix.smul_mul]
    exact eq_comm

/-- **C33, only for symmetric stresses.**  For an invertible `F` the transport identity holds if and only if the stress given is symmetric. -/
theorem C33_kirchhoff_iff {o : Ops d} (ho : Exact o) (τ H P : M d) (h : kirchhoffToPiola o τ H = some P) :
    P * (1 + H)ᵀ = τ ↔ τᵀ = τ := by
  rw [kirchhoff_eq ho] at h
  split at h
  · cases h
  · rename_i hd
    cases h
    rw [Matrix.mul_assoc, invT_mul hd, Matrix.mul_one]

/-- **C33, the integrand, switch on.**  For any stress, symmetric or not, the flux is the unique `P` with `P Fᵀ = J σ`; it carries the true
traction: `P N = σ (J F⁻ᵀ N)` for every reference normal `N` (Nanson's formula). -/
theorem C33_flux_on {o : Ops d} (ho : Exact o) (σ H : M d) :
    ((flux o true σ H).isSome ↔ (1 + H).det ≠ 0) ∧
      ((1 + H).det ≠ 0 → ∀ P : M d, flux o true σ H = some P ↔ P * (1 + H)ᵀ = (1 + H).det • σ) ∧
      ∀ P : M d, flux o true σ H = some P → ∀ N : Fin d → ℝ, P *ᵥ N = σ *ᵥ ((1 + H).det • (((1 + H)⁻¹)ᵀ *ᵥ N)) := by
  rw [flux_eq ho, if_pos rfl]
  refine ⟨?_, ?_, ?_⟩
  · split <;> simp_all
  · intro h P
    rw [if_neg h, transport_iff h, Option.some_inj, Matrix.smul_mul]
    exact eq_comm
  · intro P hP N
    split at hP
    · cases hP
    · cases hP
      rw [Matrix.smul_mulVec, Matrix.mulVec_smul, Matrix.mulVec_mulVec]

/-- **C33, the integrand, switch off.**  The stress is used unchanged, whatever the displacement gradient. -/
theorem C33_flux_off {o : Ops d} (ho : Exact o) (σ H : M d) : flux o false σ H = some σ := by
  rw [flux_eq ho]
  rfl

/-- **C33, both ways agree** on symmetric stresses. -/
theorem C33_agree {o : Ops d} (ho : Exact o) (σ H : M d) (hσ : σᵀ = σ) : cauchyToPiola o σ H = flux o true σ H := by
  rw [flux_eq ho, cauchy_eq ho, hσ, if_pos rfl]

/-- **C33, power conjugacy.**  For every rate `V` of the deformation gradient, `P : V = J σ : (V F⁻¹)`, and for symmetric `σ` the right side is
`J σ : sym (V F⁻¹)`. -/
theorem C33_power {o : Ops d} (ho : Exact o) (σ H P V : M d) (h : flux o true σ H = some P) :
    (∑ i, ∑ j, P i j * V i j) = (1 + H).det * (∑ i, ∑ j, σ i j * (V * (1 + H)⁻¹) i j) ∧
      (σᵀ = σ → (∑ i, ∑ j, σ i j * (V * (1 + H)⁻¹) i j) =
        ∑ i, ∑ j, σ i j * ((1 / 2 : ℝ) • (V * (1 + H)⁻¹ + (V * (1 + H)⁻¹)ᵀ)) i j) := by
  have tr2 : ∀ A B : M d, (∑ i, ∑ j, A i j * B i j) = (A * Bᵀ).trace := by
    intro A B
    simp [Matrix.trace, Matrix.mul_apply]
  rw [flux_eq ho, if_pos rfl] at h
  split at h
  · cases h
  cases h
  constructor
  · rw [tr2, tr2, Matrix.transpose_mul, Matrix.smul_mul, Matrix.trace_smul, smul_eq_mul, Matrix.mul_assoc]
  · intro hσ
    rw [tr2, tr2, Matrix.transpose_smul, Matrix.transpose_add, Matrix.transpose_transpose, Matrix.mul_smul, Matrix.mul_add, Matrix.trace_smul,
      Matrix.trace_add, smul_eq_mul]
    have : (σ * (V * (1 + H)⁻¹)).trace = (σ * (V * (1 + H)⁻¹)ᵀ).trace := by
      generalize V * (1 + H)⁻¹ = L
      rw [← Matrix.trace_transpose (σ * Lᵀ), Matrix.transpose_mul, Matrix.transpose_transpose, hσ, Matrix.trace_mul_comm]
    rw [this]
    ring

/-- **C33, angular momentum.**  A symmetric stress gives `P Fᵀ` symmetric. -/
theorem C33_angular {o : Ops d} (ho : Exact o) (σ H P : M d) (hσ : σᵀ = σ) (h : flux o true σ H = some P) :
    P * (1 + H)ᵀ = (1 + H) * Pᵀ := by
  have hd : (1 + H).det ≠ 0 := (C33_flux_on ho σ H).1.1 (by rw [h]; rfl)
  have h1 := ((C33_flux_on ho σ H).2.1 hd P).1 h
  have h2 := congrArg Matrix.transpose h1
  rw [Matrix.transpose_mul, Matrix.transpose_transpose, Matrix.transpose_smul, hσ] at h2
  rw [h1, h2]

/-- **C33, frame indifference of the flux.**  If the material is frame indifferent then rotating the deformed body rotates the flux from the
left. -/
theorem C33_frame {o : Ops d} (ho : Exact o) {material : M d → Option (M d)} (hm : C31.FrameIndifferent material) (Q H : M d)
    (hQ : C31.IsRotation Q) :
    materialFlux o true material (Q * (1 + H) - 1) = (materialFlux o true material H).map fun P => Q * P := by
  unfold materialFlux
  rw [hm Q H hQ]
  cases material H with
  | none => rfl
  | some σ =>
    rw [Option.map_some, Option.bind_some, Option.bind_some, flux_eq ho, flux_eq ho, if_pos rfl, if_pos rfl, C31.rotate, Matrix.det_mul, hQ.2,
      one_mul]
    split
    · rfl
    · rw [Option.map_some, Matrix.mul_smul]
      have hi : (Q * (1 + H))⁻¹ = (1 + H)⁻¹ * Qᵀ := by
        rw [Matrix.mul_inv_rev, Matrix.inv_eq_left_inv hQ.1]
      rw [hi, Matrix.transpose_mul, Matrix.transpose_transpose]
      congr 2
      rw [Matrix.mul_assoc (Q * σ), ← Matrix.mul_assoc Qᵀ, hQ.1, Matrix.one_mul, Matrix.mul_assoc]

/-! ### Stored energy -/

theorem inner_trace (A B : M d) : (∑ i, ∑ j, A i j * B i j) = (A * Bᵀ).trace := by
  simp [Matrix.trace, Matrix.mul_apply]

/-- Jacobi's formula at an invertible matrix, from the formula at the identity. -/
theorem jacobi (hj : ∀ (A : ℝ → M d) (A' : M d), A 0 = 1 → C31.HD A A' → HasDerivAt (fun t => (A t).det) A'.trace 0) (F : ℝ → M d) (F' : M d)
    (h0 : (F 0).det ≠ 0) (h : C31.HD F F') : HasDerivAt (fun t => (F t).det) ((F 0).det * ((F 0)⁻¹ * F').trace) 0 := by
  have hA : C31.HD (fun t => (F 0)⁻¹ * F t) ((F 0)⁻¹ * F') := ((C31.HD.const ((F 0)⁻¹)).mul h).congr (by rw [Matrix.zero_mul, zero_add])
  have h1 := (hj _ _ (Matrix.nonsing_inv_mul _ (unit_of h0)) hA).const_mul (F 0).det
  refine h1.congr_of_eventuallyEq (Filter.Eventually.of_forall fun t => ?_)
  dsimp only
  rw [← Matrix.det_mul, ← Matrix.mul_assoc, Matrix.mul_nonsing_inv _ (unit_of h0), Matrix.one_mul]

/-- Stored energy of the neo-Hookean model. -/
def energyNH (K G : ℝ) (H : M d) : ℝ :=
  G / 2 * (((1 + H) * (1 + H)ᵀ).trace - d) - G * Real.log (1 + H).det + (K - 2 / 3 * G) / 2 * Real.log (1 + H).det ^ 2

/-- Stored energy of the St. Venant-Kirchhoff model. -/
def energySVK (K G : ℝ) (H : M d) : ℝ :=
  let E : M d := (1 / 2 : ℝ) • ((1 + H)ᵀ * (1 + H) - 1)
  K / 2 * E.trace ^ 2 + G * ((E * E).trace - E.trace ^ 2 / d)

theorem nh_energy {o : Ops d} (ho : Exact o) (σ : M d → Option (M d)) (K G : ℝ)
    (hσ : ∀ H, σ H = if (1 + H).det ≤ 0 then none else
      some (((1 + H).det)⁻¹ • (((K - 2 / 3 * G) * Real.log (1 + H).det) • (1 : M d) + G • ((1 + H) * (1 + H)ᵀ - 1))))
    (hj : ∀ (A : ℝ → M d) (A' : M d), A 0 = 1 → C31.HD A A' → HasDerivAt (fun t => (A t).det) A'.trace 0)
    (H : ℝ → M d) (H' P : M d) (hH : ∀ i j, HasDerivAt (fun t => H t i j) (H' i j) 0) (hP : materialFlux o true σ (H 0) = some P) :
    HasDerivAt (fun t => energyNH K G (H t)) (∑ i, ∑ j, P i j * H' i j) 0 := by
  unfold materialFlux at hP
  rw [hσ] at hP
  split at hP
  · cases hP
  rename_i hpos
  push Not at hpos
  rw [Option.bind_some, flux_eq ho, if_pos rfl, if_neg hpos.ne'] at hP
  have hF : C31.HD (fun t => 1 + H t) H' := C31.one_add hH
  have hJ := jacobi hj _ _ hpos.ne' hF
  have hlog := hJ.log hpos.ne'
  have hB := (hF.mul hF.transpose).trace
  have hW := (((hB.sub_const (d : ℝ)).const_mul (G / 2)).sub (hlog.const_mul G)).add ((hlog.pow 2).const_mul ((K - 2 / 3 * G) / 2))
  refine hW.congr_deriv ?_
  cases hP
  rw [inner_trace]
  have hd := hpos.ne'
  generalize 1 + H 0 = F at hpos hd ⊢
  set L := Real.log F.det
  have e1 : (F⁻¹ * H').trace = ((F⁻¹)ᵀ * H'ᵀ).trace := by
    rw [← Matrix.trace_transpose, Matrix.transpose_mul, Matrix.trace_mul_comm]
  have e2 : (H' * Fᵀ).trace = (F * H'ᵀ).trace := by
    rw [← Matrix.trace_transpose, Matrix.transpose_mul, Matrix.transpose_transpose]
  have e3 : F.det • ((F.det)⁻¹ • (((K - 2 / 3 * G) * L) • (1 : M d) + G • (F * Fᵀ - 1)) * (F⁻¹)ᵀ) =
      ((K - 2 / 3 * G) * L) • (F⁻¹)ᵀ + G • (F - (F⁻¹)ᵀ) := by
    rw [Matrix.smul_mul, smul_smul, mul_inv_cancel₀ hd, one_smul, Matrix.add_mul, Matrix.smul_mul, Matrix.smul_mul, Matrix.one_mul, Matrix.sub_mul,
      Matrix.one_mul, Matrix.mul_assoc, ← Matrix.transpose_mul, Matrix.nonsing_inv_mul _ (unit_of hd), Matrix.transpose_one, Matrix.mul_one]
  rw [e3, Matrix.trace_add, e2, e1, Matrix.add_mul, Matrix.smul_mul, Matrix.smul_mul, Matrix.sub_mul, Matrix.trace_add, Matrix.trace_smul,
    Matrix.trace_smul, Matrix.trace_sub]
  simp only [smul_eq_mul]
  field_simp
  ring

theorem svk_energy {o : Ops d} (ho : Exact o) (K G : ℝ)
    (H : ℝ → M d) (H' P : M d) (hH : ∀ i j, HasDerivAt (fun t => H t i j) (H' i j) 0)
    (hP : materialFlux o true (stVenantKirchhoff o.det K G) (H 0) = some P) :
    P = (1 + H 0) * C31.svkS K G (H 0) ∧ HasDerivAt (fun t => energySVK K G (H t)) (∑ i, ∑ j, P i j * H' i j) 0 := by
  unfold materialFlux at hP
  rw [C31.svk_eq o.det ho.det] at hP
  split at hP
  · cases hP
  rename_i hd
  rw [Option.bind_some, flux_eq ho, if_pos rfl, if_neg hd] at hP
  have hPF : P = (1 + H 0) * C31.svkS K G (H 0) := by
    cases hP
    generalize 1 + H 0 = F at hd ⊢
    rw [Matrix.smul_mul, smul_smul, mul_inv_cancel₀ hd, one_smul, Matrix.mul_assoc, ← Matrix.transpose_mul, Matrix.nonsing_inv_mul _ (unit_of hd),
      Matrix.transpose_one, Matrix.mul_one]
  refine ⟨hPF, ?_⟩
  have hF : C31.HD (fun t => 1 + H t) H' := C31.one_add hH
  have hE := C31.HD.smul (hasDerivAt_const 0 (1 / 2 : ℝ)) ((hF.transpose.mul hF).sub (C31.HD.const 1))
  have hT := hE.trace
  have hEE := (hE.mul hE).trace
  have hW := ((hT.pow 2).const_mul (K / 2)).add ((hEE.sub ((hT.pow 2).div_const (d : ℝ))).const_mul G)
  refine hW.congr_deriv ?_
  rw [hPF, inner_trace, C31.svkS, C31.greenStrain_eq]
  have hsym : ((1 / 2 : ℝ) • ((1 + H 0)ᵀ * (1 + H 0) - 1))ᵀ = (1 / 2 : ℝ) • ((1 + H 0)ᵀ * (1 + H 0) - 1) := by
    rw [← C31.greenStrain_eq, C31.greenStrain_symm]
  generalize hEdef : (1 / 2 : ℝ) • ((1 + H 0)ᵀ * (1 + H 0) - 1) = E at hsym ⊢
  generalize 1 + H 0 = F
  simp only [zero_smul, zero_add, sub_zero]
  have e1 : (H'ᵀ * F).trace = (F * H'ᵀ).trace := Matrix.trace_mul_comm _ _
  have e2 : (Fᵀ * H').trace = (F * H'ᵀ).trace := by
    rw [← Matrix.trace_transpose, Matrix.transpose_mul, Matrix.transpose_transpose, Matrix.trace_mul_comm]
  have e3 : (E * (H'ᵀ * F)).trace = (F * E * H'ᵀ).trace := by
    rw [← Matrix.mul_assoc, Matrix.trace_mul_comm, Matrix.mul_assoc]
  have e4 : (E * (Fᵀ * H')).trace = (F * E * H'ᵀ).trace := by
    rw [← Matrix.trace_transpose, Matrix.transpose_mul, Matrix.transpose_mul, Matrix.transpose_transpose, hsym, Matrix.trace_mul_comm, e3]
  have e5 : ((H'ᵀ * F) * E).trace = (F * E * H'ᵀ).trace := by rw [Matrix.trace_mul_comm, e3]
  have e6 : ((Fᵀ * H') * E).trace = (F * E * H'ᵀ).trace := by rw [Matrix.trace_mul_comm, e4]
  simp only [Matrix.trace_add, Matrix.trace_smul, Matrix.mul_add, Matrix.add_mul, Matrix.mul_smul, Matrix.smul_mul, Matrix.mul_sub, Matrix.sub_mul,
    Matrix.trace_sub, Matrix.mul_one, smul_eq_mul, e1, e2, e3, e4, e5, e6]
  ring

/-- **C33, the flux is the gradient of a stored energy** (switch on): along every differentiable path of deformations the energy changes at the
rate `P : Ḟ`, so no closed path produces or consumes work.  Neo-Hookean and St. Venant-Kirchhoff models in two and three dimensions. -/
theorem C33_energy (K G : ℝ) :
    (∀ (H : ℝ → M 2) (H' P : M 2), (∀ i j, HasDerivAt (fun t => H t i j) (H' i j) 0) →
      (materialFlux ops2 true (nh2 K G) (H 0) = some P → HasDerivAt (fun t => energyNH K G (H t)) (∑ i, ∑ j, P i j * H' i j) 0) ∧
      (materialFlux ops2 true (svk2 K G) (H 0) = some P → HasDerivAt (fun t => energySVK K G (H t)) (∑ i, ∑ j, P i j * H' i j) 0)) ∧
    (∀ (H : ℝ → M 3) (H' P : M 3), (∀ i j, HasDerivAt (fun t => H t i j) (H' i j) 0) →
      (materialFlux ops3 true (nh3 K G) (H 0) = some P → HasDerivAt (fun t => energyNH K G (H t)) (∑ i, ∑ j, P i j * H' i j) 0) ∧
      (materialFlux ops3 true (svk3 K G) (H 0) = some P → HasDerivAt (fun t => energySVK K G (H t)) (∑ i, ∑ j, P i j * H' i j) 0)) :=
  ⟨fun H H' P hH => ⟨fun h => nh_energy exact2 _ K G (C31.nh_eq _ C31.det2' K G) C31.jacobi2 H H' P hH h,
      fun h => (svk_energy exact2 K G H H' P hH h).2⟩,
    fun H H' P hH => ⟨fun h => nh_energy exact3 _ K G (C31.nh_eq _ C31.det3' K G) C31.jacobi3 H H' P hH h,
      fun h => (svk_energy exact3 K G H H' P hH h).2⟩⟩

/-! ### Examples -/

/-- Simple shear with a symmetric stress: the deformation is invertible, so the conversion is defined. -/
example : (kirchhoffToPiola ops2 !![1, 2; 2, 5] !![0, 3; 0, 0]).isSome :=
  (C33_kirchhoff exact2 !![1, 2; 2, 5] !![0, 3; 0, 0] (by ext i j; fin_cases i <;> fin_cases j <;> rfl)).1.2
    (by simp [Matrix.det_fin_two])

/-- A non-symmetric stress is converted wrongly. -/
example (P : M 2) (h : kirchhoffToPiola ops2 !![0, 1; 0, 0] !![0, 3; 0, 0] = some P) : P * (1 + !![0, 3; 0, 0])ᵀ ≠ !![0, 1; 0, 0] := by
  intro hP
  have := (C33_kirchhoff_iff exact2 _ _ P h).1 hP
  have := congrFun (congrFun this 0) 1
  simp [Matrix.transpose_apply] at this

/-- The identity is a rotation, the neo-Hookean model is frame indifferent: the hypotheses of `C33_frame` are met. -/
example : C31.FrameIndifferent (nh3 1 1) ∧ C31.IsRotation (1 : M 3) := ⟨(C31.C31_neoHookean 1 1).2.2.2, by simp [C31.IsRotation]⟩

end Serac.C33
