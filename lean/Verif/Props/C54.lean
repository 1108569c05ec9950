import Verif.Model.Thermoelastic
import Verif.Props.C33
/-!
# C54: the thermoelastic material obeys thermodynamics

Spec.  A material with free energy `ψ(H, θ)` obeys thermodynamics when, along every path of displacement gradients and temperatures, `ψ` changes at the rate
`P : Ḣ - η θ̇`, where `P` is the first Piola stress that the solid mechanics module derives from the returned Cauchy stress and `η = -∂ψ/∂θ` the entropy; when
the heat capacity is `θ ∂η/∂θ`; when the heat generated in a step at temperature `θ` is `-θ` times the change of entropy due to the strain; and when heat
flows from hot to cold.

Violation found: the adaptor that hands the material to the thermal module drops the heat source and always evaluates with a fresh state, so in the coupled
module deformation never heats or cools (`C54_coupling_wrong`).
-/

noncomputable section
namespace Serac.C54
open Serac.Tensor Serac.Mat Serac.Thermo Serac.Piola Serac.C33
open scoped Matrix Topology

/-! ## Spec -/

/-- Free energy where it is defined. -/
def psi (m : Material) (H : M 3) (θ : ℝ) : ℝ := (freeEnergy m H θ).getD 0

/-- Entropy: minus the derivative of the free energy with respect to temperature. -/
def entropy (m : Material) (H : M 3) (θ : ℝ) : ℝ := -deriv (fun θ => psi m H θ) θ

/-- Green's strain, written out. -/
def strain (H : M 3) : M 3 := (1 / 2 : ℝ) • ((1 + H)ᵀ * (1 + H) - 1)

/-- Admissible material data. -/
structure Good (m : Material) : Prop where
  nu1 : 1 - 2 * m.nu ≠ 0
  nu2 : 1 + m.nu ≠ 0
  ref : 0 < m.thetaRef

/-! ## Closed forms -/

theorem Good.moduli {m : Material} (h : Good m) : Moduli m := ⟨mul_ne_zero (by norm_num) h.nu1, h.nu2⟩

/-- Second Piola stress. -/
def thS (m : Material) (H : M 3) (θ : ℝ) : M 3 := C31.svkS (bulk m) (shear m) H - (3 * bulk m * m.alpha * (θ - m.thetaRef)) • (1 : M 3)

theorem respond_eq (m : Material) (s : ℝ) (H : M 3) (θ : ℝ) (g : Fin 3 → ℝ) (hm : Moduli m) :
    respond m s H θ g = if (1 + H).det = 0 then none else
      some (⟨((1 + H).det)⁻¹ • ((1 + H) * thS m H θ * (1 + H)ᵀ), m.Cv, -3 * bulk m * m.alpha * θ * ((strain H).trace - s), fun i => -m.k * g i⟩,
        (strain H).trace) := by
  have hF : @Eq (M 3) (fun i j => H i j + identity 3 i j) (1 + H) := by
    funext i j
    rw [identity_eq, Matrix.add_apply]
    ring
  have hS : @Eq (M 3) (fun i j => 2 * shear m * dev (greenStrain H) i j +
      bulk m * (tr (greenStrain H) - 3 * m.alpha * (θ - m.thetaRef)) * identity 3 i j) (thS m H θ) := by
    funext i j
    rw [identity_eq, tr_eq, dev_eq, thS, C31.svkS]
    simp only [Matrix.sub_apply, Matrix.add_apply, Matrix.smul_apply, smul_eq_mul]
    ring
  have hE : tr (greenStrain H) = (strain H).trace := by rw [tr_eq, C31.greenStrain_eq]; rfl
  unfold respond
  rw [if_neg (not_not.2 hm)]
  dsimp only
  rw [hF, hS, det3_eq, hE]
  simp only [dot_eq, transpose_eq]
  refine if_congr Iff.rfl rfl (congrArg some ?_)
  congr 2
  funext i j
  rw [Matrix.smul_apply, smul_eq_mul]
  ring

theorem freeEnergy_eq (m : Material) (hm : Good m) (H : M 3) (θ : ℝ) (hθ : 0 < θ) :
    freeEnergy m H θ = some (energySVK (bulk m) (shear m) H + m.Cv * (θ - m.thetaRef - θ * Real.log (θ / m.thetaRef)) -
      3 * bulk m * m.alpha * (θ - m.thetaRef) * (strain H).trace) := by
  unfold freeEnergy
  rw [if_neg]
  · refine congrArg some ?_
    have hE : tr (greenStrain H) = (strain H).trace := by rw [tr_eq, C31.greenStrain_eq]; rfl
    have hs := C31.greenStrain_symm H
    have hq : sqNorm (dev (greenStrain H)) = (strain H * strain H).trace - (strain H).trace ^ 2 / 3 := by
      rw [(C13.C13_products (0 : M 3) (0 : M 3) 0 0 0 (dev (greenStrain H)) (0 : M 3)).2.2.2.2.2.2.2.1, dev_eq, Matrix.transpose_sub, hs]
      have e : greenStrain H = strain H := C31.greenStrain_eq H
      rw [e]
      generalize strain H = E
      simp only [Matrix.transpose_smul, Matrix.transpose_one, Matrix.sub_mul, Matrix.mul_sub, Matrix.smul_mul, Matrix.mul_smul, Matrix.one_mul,
        Matrix.mul_one, Matrix.trace_sub, Matrix.trace_smul, Matrix.trace_one, Fintype.card_fin, smul_eq_mul]
      push_cast
      ring
    rw [hE, hq]
    unfold energySVK strain
    push_cast
    ring
  · rintro (h | h | h)
    · exact h hm.moduli
    · exact hm.ref.ne' h
    · exact absurd (div_pos hθ hm.ref) (not_lt.2 h)

theorem psi_eq (m : Material) (hm : Good m) (H : M 3) (θ : ℝ) (hθ : 0 < θ) :
    psi m H θ = energySVK (bulk m) (shear m) H + m.Cv * (θ - m.thetaRef - θ * Real.log (θ / m.thetaRef)) -
      3 * bulk m * m.alpha * (θ - m.thetaRef) * (strain H).trace := by
  rw [psi, freeEnergy_eq m hm H θ hθ, Option.getD_some]

theorem thermal_deriv (m : Material) (hm : Good m) (θ : ℝ) (hθ : 0 < θ) :
    HasDerivAt (fun θ => θ - m.thetaRef - θ * Real.log (θ / m.thetaRef)) (-Real.log (θ / m.thetaRef)) θ := by
  have h0 : θ / m.thetaRef ≠ 0 := (div_pos hθ hm.ref).ne'
  have h1 : HasDerivAt (fun θ => θ / m.thetaRef) (1 / m.thetaRef) θ := (hasDerivAt_id θ).div_const _
  refine (((hasDerivAt_id θ).sub_const m.thetaRef).sub ((hasDerivAt_id θ).mul (h1.log h0))).congr_deriv ?_
  have hr := hm.ref.ne'
  have ht := hθ.ne'
  simp only [id_eq]
  field_simp
  ring

theorem psi_deriv (m : Material) (hm : Good m) (H : M 3) (θ : ℝ) (hθ : 0 < θ) :
    HasDerivAt (fun θ => psi m H θ) (-(m.Cv * Real.log (θ / m.thetaRef) + 3 * bulk m * m.alpha * (strain H).trace)) θ := by
  have h : HasDerivAt (fun θ => energySVK (bulk m) (shear m) H + m.Cv * (θ - m.thetaRef - θ * Real.log (θ / m.thetaRef)) -
      3 * bulk m * m.alpha * (θ - m.thetaRef) * (strain H).trace) (-(m.Cv * Real.log (θ / m.thetaRef) + 3 * bulk m * m.alpha * (strain H).trace)) θ := by
    refine ((((thermal_deriv m hm θ hθ).const_mul m.Cv).const_add _).sub
      ((((hasDerivAt_id θ).sub_const m.thetaRef).const_mul (3 * bulk m * m.alpha)).mul_const (strain H).trace)).congr_deriv ?_
    ring
  refine h.congr_of_eventuallyEq ?_
  filter_upwards [lt_mem_nhds hθ] with t ht
  exact psi_eq m hm H t ht

theorem entropy_eq (m : Material) (hm : Good m) (H : M 3) (θ : ℝ) (hθ : 0 < θ) :
    entropy m H θ = m.Cv * Real.log (θ / m.thetaRef) + 3 * bulk m * m.alpha * (strain H).trace := by
  rw [entropy, (psi_deriv m hm H θ hθ).deriv, neg_neg]

/-! ## Theorems -/

/-- **C54, the stress and the entropy are the derivatives of the free energy**: along every differentiable path of displacement gradients and temperatures
the free energy is defined and changes at the rate `P : Ḣ - η θ̇`, `P` being the flux of the solid mechanics integrand for the returned Cauchy stress. -/
theorem C54_energy (m : Material) (hm : Good m) (s : ℝ) (g : Fin 3 → ℝ) (H : ℝ → M 3) (H' : M 3) (θ : ℝ → ℝ) (θ' : ℝ)
    (hH : ∀ i j, HasDerivAt (fun t => H t i j) (H' i j) 0) (hθ : HasDerivAt θ θ' 0) (hpos : 0 < θ 0) (r : Response) (s' : ℝ)
    (hr : respond m s (H 0) (θ 0) g = some (r, s')) (P : M 3) (hP : flux ops3 true r.sigma (H 0) = some P) :
    (∀ᶠ t in 𝓝 0, freeEnergy m (H t) (θ t) = some (psi m (H t) (θ t))) ∧
      HasDerivAt (fun t => psi m (H t) (θ t)) ((∑ i, ∑ j, P i j * H' i j) - entropy m (H 0) (θ 0) * θ') 0 := by
  have hev : ∀ᶠ t in 𝓝 (0 : ℝ), 0 < θ t := hθ.continuousAt.eventually (lt_mem_nhds hpos)
  refine ⟨by filter_upwards [hev] with t ht; rw [psi_eq m hm _ _ ht, freeEnergy_eq m hm _ _ ht], ?_⟩
  rw [respond_eq m s _ _ g hm.moduli] at hr
  split at hr
  · cases hr
  rename_i hd
  cases hr
  dsimp only at hP
  rw [flux_eq exact3, if_pos rfl, if_neg hd] at hP
  -- the isothermal elastic part
  have hP0 : materialFlux ops3 true (stVenantKirchhoff ops3.det (bulk m) (shear m)) (H 0) = some ((1 + H 0) * C31.svkS (bulk m) (shear m) (H 0)) := by
    unfold materialFlux
    rw [C31.svk_eq ops3.det exact3.det, if_neg hd, Option.bind_some, flux_eq exact3, if_pos rfl, if_neg hd, Matrix.smul_mul, smul_smul,
      mul_inv_cancel₀ hd, one_smul, Matrix.mul_assoc, ← Matrix.transpose_mul, Matrix.nonsing_inv_mul _ (isUnit_iff_ne_zero.2 hd), Matrix.transpose_one,
      Matrix.mul_one]
  have hW := (svk_energy exact3 (bulk m) (shear m) H H' _ hH hP0).2
  have hPe : P = (1 + H 0) * C31.svkS (bulk m) (shear m) (H 0) - (3 * bulk m * m.alpha * (θ 0 - m.thetaRef)) • (1 + H 0) := by
    have h2 := Option.some.inj hP
    rw [← h2, thS, Matrix.smul_mul, smul_smul, mul_inv_cancel₀ hd, one_smul, Matrix.mul_assoc, ← Matrix.transpose_mul,
      Matrix.nonsing_inv_mul _ (isUnit_iff_ne_zero.2 hd), Matrix.transpose_one, Matrix.mul_one, Matrix.mul_sub, Matrix.mul_smul, Matrix.mul_one]
  have hF : C31.HD (fun t => 1 + H t) H' := C31.one_add hH
  have hE := (C31.HD.smul (hasDerivAt_const 0 (1 / 2 : ℝ)) ((hF.transpose.mul hF).sub (C31.HD.const 1))).trace
  have hT := (thermal_deriv m hm (θ 0) hpos).comp (0 : ℝ) hθ
  have hall := (hW.add (hT.const_mul m.Cv)).sub (((hθ.sub_const m.thetaRef).const_mul (3 * bulk m * m.alpha)).mul hE)
  refine (hall.congr_of_eventuallyEq ?_).congr_deriv ?_
  · filter_upwards [hev] with t ht
    rw [psi_eq m hm _ _ ht]
    simp only [Pi.add_apply, Pi.sub_apply, Pi.mul_apply, Function.comp_apply, strain]
  · rw [entropy_eq m hm _ _ hpos, inner_trace, inner_trace, hPe]
    have e1 : (H'ᵀ * (1 + H 0)).trace = ((1 + H 0) * H'ᵀ).trace := Matrix.trace_mul_comm _ _
    have e2 : ((1 + H 0)ᵀ * H').trace = ((1 + H 0) * H'ᵀ).trace := by
      rw [← Matrix.trace_transpose, Matrix.transpose_mul, Matrix.transpose_transpose, Matrix.trace_mul_comm]
    unfold strain
    rw [Matrix.sub_mul, Matrix.trace_sub, Matrix.smul_mul, Matrix.trace_smul]
    simp only [zero_smul, zero_add, sub_zero, Matrix.trace_smul, Matrix.trace_add, e1, e2, smul_eq_mul]
    ring

/-- **C54, heat capacity**: the returned number is `θ ∂η/∂θ`. -/
theorem C54_capacity (m : Material) (hm : Good m) (s : ℝ) (H : M 3) (θ : ℝ) (hθ : 0 < θ) (g : Fin 3 → ℝ) (r : Response) (s' : ℝ)
    (hr : respond m s H θ g = some (r, s')) : ∃ c, HasDerivAt (fun θ => entropy m H θ) c θ ∧ r.heatCapacity = θ * c := by
  rw [respond_eq m s _ _ g hm.moduli] at hr
  split at hr
  · cases hr
  cases hr
  refine ⟨m.Cv * (1 / θ), ?_, by field_simp⟩
  have h0 : θ / m.thetaRef ≠ 0 := (div_pos hθ hm.ref).ne'
  have h1 : HasDerivAt (fun θ => θ / m.thetaRef) (1 / m.thetaRef) θ := (hasDerivAt_id θ).div_const _
  have h : HasDerivAt (fun θ => m.Cv * Real.log (θ / m.thetaRef) + 3 * bulk m * m.alpha * (strain H).trace) (m.Cv * (1 / θ)) θ := by
    refine (((h1.log h0).const_mul m.Cv).add_const _).congr_deriv ?_
    have hr := hm.ref.ne'
    have ht := hθ.ne'
    field_simp
  refine h.congr_of_eventuallyEq ?_
  filter_upwards [lt_mem_nhds hθ] with t ht
  exact entropy_eq m hm H t ht

/-- **C54, heat flows from hot to cold**, for every non-negative conductivity and only for those. -/
theorem C54_flux (m : Material) (hm : Moduli m) (s : ℝ) (H : M 3) (hd : (1 + H).det ≠ 0) (θ : ℝ) :
    (∀ g : Fin 3 → ℝ, ∃ r s', respond m s H θ g = some (r, s') ∧ (∑ i, r.flux i * g i) ≤ 0) ↔ 0 ≤ m.k := by
  have e : ∀ g : Fin 3 → ℝ, (∑ i, (-m.k * g i) * g i) = -(m.k * ∑ i, g i ^ 2) := fun g => by
    rw [Finset.mul_sum, ← Finset.sum_neg_distrib]; exact Finset.sum_congr rfl fun i _ => by ring
  constructor
  · intro h
    obtain ⟨r, s', hr, hle⟩ := h fun _ => 1
    rw [respond_eq m s _ _ _ hm, if_neg hd] at hr
    cases hr
    dsimp only at hle
    rw [e] at hle
    simp at hle
    linarith
  · intro hk g
    refine ⟨_, _, by rw [respond_eq m s _ _ _ hm, if_neg hd], ?_⟩
    dsimp only
    rw [e]
    exact neg_nonpos.2 (mul_nonneg hk (Finset.sum_nonneg fun i _ => sq_nonneg _))

/-- The displacement gradients in force before each of the steps. -/
def before (H0 : M 3) (steps : List (M 3 × ℝ × (Fin 3 → ℝ))) : List (M 3) := H0 :: steps.map Prod.fst

/-- **C54, heat of deformation**: for every sequence of steps from a state that belongs to `H0`, the heat generated in each step is minus the temperature
times the change of entropy, at that temperature, due to the change of strain in the step; and the state afterwards belongs to the last strain. -/
theorem C54_heat (m : Material) (hm : Good m) (H0 : M 3) (steps : List (M 3 × ℝ × (Fin 3 → ℝ))) (hpos : ∀ p ∈ steps, 0 < p.2.1)
    (rs : List Response) (s' : ℝ) (h : evolve m (strain H0).trace steps = some (rs, s')) :
    rs.length = steps.length ∧ s' = (strain ((before H0 steps).getLast (by simp [before]))).trace ∧
      ∀ (i : ℕ) (H Hp : M 3) (θ : ℝ) (g : Fin 3 → ℝ) (r : Response), rs[i]? = some r → steps[i]? = some (H, θ, g) → (before H0 steps)[i]? = some Hp →
        r.source = -θ * (entropy m H θ - entropy m Hp θ) := by
  induction steps generalizing H0 rs s' with
  | nil =>
    cases h
    exact ⟨rfl, rfl, fun i H Hp θ g r hr => by simp at hr⟩
  | cons p rest ih =>
    obtain ⟨H, θ, g⟩ := p
    unfold evolve at h
    rw [respond_eq m _ _ _ _ hm.moduli] at h
    split at h
    · cases h
    rw [Option.bind_eq_bind, Option.bind_some] at h
    dsimp only at h
    cases he : evolve m (strain H).trace rest with
    | none => rw [he] at h; cases h
    | some q =>
      obtain ⟨rs', t⟩ := q
      rw [he] at h
      cases h
      obtain ⟨i1, i2, i3⟩ := ih H (fun p hp => hpos p (List.mem_cons_of_mem _ hp)) rs' _ he
      refine ⟨by simp [i1], by rw [i2]; simp [before], ?_⟩
      intro i H' Hp θ' g' r hr hs hb
      cases i with
      | zero =>
        simp only [List.getElem?_cons_zero, before] at hr hs hb
        cases hr; cases hs; cases hb
        have hθ := hpos _ List.mem_cons_self
        rw [entropy_eq m hm _ _ hθ, entropy_eq m hm _ _ hθ]
        ring
      | succ i =>
        refine i3 i H' Hp θ' g' r (by simpa using hr) (by simpa using hs) ?_
        simpa [before] using hb

/-- **C54, no net heat in an isothermal cycle**: at constant temperature the heat generated over any number of steps depends only on the first and the last
strain, and is zero when they are the same. -/
theorem C54_cycle (m : Material) (hm : Good m) (θ : ℝ) (hθ : 0 < θ) (H0 : M 3) (steps : List (M 3 × ℝ × (Fin 3 → ℝ))) (hiso : ∀ p ∈ steps, p.2.1 = θ)
    (rs : List Response) (s' : ℝ) (h : evolve m (strain H0).trace steps = some (rs, s')) :
    (rs.map Response.source).sum = -θ * (entropy m ((before H0 steps).getLast (by simp [before])) θ - entropy m H0 θ) ∧
      (((before H0 steps).getLast (by simp [before])) = H0 → (rs.map Response.source).sum = 0) := by
  have key : (rs.map Response.source).sum = -θ * (entropy m ((before H0 steps).getLast (by simp [before])) θ - entropy m H0 θ) := by
    induction steps generalizing H0 rs s' with
    | nil => cases h; simp [before]
    | cons p rest ih =>
      obtain ⟨H, θ', g⟩ := p
      have e : θ' = θ := hiso _ List.mem_cons_self
      subst e
      unfold evolve at h
      rw [respond_eq m _ _ _ _ hm.moduli] at h
      split at h
      · cases h
      rw [Option.bind_eq_bind, Option.bind_some] at h
      dsimp only at h
      cases he : evolve m (strain H).trace rest with
      | none => rw [he] at h; cases h
      | some q =>
        obtain ⟨rs', t⟩ := q
        rw [he] at h
        cases h
        have i1 := ih H (fun p hp => hiso p (List.mem_cons_of_mem _ hp)) rs' _ he
        have hl : (before H0 ((H, θ', g) :: rest)).getLast (by simp [before]) = (before H rest).getLast (by simp [before]) := by simp [before]
        rw [List.map_cons, List.sum_cons, i1, hl, entropy_eq m hm H θ' hθ, entropy_eq m hm H0 θ' hθ]
        ring
  exact ⟨key, fun hl => by rw [key, hl, sub_self, mul_zero]⟩

/-- **C54, the stress**: defined for every invertible deformation, symmetric, indifferent to superposed rotations together with the free energy and the other
outputs, and at the reference temperature that of the St. Venant-Kirchhoff model with the same bulk and shear moduli. -/
theorem C54_stress (m : Material) (hm : Good m) (s θ : ℝ) (g : Fin 3 → ℝ) :
    C31.SymmetricOn (fun H => (respond m s H θ g).map fun r => r.1.sigma) (fun H => (1 + H).det ≠ 0) ∧
      C31.FrameIndifferent (fun H => (respond m s H θ g).map fun r => r.1.sigma) ∧
      (∀ Q H, C31.IsRotation Q → freeEnergy m (Q * (1 + H) - 1) θ = freeEnergy m H θ) ∧
      (∀ H, ((respond m s H m.thetaRef g).map fun r => r.1.sigma) = svk3 (bulk m) (shear m) H) := by
  have hsymm : ∀ H : M 3, (thS m H θ)ᵀ = thS m H θ := fun H => by
    rw [thS, Matrix.transpose_sub, C31.svkS_symm, Matrix.transpose_smul, Matrix.transpose_one]
  refine ⟨⟨fun H => ?_, fun H σ h => ?_⟩, fun Q H hQ => ?_, fun Q H hQ => ?_, fun H => ?_⟩
  · dsimp only; rw [respond_eq m s _ _ _ hm.moduli]; split <;> simp [*]
  · dsimp only at h; rw [respond_eq m s _ _ _ hm.moduli] at h
    split at h
    · cases h
    · cases h
      simp only [Matrix.transpose_smul, Matrix.transpose_mul, Matrix.transpose_transpose, hsymm, Matrix.mul_assoc]
  · have hS : thS m (Q * (1 + H) - 1) θ = thS m H θ := by rw [thS, C31.svkS_rotate _ _ Q H hQ.1, thS]
    have hdet : (1 + (Q * (1 + H) - 1)).det = (1 + H).det := by rw [C31.rotate, Matrix.det_mul, hQ.2, one_mul]
    simp only [respond_eq m s _ _ _ hm.moduli, hdet]
    split
    · rfl
    · simp only [Option.map_some, hS, C31.rotate, Matrix.transpose_mul, Matrix.mul_smul, Matrix.smul_mul, Matrix.mul_assoc]
  · have hE : greenStrain (Q * (1 + H) - 1) = greenStrain H := by
      rw [C31.greenStrain_eq, C31.greenStrain_eq, C31.rotate, Matrix.transpose_mul, Matrix.mul_assoc, ← Matrix.mul_assoc Qᵀ, hQ.1, Matrix.one_mul]
    unfold freeEnergy
    rw [hE]
  · rw [respond_eq m s _ _ _ hm.moduli, svk3, C31.svk_eq _ det3_eq]
    split
    · rfl
    · simp only [Option.map_some, thS, sub_self, mul_zero, zero_smul, sub_zero]

/-- **C54, free thermal expansion**: with non-zero moduli a deformed material point is free of stress exactly when its strain is `α (θ - θ_ref)` times the
identity. -/
theorem C54_expansion (m : Material) (hm : Good m) (hK : bulk m ≠ 0) (hG : shear m ≠ 0) (s θ : ℝ) (g : Fin 3 → ℝ) (H : M 3) (r : Response) (s' : ℝ)
    (hr : respond m s H θ g = some (r, s')) : r.sigma = 0 ↔ strain H = (m.alpha * (θ - m.thetaRef)) • (1 : M 3) := by
  rw [respond_eq m s _ _ g hm.moduli] at hr
  split at hr
  · cases hr
  rename_i hd
  cases hr
  dsimp only
  have hu := isUnit_iff_ne_zero.2 hd
  have hut : IsUnit ((1 + H)ᵀ).det := by rw [Matrix.det_transpose]; exact hu
  have h1 : ((1 + H).det)⁻¹ • ((1 + H) * thS m H θ * (1 + H)ᵀ) = 0 ↔ thS m H θ = 0 := by
    constructor
    · intro h
      have h2 := (smul_eq_zero.1 h).resolve_left (inv_ne_zero hd)
      have h3 : (1 + H)⁻¹ * ((1 + H) * thS m H θ * (1 + H)ᵀ) * ((1 + H)ᵀ)⁻¹ = 0 := by rw [h2, Matrix.mul_zero, Matrix.zero_mul]
      rwa [Matrix.mul_assoc (1 + H), ← Matrix.mul_assoc ((1 + H)⁻¹), Matrix.nonsing_inv_mul _ hu, Matrix.one_mul, Matrix.mul_assoc,
        Matrix.mul_nonsing_inv _ hut, Matrix.mul_one] at h3
    · intro h; rw [h, Matrix.mul_zero, Matrix.zero_mul, smul_zero]
  rw [h1]
  have hS : thS m H θ = (2 * shear m) • (strain H - ((strain H).trace / 3) • (1 : M 3)) +
      (bulk m * ((strain H).trace - 3 * m.alpha * (θ - m.thetaRef))) • (1 : M 3) := by
    rw [thS, C31.svkS, C31.greenStrain_eq]
    change _ = (2 * shear m) • (strain H - ((strain H).trace / 3) • (1 : M 3)) + _
    change (bulk m * (strain H).trace) • (1 : M 3) + (2 * shear m) • (strain H - ((strain H).trace / ((3 : ℕ) : ℝ)) • (1 : M 3)) - _ = _
    push_cast
    module
  rw [hS]
  generalize strain H = E
  constructor
  · intro h
    have ht := congrArg Matrix.trace h
    simp only [Matrix.trace_add, Matrix.trace_smul, Matrix.trace_sub, Matrix.trace_one, Fintype.card_fin, Matrix.trace_zero, smul_eq_mul] at ht
    push_cast at ht
    have h2 : E.trace = 3 * m.alpha * (θ - m.thetaRef) := by
      have : bulk m * (E.trace - 3 * m.alpha * (θ - m.thetaRef)) = 0 := by linarith
      linarith [(mul_eq_zero.1 this).resolve_left hK]
    rw [h2, sub_self, mul_zero, zero_smul, add_zero] at h
    have h3 := (smul_eq_zero.1 h).resolve_left (mul_ne_zero two_ne_zero hG)
    rw [sub_eq_zero] at h3
    rw [h3]
    congr 1
    ring
  · rintro rfl
    simp only [Matrix.trace_smul, Matrix.trace_one, Fintype.card_fin, smul_eq_mul]
    push_cast
    have e : m.alpha * (θ - m.thetaRef) * 3 / 3 = m.alpha * (θ - m.thetaRef) := by ring
    have e' : m.alpha * (θ - m.thetaRef) * 3 - 3 * m.alpha * (θ - m.thetaRef) = 0 := by ring
    rw [e, e', sub_self, smul_zero, mul_zero, zero_smul, add_zero]

/-- **C54, the parameterized material** is the plain one whose expansion coefficient is the product, so everything above holds for it; scale one is the plain
material. -/
theorem C54_parameterized (m : Material) (s : ℝ) (H : M 3) (θ scale : ℝ) (g : Fin 3 → ℝ) :
    (Good m ↔ Good { m with alpha := m.alpha * scale }) ∧ respondParameterized m s H θ g 1 = respond m s H θ g ∧
      freeEnergyParameterized m H θ 1 = freeEnergy m H θ ∧
      respondParameterized m s H θ g 0 = (respond m s H m.thetaRef g).map (fun r => ({ r.1 with source := 0 }, r.2)) := by
  refine ⟨⟨fun h => ⟨h.1, h.2, h.3⟩, fun h => ⟨h.1, h.2, h.3⟩⟩, ?_, ?_, ?_⟩
  · simp only [respondParameterized, mul_one]
  · simp only [freeEnergyParameterized, mul_one]
  · unfold respondParameterized respond
    have hM : Moduli { m with alpha := m.alpha * 0 } ↔ Moduli m := Iff.rfl
    by_cases hm : Moduli m
    · rw [if_neg (not_not.2 hm), if_neg (not_not.2 (hM.2 hm))]
      simp only [mul_zero, zero_mul, sub_self, sub_zero, bulk, shear]
      split
      · rfl
      · rfl
    · rw [if_pos hm, if_pos (mt hM.1 hm), Option.map_none]

/-- **The coupled module loses the heat of deformation.**  Through the adaptor of the thermal module the response does not depend on the displacement gradient or
on the expansion coefficient at all, although the material generates heat whenever the trace of the strain changes. -/
theorem C54_coupling_wrong (m : Material) (hm : Good m) (hK : bulk m ≠ 0) (ha : m.alpha ≠ 0) (θ : ℝ) (hθ : 0 < θ) (g : Fin 3 → ℝ) :
    (∀ (H : M 3) (a : ℝ), (1 + H).det ≠ 0 → thermalInterface (respond { m with alpha := a }) θ g H = some (m.Cv, fun i => -m.k * g i)) ∧
      ∀ (H0 H : M 3), (1 + H).det ≠ 0 → (strain H).trace ≠ (strain H0).trace →
        ∃ r s', respond m (strain H0).trace H θ g = some (r, s') ∧ r.source ≠ 0 := by
  constructor
  · intro H a hd
    rw [thermalInterface, respond_eq _ _ _ _ _ (show Moduli { m with alpha := a } from hm.moduli), if_neg hd]
    rfl
  · intro H0 H hd hne
    refine ⟨_, _, by rw [respond_eq m _ _ _ _ hm.moduli, if_neg hd], ?_⟩
    dsimp only
    exact mul_ne_zero (mul_ne_zero (mul_ne_zero (mul_ne_zero (by norm_num) hK) ha) hθ.ne') (sub_ne_zero.2 hne)

/-- The other adaptor passes stress and state on unchanged. -/
theorem C54_mechanical (mat : Behaviour) (s : ℝ) (H : M 3) (θ : ℝ) (g : Fin 3 → ℝ) (r : Response) (s' : ℝ) :
    mat s H θ g = some (r, s') → mechanicalInterface mat s H θ g = some (r.sigma, s') := fun h => by
  rw [mechanicalInterface, h]; rfl

/-! ### Examples -/

/-- A material. -/
def steel : Material := ⟨1, 100, 1 / 4, 1, 1 / 1000, 300, 1⟩

theorem steel_good : Good steel := ⟨by norm_num [steel], by norm_num [steel], by norm_num [steel]⟩

theorem steel_bulk : bulk steel = 200 / 3 := by norm_num [bulk, steel]

/-- It responds to a stretch, so the hypotheses of `C54_energy` and `C54_expansion` can be met. -/
example : (respond steel 0 (!![1, 0, 0; 0, 0, 0; 0, 0, 0] : M 3) 350 ![1, 0, 0]).isSome := by
  rw [respond_eq _ _ _ _ _ steel_good.moduli, if_neg, Option.isSome_some]
  simp [Matrix.det_fin_three, Matrix.one_fin_three]

/-- A cycle of two steps that returns to the undeformed state: heat is generated in each, in sum nothing. -/
example : ∃ rs s', evolve steel (strain 0).trace [((!![1, 0, 0; 0, 0, 0; 0, 0, 0] : M 3), 350, 0), (0, 350, 0)] = some (rs, s') ∧
    (rs.map Response.source).sum = 0 ∧ ∃ r ∈ rs, r.source = -105 := by
  have hd : (1 + (!![1, 0, 0; 0, 0, 0; 0, 0, 0] : M 3)).det ≠ 0 := by simp [Matrix.det_fin_three, Matrix.one_fin_three]
  have hd0 : (1 + (0 : M 3)).det ≠ 0 := by simp
  have he : ∃ rs s', evolve steel (strain 0).trace [((!![1, 0, 0; 0, 0, 0; 0, 0, 0] : M 3), 350, 0), (0, 350, 0)] = some (rs, s') ∧
      ∃ r ∈ rs, r.source = -105 := by
    refine ⟨_, _, by simp only [evolve, respond_eq _ _ _ _ _ steel_good.moduli, if_neg hd, if_neg hd0, Option.bind_eq_bind, Option.bind_some]; rfl, _,
      List.mem_cons_self, ?_⟩
    have t0 : (strain 0).trace = 0 := by simp [strain]
    have t1 : (strain (!![1, 0, 0; 0, 0, 0; 0, 0, 0] : M 3)).trace = 3 / 2 := by
      simp [strain, Matrix.trace_fin_three, Matrix.one_fin_three, Matrix.mul_apply, Fin.sum_univ_three]
      norm_num
    dsimp only
    rw [t0, t1, steel_bulk]
    norm_num [steel]
  obtain ⟨rs, s', h, hr⟩ := he
  exact ⟨rs, s', h, (C54_cycle steel steel_good 350 (by norm_num) 0 _ (by simp) rs s' h).2 (by simp [before]), hr⟩

/-- The expansion coefficient and the bulk modulus are not zero: `C54_coupling_wrong` applies. -/
example : bulk steel ≠ 0 ∧ steel.alpha ≠ 0 ∧ shear steel ≠ 0 := ⟨by rw [steel_bulk]; norm_num, by norm_num [steel], by norm_num [shear, steel]⟩

end Serac.C54
