import Verif.Model.Materials
import Verif.Proofs.Tensor
import Verif.Props.C13
import Mathlib.LinearAlgebra.Matrix.Trace
import Mathlib.Analysis.Calculus.Deriv.Inv
import Mathlib.Analysis.SpecialFunctions.Log.Deriv
import Mathlib.Analysis.Calculus.Deriv.Prod
import Mathlib.Analysis.Calculus.Deriv.Pow
/-!
# C31: elastic material models

Spec.  For a displacement gradient `H` the deformation gradient is `F = 1 + H`.  A finite-deformation model giving the Cauchy stress `σ(H)` is
frame-indifferent when superposing a rotation `Q` (deformation gradient `Q F`) gives `Q σ Qᵀ`.  Agreement with linear elasticity to first order:
along every differentiable curve of displacement gradients through zero, the derivative of the stress is the linear isotropic stress of the
derivative.

Violations found: in two dimensions the St. Venant-Kirchhoff model linearises to a different material (`C31_svk2_wrong`), and the parameterized
models differ from the plain ones with the same moduli (`C31_parameterized2_wrong`).
-/

noncomputable section
namespace Serac.C31
open Serac.Tensor Serac.Mat
open scoped Matrix Topology

variable {d : ℕ}

/-! ## Spec -/

def IsRotation (Q : Matrix (Fin d) (Fin d) ℝ) : Prop := Qᵀ * Q = 1 ∧ Q.det = 1

def FrameIndifferent (σ : Matrix (Fin d) (Fin d) ℝ → Option (Matrix (Fin d) (Fin d) ℝ)) : Prop :=
  ∀ Q H, IsRotation Q → σ (Q * (1 + H) - 1) = (σ H).map fun s => Q * s * Qᵀ

/-- The stress is defined exactly where `dom` holds and is symmetric there. -/
def SymmetricOn (σ : Matrix (Fin d) (Fin d) ℝ → Option (Matrix (Fin d) (Fin d) ℝ)) (dom : Matrix (Fin d) (Fin d) ℝ → Prop) : Prop :=
  (∀ H, dom H ↔ (σ H).isSome) ∧ ∀ H s, σ H = some s → sᵀ = s

def StressFree (σ : Matrix (Fin d) (Fin d) ℝ → Option (Matrix (Fin d) (Fin d) ℝ)) : Prop := σ 0 = some 0

/-- Linear isotropic elasticity, written out. -/
def linear (lam mu : ℝ) (H : Matrix (Fin d) (Fin d) ℝ) : Matrix (Fin d) (Fin d) ℝ :=
  (lam * H.trace) • (1 : Matrix (Fin d) (Fin d) ℝ) + mu • (H + Hᵀ)

/-- Along every curve through zero the stress has the derivative `lin` of the curve's derivative. -/
def LinearisesTo (σ : Matrix (Fin d) (Fin d) ℝ → Option (Matrix (Fin d) (Fin d) ℝ)) (lin : Matrix (Fin d) (Fin d) ℝ → Matrix (Fin d) (Fin d) ℝ) :
    Prop :=
  ∀ (H : ℝ → Matrix (Fin d) (Fin d) ℝ) (H' : Matrix (Fin d) (Fin d) ℝ), H 0 = 0 → (∀ i j, HasDerivAt (fun t => H t i j) (H' i j) 0) →
    ∃ s : ℝ → Matrix (Fin d) (Fin d) ℝ, (∀ᶠ t in 𝓝 0, σ (H t) = some (s t)) ∧ ∀ i j, HasDerivAt (fun t => s t i j) (lin H' i j) 0

/-! ## The models as matrix expressions -/

theorem linearIsotropic_eq (K G : ℝ) (H : Matrix (Fin d) (Fin d) ℝ) : linearIsotropic K G H = linear (K - 2 / 3 * G) G H := by
  have ht : tr (fun i j => (1 / 2) * (Tensor.transpose H i j + H i j) : Mat ℝ d d) = H.trace := by
    dsimp only [tr]
    rw [accum_eq, Matrix.trace, zero_add]
    exact Finset.sum_congr rfl fun i _ => by simp only [Matrix.diag_apply, Tensor.transpose]; ring
  funext i j
  dsimp only [linearIsotropic]
  rw [ht]
  simp only [identity_eq, linear, Matrix.add_apply, Matrix.smul_apply, smul_eq_mul, Matrix.transpose_apply, Tensor.transpose]
  ring

/-- Second Piola-Kirchhoff stress of the St. Venant-Kirchhoff model. -/
def svkS (K G : ℝ) (H : Matrix (Fin d) (Fin d) ℝ) : Matrix (Fin d) (Fin d) ℝ :=
  (K * (greenStrain H).trace) • (1 : Matrix (Fin d) (Fin d) ℝ)
    + (2 * G) • (greenStrain H - ((greenStrain H).trace / (d : ℝ)) • (1 : Matrix (Fin d) (Fin d) ℝ))

theorem greenStrain_eq (H : Matrix (Fin d) (Fin d) ℝ) : greenStrain H = (1 / 2 : ℝ) • ((1 + H)ᵀ * (1 + H) - 1) := by
  have h : (1 + H)ᵀ * (1 + H) - 1 = H + Hᵀ + Hᵀ * H := by
    rw [Matrix.transpose_add, Matrix.transpose_one]
    noncomm_ring
  rw [h]
  funext i j
  simp only [greenStrain, dot_eq, transpose_eq, Matrix.smul_apply, Matrix.add_apply, smul_eq_mul]

theorem svk_eq (det : Mat ℝ d d → ℝ) (hdet : ∀ A, det A = Matrix.det A) (K G : ℝ) (H : Matrix (Fin d) (Fin d) ℝ) :
    stVenantKirchhoff det K G H =
      if (1 + H).det = 0 then none else some (((1 + H).det)⁻¹ • ((1 + H) * svkS K G H * (1 + H)ᵀ)) := by
  have hF : @Eq (Matrix (Fin d) (Fin d) ℝ) (fun i j => H i j + identity d i j) (1 + H) := by
    funext i j
    rw [identity_eq, Matrix.add_apply]
    ring
  have hS : @Eq (Matrix (Fin d) (Fin d) ℝ) (fun i j => K * tr (greenStrain H) * identity d i j + 2 * G * dev (greenStrain H) i j)
      (svkS K G H) := by
    funext i j
    rw [identity_eq, tr_eq, dev_eq]
    rfl
  dsimp only [stVenantKirchhoff]
  rw [hF, hS, hdet]
  simp only [dot_eq, transpose_eq]
  refine if_congr Iff.rfl rfl (congrArg some ?_)
  funext i j
  rw [Matrix.smul_apply, smul_eq_mul]
  ring

theorem nh_eq (detApIm1 : Mat ℝ d d → ℝ) (hdet : ∀ A, detApIm1 A = (1 + A).det - 1) (K G : ℝ) (H : Matrix (Fin d) (Fin d) ℝ) :
    neoHookean detApIm1 K G H = if (1 + H).det ≤ 0 then none else
      some (((1 + H).det)⁻¹ • (((K - 2 / 3 * G) * Real.log (1 + H).det) • (1 : Matrix (Fin d) (Fin d) ℝ) + G • ((1 + H) * (1 + H)ᵀ - 1))) := by
  have hB : (1 + H) * (1 + H)ᵀ - 1 = H * Hᵀ + Hᵀ + H := by
    rw [Matrix.transpose_add, Matrix.transpose_one]
    noncomm_ring
  have h1 : 1 + (((1 + H).det : ℝ) - 1) = (1 + H).det := by ring
  have h2 : (((1 + H).det : ℝ) - 1) + 1 = (1 + H).det := by ring
  rw [hB]
  simp only [neoHookean, hdet, h1, h2, dot_eq, transpose_eq, identity_eq]
  refine if_congr ⟨fun h => by linarith, fun h => by linarith⟩ rfl (congrArg some ?_)
  funext i j
  simp only [Matrix.smul_apply, Matrix.add_apply, smul_eq_mul]
  ring

theorem pnh_eq (detApIm1 : Mat ℝ d d → ℝ) (hdet : ∀ A, detApIm1 A = (1 + A).det - 1) (K0 G0 dK dG : ℝ) (H : Matrix (Fin d) (Fin d) ℝ) :
    parameterizedNeoHookean detApIm1 K0 G0 dK dG H = if (1 + H).det ≤ 0 then none else
      some (((1 + H).det)⁻¹ • (((K0 + dK - 2 / d * (G0 + dG)) * Real.log (1 + H).det) • (1 : Matrix (Fin d) (Fin d) ℝ)
        + (G0 + dG) • ((1 + H) * (1 + H)ᵀ - 1))) := by
  have hB : (1 + H) * (1 + H)ᵀ - 1 = H * Hᵀ + Hᵀ + H := by
    rw [Matrix.transpose_add, Matrix.transpose_one]
    noncomm_ring
  have h1 : 1 + (((1 + H).det : ℝ) - 1) = (1 + H).det := by ring
  have h2 : (((1 + H).det : ℝ) - 1) + 1 = (1 + H).det := by ring
  rw [hB]
  simp only [parameterizedNeoHookean, hdet, h1, h2, dot_eq, transpose_eq, identity_eq]
  refine if_congr ⟨fun h => by linarith, fun h => by linarith⟩ rfl (congrArg some ?_)
  funext i j
  simp only [Matrix.smul_apply, Matrix.add_apply, smul_eq_mul]
  ring

theorem plinear_eq (K0 G0 dK dG : ℝ) (H : Matrix (Fin d) (Fin d) ℝ) :
    parameterizedLinearIsotropic K0 G0 dK dG H = linear (K0 + dK - 2 / d * (G0 + dG)) (G0 + dG) H := by
  have ht : tr (fun i j => (1 / 2) * (Tensor.transpose H i j + H i j) : Mat ℝ d d) = H.trace := by
    dsimp only [tr]
    rw [accum_eq, Matrix.trace, zero_add]
    exact Finset.sum_congr rfl fun i _ => by simp only [Matrix.diag_apply, Tensor.transpose]; ring
  funext i j
  dsimp only [parameterizedLinearIsotropic]
  rw [ht]
  simp only [identity_eq, linear, Matrix.add_apply, Matrix.smul_apply, smul_eq_mul, Matrix.transpose_apply, Tensor.transpose]
  ring

theorem det2' (A : Mat ℝ 2 2) : detApIm1_2 A = (1 + A).det - 1 := by rw [(Serac.C13.C13_detApIm1 A 0).1, add_comm]
theorem det3' (A : Mat ℝ 3 3) : detApIm1_3 A = (1 + A).det - 1 := by rw [(Serac.C13.C13_detApIm1 0 A).2, add_comm]

/-! ## Symmetry, stress-free reference, frame indifference -/

theorem greenStrain_symm (H : Matrix (Fin d) (Fin d) ℝ) : (greenStrain H)ᵀ = greenStrain H := by
  rw [greenStrain_eq, Matrix.transpose_smul, Matrix.transpose_sub, Matrix.transpose_mul, Matrix.transpose_transpose, Matrix.transpose_one]

theorem svkS_symm (K G : ℝ) (H : Matrix (Fin d) (Fin d) ℝ) : (svkS K G H)ᵀ = svkS K G H := by
  simp only [svkS, Matrix.transpose_add, Matrix.transpose_smul, Matrix.transpose_sub, Matrix.transpose_one, greenStrain_symm]

theorem greenStrain_zero : greenStrain (0 : Matrix (Fin d) (Fin d) ℝ) = 0 := by
  rw [greenStrain_eq]
  simp

theorem svkS_zero (K G : ℝ) : svkS K G (0 : Matrix (Fin d) (Fin d) ℝ) = 0 := by
  simp [svkS, greenStrain_zero]

theorem rotate (Q H : Matrix (Fin d) (Fin d) ℝ) : 1 + (Q * (1 + H) - 1) = Q * (1 + H) := by abel

theorem svkS_rotate (K G : ℝ) (Q H : Matrix (Fin d) (Fin d) ℝ) (hQ : Qᵀ * Q = 1) : svkS K G (Q * (1 + H) - 1) = svkS K G H := by
  have : greenStrain (Q * (1 + H) - 1) = greenStrain H := by
    rw [greenStrain_eq, greenStrain_eq, rotate, Matrix.transpose_mul, Matrix.mul_assoc, ← Matrix.mul_assoc Qᵀ, hQ, Matrix.one_mul]
  rw [svkS, this, svkS]

theorem svk_props (det : Mat ℝ d d → ℝ) (hdet : ∀ A, det A = Matrix.det A) (K G : ℝ) :
    StressFree (stVenantKirchhoff det K G) ∧ SymmetricOn (stVenantKirchhoff det K G) (fun H => (1 + H).det ≠ 0) ∧
      FrameIndifferent (stVenantKirchhoff det K G) := by
  refine ⟨?_, ⟨?_, ?_⟩, ?_⟩
  · rw [StressFree, svk_eq det hdet, svkS_zero]
    simp
  · intro H
    rw [svk_eq det hdet]
    by_cases h : (1 + H).det = 0
    · simp [h]
    · simp [h]
  · intro H s hs
    rw [svk_eq det hdet] at hs
    by_cases h : (1 + H).det = 0
    · rw [if_pos h] at hs
      cases hs
    · rw [if_neg h] at hs
      rw [← Option.some.inj hs, Matrix.transpose_smul, Matrix.transpose_mul, Matrix.transpose_mul, Matrix.transpose_transpose, svkS_symm,
        Matrix.mul_assoc]
  · intro Q H hQ
    rw [svk_eq det hdet, svk_eq det hdet, rotate, Matrix.det_mul, hQ.2, one_mul, svkS_rotate K G Q H hQ.1]
    by_cases h : (1 + H).det = 0
    · rw [if_pos h, if_pos h, Option.map_none]
    · rw [if_neg h, if_neg h, Option.map_some, Matrix.transpose_mul, Matrix.mul_smul, Matrix.smul_mul]
      simp only [Matrix.mul_assoc]

theorem nh_props (σ : Matrix (Fin d) (Fin d) ℝ → Option (Matrix (Fin d) (Fin d) ℝ)) (lam G : ℝ)
    (h : ∀ H, σ H = if (1 + H).det ≤ 0 then none else
      some (((1 + H).det)⁻¹ • ((lam * Real.log (1 + H).det) • (1 : Matrix (Fin d) (Fin d) ℝ) + G • ((1 + H) * (1 + H)ᵀ - 1)))) :
    StressFree σ ∧ SymmetricOn σ (fun H => 0 < (1 + H).det) ∧ FrameIndifferent σ := by
  refine ⟨?_, ⟨?_, ?_⟩, ?_⟩
  · rw [StressFree, h]
    simp
  · intro H
    rw [h]
    by_cases hd : (1 + H).det ≤ 0
    · simp [hd]
    · simp only [if_neg hd, Option.isSome_some, iff_true]
      exact not_le.1 hd
  · intro H s hs
    rw [h] at hs
    by_cases hd : (1 + H).det ≤ 0
    · rw [if_pos hd] at hs
      cases hs
    · rw [if_neg hd] at hs
      rw [← Option.some.inj hs]
      simp only [Matrix.transpose_smul, Matrix.transpose_add, Matrix.transpose_sub, Matrix.transpose_mul, Matrix.transpose_transpose,
        Matrix.transpose_one]
  · intro Q H hQ
    have hQ' : Q * Qᵀ = 1 := mul_eq_one_comm.1 hQ.1
    rw [h, h, rotate, Matrix.det_mul, hQ.2, one_mul]
    by_cases hd : (1 + H).det ≤ 0
    · rw [if_pos hd, if_pos hd, Option.map_none]
    · rw [if_neg hd, if_neg hd, Option.map_some]
      congr 1
      have e : Q * (1 + H) * (Q * (1 + H))ᵀ - 1 = Q * ((1 + H) * (1 + H)ᵀ - 1) * Qᵀ := by
        rw [Matrix.transpose_mul, Matrix.mul_sub, Matrix.sub_mul, Matrix.mul_one, hQ']
        simp only [Matrix.mul_assoc]
      rw [e]
      generalize (1 + H) * (1 + H)ᵀ - 1 = B
      simp only [Matrix.mul_smul, Matrix.smul_mul, Matrix.mul_add, Matrix.add_mul, Matrix.mul_one, hQ']

/-! ## First-order behaviour -/

def HD (A : ℝ → Matrix (Fin d) (Fin d) ℝ) (A' : Matrix (Fin d) (Fin d) ℝ) : Prop := ∀ i j, HasDerivAt (fun t => A t i j) (A' i j) 0

theorem HD.mul {A B : ℝ → Matrix (Fin d) (Fin d) ℝ} {A' B' : Matrix (Fin d) (Fin d) ℝ} (hA : HD A A') (hB : HD B B') :
    HD (fun t => A t * B t) (A' * B 0 + A 0 * B') := by
  intro i j
  simp only [Matrix.mul_apply, Matrix.add_apply, ← Finset.sum_add_distrib]
  exact HasDerivAt.fun_sum fun k _ => (hA i k).mul (hB k j)

theorem HD.add {A B : ℝ → Matrix (Fin d) (Fin d) ℝ} {A' B' : Matrix (Fin d) (Fin d) ℝ} (hA : HD A A') (hB : HD B B') :
    HD (fun t => A t + B t) (A' + B') := fun i j => (hA i j).add (hB i j)

theorem HD.sub {A B : ℝ → Matrix (Fin d) (Fin d) ℝ} {A' B' : Matrix (Fin d) (Fin d) ℝ} (hA : HD A A') (hB : HD B B') :
    HD (fun t => A t - B t) (A' - B') := fun i j => (hA i j).sub (hB i j)

theorem HD.transpose {A : ℝ → Matrix (Fin d) (Fin d) ℝ} {A' : Matrix (Fin d) (Fin d) ℝ} (hA : HD A A') : HD (fun t => (A t)ᵀ) A'ᵀ :=
  fun i j => hA j i

theorem HD.const (A : Matrix (Fin d) (Fin d) ℝ) : HD (fun _ => A) 0 := fun _ _ => hasDerivAt_const _ _

theorem HD.smul {c : ℝ → ℝ} {c' : ℝ} {A : ℝ → Matrix (Fin d) (Fin d) ℝ} {A' : Matrix (Fin d) (Fin d) ℝ} (hc : HasDerivAt c c' 0)
    (hA : HD A A') : HD (fun t => c t • A t) (c' • A 0 + c 0 • A') := fun i j => hc.mul (hA i j)

theorem HD.trace {A : ℝ → Matrix (Fin d) (Fin d) ℝ} {A' : Matrix (Fin d) (Fin d) ℝ} (hA : HD A A') :
    HasDerivAt (fun t => (A t).trace) A'.trace 0 := HasDerivAt.fun_sum fun i _ => hA i i

theorem HD.congr {A : ℝ → Matrix (Fin d) (Fin d) ℝ} {A' B' : Matrix (Fin d) (Fin d) ℝ} (hA : HD A A') (h : A' = B') : HD A B' := h ▸ hA

theorem one_add {H : ℝ → Matrix (Fin d) (Fin d) ℝ} {H' : Matrix (Fin d) (Fin d) ℝ} (hH : HD H H') : HD (fun t => 1 + H t) H' :=
  ((HD.const 1).add hH).congr (zero_add _)

theorem HD.det {A : ℝ → Matrix (Fin d) (Fin d) ℝ} {A' : Matrix (Fin d) (Fin d) ℝ} (hA : HD A A') :
    DifferentiableAt ℝ (fun t => (A t).det) 0 := differentiableAt_det A 0 fun i j => (hA i j).differentiableAt

theorem svk_linear (det : Mat ℝ d d → ℝ) (hdet : ∀ A, det A = Matrix.det A) (K G : ℝ) :
    LinearisesTo (stVenantKirchhoff det K G) (linear (K - 2 / d * G) G) := by
  intro H H' h0 hH
  have hF := one_add hH
  have hF0 : (1 : Matrix (Fin d) (Fin d) ℝ) + H 0 = 1 := by rw [h0, add_zero]
  have hE : HD (fun t => greenStrain (H t)) ((1 / 2 : ℝ) • (H' + H'ᵀ)) := by
    have e : (fun t => greenStrain (H t)) = fun t => (1 / 2 : ℝ) • ((1 + H t)ᵀ * (1 + H t) - 1) := funext fun t => greenStrain_eq _
    rw [e]
    refine (HD.smul (hasDerivAt_const _ (1 / 2 : ℝ)) ((hF.transpose.mul hF).sub (HD.const 1))).congr ?_
    simp only [hF0, Matrix.transpose_one, Matrix.mul_one, Matrix.one_mul, zero_smul, zero_add, sub_zero]
    rw [add_comm]
  have hS : HD (fun t => svkS K G (H t)) (linear (K - 2 / d * G) G H') := by
    have e : (fun t => svkS K G (H t)) = fun t => (K * (greenStrain (H t)).trace) • (1 : Matrix (Fin d) (Fin d) ℝ)
        + (2 * G) • (greenStrain (H t) - ((greenStrain (H t)).trace / (d : ℝ)) • (1 : Matrix (Fin d) (Fin d) ℝ)) := rfl
    rw [e]
    refine ((HD.smul (hE.trace.const_mul K) (HD.const 1)).add (HD.smul (hasDerivAt_const _ (2 * G))
      (hE.sub (HD.smul (hE.trace.div_const (d : ℝ)) (HD.const 1))))).congr ?_
    have ht : ((1 / 2 : ℝ) • (H' + H'ᵀ)).trace = H'.trace := by
      rw [Matrix.trace_smul, Matrix.trace_add, Matrix.trace_transpose, smul_eq_mul]
      ring
    rw [ht]
    ext i j
    simp only [linear, Matrix.add_apply, Matrix.sub_apply, Matrix.smul_apply, smul_eq_mul, Matrix.zero_apply, Matrix.transpose_apply]
    ring
  have hN := (hF.mul hS).mul hF.transpose
  have hdet0 : ((1 : Matrix (Fin d) (Fin d) ℝ) + H 0).det ≠ 0 := by rw [hF0]; simp
  refine ⟨fun t => ((1 + H t).det)⁻¹ • ((1 + H t) * svkS K G (H t) * (1 + H t)ᵀ), ?_, ?_⟩
  · have hc : ContinuousAt (fun t => (1 + H t).det) 0 := hF.det.continuousAt
    filter_upwards [hc.eventually_ne hdet0] with t ht
    rw [svk_eq det hdet, if_neg ht]
  · refine (HD.smul (hF.det.hasDerivAt.inv hdet0) hN).congr ?_
    simp only [Pi.inv_apply, h0, svkS_zero, Matrix.det_one, Matrix.mul_zero, Matrix.zero_mul, Matrix.mul_one, Matrix.one_mul, Matrix.transpose_one,
      smul_zero, zero_add, add_zero, inv_one, one_smul]

theorem nh_linear (σ : Matrix (Fin d) (Fin d) ℝ → Option (Matrix (Fin d) (Fin d) ℝ)) (lam G : ℝ)
    (h : ∀ H, σ H = if (1 + H).det ≤ 0 then none else
      some (((1 + H).det)⁻¹ • ((lam * Real.log (1 + H).det) • (1 : Matrix (Fin d) (Fin d) ℝ) + G • ((1 + H) * (1 + H)ᵀ - 1))))
    (hjac : ∀ (A : ℝ → Matrix (Fin d) (Fin d) ℝ) (A' : Matrix (Fin d) (Fin d) ℝ), A 0 = 1 → HD A A' → HasDerivAt (fun t => (A t).det) A'.trace 0) :
    LinearisesTo σ (linear lam G) := by
  intro H H' h0 hH
  have hF := one_add hH
  have hF0 : (1 : Matrix (Fin d) (Fin d) ℝ) + H 0 = 1 := by rw [h0, add_zero]
  have hJ := hjac _ _ hF0 hF
  have hdet1 : ((1 : Matrix (Fin d) (Fin d) ℝ) + H 0).det = 1 := by rw [hF0]; simp
  have hdet0 : ((1 : Matrix (Fin d) (Fin d) ℝ) + H 0).det ≠ 0 := by rw [hdet1]; exact one_ne_zero
  have hlog : HasDerivAt (fun t => Real.log (1 + H t).det) H'.trace 0 := by
    have h := hJ.log hdet0
    rw [hdet1, div_one] at h
    exact h
  refine ⟨fun t => ((1 + H t).det)⁻¹ • ((lam * Real.log (1 + H t).det) • (1 : Matrix (Fin d) (Fin d) ℝ) + G • ((1 + H t) * (1 + H t)ᵀ - 1)), ?_, ?_⟩
  · have hc : ContinuousAt (fun t => (1 + H t).det) 0 := hF.det.continuousAt
    have hlt : (0 : ℝ) < ((1 : Matrix (Fin d) (Fin d) ℝ) + H 0).det := by rw [hdet1]; exact one_pos
    filter_upwards [hc.eventually (lt_mem_nhds hlt)] with t ht
    rw [h, if_neg (not_le.2 ht)]
  · have hN := (HD.smul (hlog.const_mul lam) (HD.const (1 : Matrix (Fin d) (Fin d) ℝ))).add
      (HD.smul (hasDerivAt_const _ G) ((hF.mul hF.transpose).sub (HD.const 1)))
    refine (HD.smul (hJ.inv hdet0) hN).congr ?_
    simp only [Pi.inv_apply, hF0, Matrix.det_one, Real.log_one, Matrix.mul_one, Matrix.one_mul, Matrix.transpose_one, sub_self, mul_zero, zero_smul,
      smul_zero, zero_add, add_zero, inv_one, one_smul, sub_zero, linear]

theorem jacobi2 (A : ℝ → Matrix (Fin 2) (Fin 2) ℝ) (A' : Matrix (Fin 2) (Fin 2) ℝ) (h0 : A 0 = 1) (h : HD A A') :
    HasDerivAt (fun t => (A t).det) A'.trace 0 := by
  have e : (fun t => (A t).det) = fun t => A t 0 0 * A t 1 1 - A t 0 1 * A t 1 0 := funext fun t => Matrix.det_fin_two _
  rw [e]
  refine (((h 0 0).mul (h 1 1)).sub ((h 0 1).mul (h 1 0))).congr_deriv ?_
  rw [h0, Matrix.trace_fin_two]
  simp

theorem jacobi3 (A : ℝ → Matrix (Fin 3) (Fin 3) ℝ) (A' : Matrix (Fin 3) (Fin 3) ℝ) (h0 : A 0 = 1) (h : HD A A') :
    HasDerivAt (fun t => (A t).det) A'.trace 0 := by
  have e : (fun t => (A t).det) = fun t => A t 0 0 * A t 1 1 * A t 2 2 - A t 0 0 * A t 1 2 * A t 2 1 - A t 0 1 * A t 1 0 * A t 2 2
      + A t 0 1 * A t 1 2 * A t 2 0 + A t 0 2 * A t 1 0 * A t 2 1 - A t 0 2 * A t 1 1 * A t 2 0 := funext fun t => Matrix.det_fin_three _
  rw [e]
  refine (((((((h 0 0).mul (h 1 1)).mul (h 2 2)).sub (((h 0 0).mul (h 1 2)).mul (h 2 1))).sub (((h 0 1).mul (h 1 0)).mul (h 2 2))).add
    (((h 0 1).mul (h 1 2)).mul (h 2 0))).add (((h 0 2).mul (h 1 0)).mul (h 2 1))).sub (((h 0 2).mul (h 1 1)).mul (h 2 0)) |>.congr_deriv ?_
  rw [Matrix.trace_fin_three]
  simp [h0]

/-! ## Theorems -/

/-- **C31, linear isotropic**: Hooke's law with Lamé parameter `K - 2G/3`; zero and symmetric, unaffected by infinitesimal rotations, linear. -/
theorem C31_linear (K G : ℝ) (H W : Matrix (Fin d) (Fin d) ℝ) (hW : Wᵀ = -W) :
    linearIsotropic K G H = linear (K - 2 / 3 * G) G H ∧ linearIsotropic K G (0 : Matrix (Fin d) (Fin d) ℝ) = 0 ∧
      (linearIsotropic K G H : Matrix (Fin d) (Fin d) ℝ)ᵀ = linearIsotropic K G H ∧ linearIsotropic K G (H + W) = linearIsotropic K G H := by
  simp only [linearIsotropic_eq]
  refine ⟨trivial, ?_, ?_, ?_⟩
  · simp [linear]
  · simp only [linear, Matrix.transpose_add, Matrix.transpose_smul, Matrix.transpose_one, Matrix.transpose_transpose]
    rw [add_comm Hᵀ H]
  · have ht : W.trace = 0 := by
      have h := Matrix.trace_transpose W
      rw [hW, Matrix.trace_neg] at h
      linarith
    rw [linear, linear, Matrix.trace_add, ht, add_zero, Matrix.transpose_add, hW]
    congr 2
    abel

/-- **C31, St. Venant-Kirchhoff** in two and three dimensions. -/
theorem C31_svk (K G : ℝ) :
    (StressFree (svk2 K G) ∧ SymmetricOn (svk2 K G) (fun H => (1 + H).det ≠ 0) ∧ FrameIndifferent (svk2 K G)) ∧
      (StressFree (svk3 K G) ∧ SymmetricOn (svk3 K G) (fun H => (1 + H).det ≠ 0) ∧ FrameIndifferent (svk3 K G)) :=
  ⟨svk_props det2 det2_eq K G, svk_props det3 det3_eq K G⟩

/-- **C31, neo-Hookean** in two and three dimensions. -/
theorem C31_neoHookean (K G : ℝ) :
    (StressFree (nh2 K G) ∧ SymmetricOn (nh2 K G) (fun H => 0 < (1 + H).det) ∧ FrameIndifferent (nh2 K G)) ∧
      (StressFree (nh3 K G) ∧ SymmetricOn (nh3 K G) (fun H => 0 < (1 + H).det) ∧ FrameIndifferent (nh3 K G)) :=
  ⟨nh_props _ _ _ (nh_eq _ det2' K G), nh_props _ _ _ (nh_eq _ det3' K G)⟩

/-- The parameterized models have the same symmetries. -/
theorem C31_parameterized (K0 G0 dK dG : ℝ) :
    (StressFree (pnh2 K0 G0 dK dG) ∧ SymmetricOn (pnh2 K0 G0 dK dG) (fun H => 0 < (1 + H).det) ∧ FrameIndifferent (pnh2 K0 G0 dK dG)) ∧
      (StressFree (pnh3 K0 G0 dK dG) ∧ SymmetricOn (pnh3 K0 G0 dK dG) (fun H => 0 < (1 + H).det) ∧ FrameIndifferent (pnh3 K0 G0 dK dG)) :=
  ⟨nh_props _ _ _ (pnh_eq _ det2' K0 G0 dK dG), nh_props _ _ _ (pnh_eq _ det3' K0 G0 dK dG)⟩

/-- **C31, first order**: both finite-deformation models linearise to the linear isotropic model in three dimensions, the neo-Hookean one also in
two.  Missing for the full claim: St. Venant-Kirchhoff in two dimensions, where it fails (`C31_svk2_wrong`). -/
theorem C31_first_order_partial (K G : ℝ) :
    LinearisesTo (svk3 K G) (linearIsotropic K G) ∧ LinearisesTo (nh3 K G) (linearIsotropic K G) ∧
      LinearisesTo (nh2 K G) (linearIsotropic K G) := by
  have e : ∀ {d : ℕ}, linearIsotropic K G = (linear (K - 2 / 3 * G) G : Matrix (Fin d) (Fin d) ℝ → _) := funext fun H => linearIsotropic_eq K G H
  refine ⟨?_, ?_, ?_⟩
  · have h := svk_linear det3 det3_eq K G
    rw [e]
    norm_num at h ⊢
    exact h
  · rw [e]
    exact nh_linear _ _ _ (nh_eq _ det3' K G) jacobi3
  · rw [e]
    exact nh_linear _ _ _ (nh_eq _ det2' K G) jacobi2

/-- In two dimensions the St. Venant-Kirchhoff model linearises to Lamé parameter `K - G` instead of `K - 2G/3`. -/
theorem C31_svk2 (K G : ℝ) : LinearisesTo (svk2 K G) (linear (K - G) G) := by
  have h := svk_linear det2 det2_eq K G
  norm_num at h
  exact h

theorem LinearisesTo.unique {σ : Matrix (Fin d) (Fin d) ℝ → Option (Matrix (Fin d) (Fin d) ℝ)}
    {l l' : Matrix (Fin d) (Fin d) ℝ → Matrix (Fin d) (Fin d) ℝ} (h : LinearisesTo σ l) (h' : LinearisesTo σ l') : l = l' := by
  funext H
  have hH : ∀ i j, HasDerivAt (fun t : ℝ => (t • H) i j) (H i j) 0 := by
    intro i j
    simpa using (hasDerivAt_id (0 : ℝ)).mul_const (H i j)
  obtain ⟨s, hs, hs'⟩ := h (fun t => t • H) H (by simp) hH
  obtain ⟨r, hr, hr'⟩ := h' (fun t => t • H) H (by simp) hH
  ext i j
  refine (hs' i j).unique ((hr' i j).congr_of_eventuallyEq ?_)
  filter_upwards [hs, hr] with t h1 h2
  rw [h1] at h2
  rw [Option.some.inj h2]

/-- **Violation**: with a non-zero shear modulus the two-dimensional St. Venant-Kirchhoff model does not agree with linear elasticity. -/
theorem C31_svk2_wrong (K G : ℝ) (hG : G ≠ 0) : ¬ LinearisesTo (svk2 K G) (linearIsotropic K G) := by
  intro h
  have e := congrFun (h.unique (C31_svk2 K G)) 1
  rw [linearIsotropic_eq] at e
  have e1 := congrFun (congrFun e 0) 0
  simp [linear] at e1
  exact hG (by linarith)

/-- The parameterized models equal the plain ones with moduli `K0 + dK`, `G0 + dG` in three dimensions. -/
theorem C31_parameterized3 (K0 G0 dK dG : ℝ) (H : Matrix (Fin 3) (Fin 3) ℝ) :
    parameterizedLinearIsotropic K0 G0 dK dG H = linearIsotropic (K0 + dK) (G0 + dG) H ∧
      pnh3 K0 G0 dK dG H = nh3 (K0 + dK) (G0 + dG) H := by
  constructor
  · rw [plinear_eq, linearIsotropic_eq]
    norm_num
  · rw [pnh3, nh3, pnh_eq _ det3', nh_eq _ det3']
    norm_num

/-- **Violation**: in two dimensions they differ from the plain ones for every deformation that changes area, already without any parameter
offset. -/
theorem C31_parameterized2_wrong (K0 G0 dK dG : ℝ) (hG : G0 + dG ≠ 0) (H : Matrix (Fin 2) (Fin 2) ℝ) :
    (H.trace ≠ 0 → parameterizedLinearIsotropic K0 G0 dK dG H ≠ linearIsotropic (K0 + dK) (G0 + dG) H) ∧
      (0 < (1 + H).det → (1 + H).det ≠ 1 → pnh2 K0 G0 dK dG H ≠ nh2 (K0 + dK) (G0 + dG) H) := by
  constructor
  · intro ht h
    rw [plinear_eq, linearIsotropic_eq] at h
    have e1 := congrFun (congrFun h 0) 0
    simp only [linear, Matrix.add_apply, Matrix.smul_apply, Matrix.one_apply_eq, smul_eq_mul, Nat.cast_ofNat] at e1
    have : (G0 + dG) * H.trace = 0 := by linarith
    rcases mul_eq_zero.1 this with h | h
    · exact hG h
    · exact ht h
  · intro hp h1 h
    rw [pnh2, nh2, pnh_eq _ det2', nh_eq _ det2', if_neg (not_le.2 hp), if_neg (not_le.2 hp)] at h
    have e1 := congrFun (congrFun (Option.some.inj h) 0) 0
    simp only [Matrix.add_apply, Matrix.smul_apply, Matrix.one_apply_eq, smul_eq_mul, Nat.cast_ofNat] at e1
    have e2 := mul_left_cancel₀ (inv_ne_zero hp.ne') e1
    have : (G0 + dG) * Real.log (1 + H).det = 0 := by linarith
    rcases mul_eq_zero.1 this with h | h
    · exact hG h
    · rcases Real.log_eq_zero.1 h with h | h | h
      · exact hp.ne' h
      · exact h1 h
      · linarith

/-! ## Concrete instances -/

/-- A rotation by 90 degrees. -/
example : IsRotation (!![0, -1; 1, 0] : Matrix (Fin 2) (Fin 2) ℝ) := by
  refine ⟨?_, by simp [Matrix.det_fin_two]⟩
  ext i j
  fin_cases i <;> fin_cases j <;> simp [Matrix.mul_apply]

/-- Uniaxial stretch by 2: the neo-Hookean model is defined, and the area changes. -/
example : (0 : ℝ) < (1 + (!![1, 0; 0, 0] : Matrix (Fin 2) (Fin 2) ℝ)).det ∧ (1 + (!![1, 0; 0, 0] : Matrix (Fin 2) (Fin 2) ℝ)).det ≠ 1 ∧
    (!![1, 0; 0, 0] : Matrix (Fin 2) (Fin 2) ℝ).trace ≠ 0 := by
  simp [Matrix.det_fin_two, Matrix.trace_fin_two]

/-- A curve through zero with non-zero derivative, as in `LinearisesTo`. -/
example : ∃ (H : ℝ → Matrix (Fin 3) (Fin 3) ℝ) (H' : Matrix (Fin 3) (Fin 3) ℝ), H' ≠ 0 ∧ H 0 = 0 ∧ ∀ i j, HasDerivAt (fun t => H t i j) (H' i j) 0 :=
  ⟨fun t => t • 1, 1, one_ne_zero, by simp, fun i j => by simpa using (hasDerivAt_id (0 : ℝ)).mul_const ((1 : Matrix (Fin 3) (Fin 3) ℝ) i j)⟩

/-- A skew matrix. -/
example : (!![0, -1; 1, 0] : Matrix (Fin 2) (Fin 2) ℝ)ᵀ = -!![0, -1; 1, 0] := by
  ext i j
  fin_cases i <;> fin_cases j <;> simp

end Serac.C31
