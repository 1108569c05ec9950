import Verif.Model.Materials
/-!
# The thermoelastic material

`/repo/src/serac/physics/materials/green_saint_venant_thermoelastic.hpp` 15-19 (`greenStrain`, the same function as in `solid_material.hpp`), 22-78
(`GreenSaintVenantThermoelasticMaterial::operator()`), 85-98 (`calculateFreeEnergy`), 102-161 and 169-184 (the parameterized material);
`/repo/src/serac/physics/thermomechanics.hpp` 272-309 (`ThermalMaterialInterface`), 317-349 (`MechanicalMaterialInterface`).

`double` is ℝ; a division by zero or the logarithm of a non-positive number has outcome `none`.
-/

noncomputable section
namespace Serac.Thermo
open Serac.Tensor Serac.Mat

/-- The members of the material. -/
structure Material where
  density : ℝ
  E : ℝ
  nu : ℝ
  Cv : ℝ
  alpha : ℝ
  thetaRef : ℝ
  k : ℝ

/-- `serac::tuple{sigma, C_v, s0, q0}`. -/
structure Response where
  sigma : Mat ℝ 3 3
  heatCapacity : ℝ
  source : ℝ
  flux : Vec ℝ 3

/-- `K = E / (3.0 * (1.0 - 2.0 * nu))`. -/
def bulk (m : Material) : ℝ := m.E / (3 * (1 - 2 * m.nu))

/-- `G = 0.5 * E / (1.0 + nu)`. -/
def shear (m : Material) : ℝ := (1 / 2) * m.E / (1 + m.nu)

/-- The divisions in `K` and `G` are defined. -/
def Moduli (m : Material) : Prop := 3 * (1 - 2 * m.nu) ≠ 0 ∧ 1 + m.nu ≠ 0

open Classical in
/-- `operator()`: the outputs and the new `state.strain_trace`. -/
def respond (m : Material) (strainTrace : ℝ) (du : Mat ℝ 3 3) (theta : ℝ) (gradTheta : Vec ℝ 3) : Option (Response × ℝ) :=
  if ¬ Moduli m then none
  else
    let K := bulk m
    let G := shear m
    let F : Mat ℝ 3 3 := fun i j => du i j + identity 3 i j
    let Eg := greenStrain du
    let trEg := tr Eg
    let S : Mat ℝ 3 3 := fun i j => 2 * G * dev Eg i j + K * (trEg - 3 * m.alpha * (theta - m.thetaRef)) * identity 3 i j
    let P := dot F S
    if det3 F = 0 then none
    else some (⟨fun i j => dot P (transpose F) i j / det3 F, m.Cv, -3 * K * m.alpha * theta * (trEg - strainTrace), fun i => -m.k * gradTheta i⟩, trEg)

open Classical in
/-- `calculateFreeEnergy`. -/
def freeEnergy (m : Material) (du : Mat ℝ 3 3) (theta : ℝ) : Option ℝ :=
  if ¬ Moduli m ∨ m.thetaRef = 0 ∨ theta / m.thetaRef ≤ 0 then none
  else
    let K := bulk m
    let G := shear m
    let strain := greenStrain du
    let trE := tr strain
    let psi1 := G * sqNorm (dev strain) + (1 / 2) * K * trE * trE
    let logT := Real.log (theta / m.thetaRef)
    let psi2 := m.Cv * (theta - m.thetaRef - theta * logT)
    let psi3 := -3 * K * m.alpha * (theta - m.thetaRef) * trE
    some (psi1 + psi2 + psi3)

/-- Members of the parameterized material: as above, with `alpha0` for `alpha`.  Lines 139 and 176: `alpha = alpha0 * scale`, everything else is the same. -/
def respondParameterized (m : Material) (strainTrace : ℝ) (du : Mat ℝ 3 3) (theta : ℝ) (gradTheta : Vec ℝ 3) (scale : ℝ) : Option (Response × ℝ) :=
  respond { m with alpha := m.alpha * scale } strainTrace du theta gradTheta

def freeEnergyParameterized (m : Material) (du : Mat ℝ 3 3) (theta scale : ℝ) : Option ℝ := freeEnergy { m with alpha := m.alpha * scale } du theta

/-- Evaluations of one material point with the state carried from each to the next. -/
def evolve (m : Material) : ℝ → List (Mat ℝ 3 3 × ℝ × Vec ℝ 3) → Option (List Response × ℝ)
  | s, [] => some ([], s)
  | s, (du, theta, g) :: rest => do
    let (r, s') ← respond m s du theta g
    let (rs, s'') ← evolve m s' rest
    return (r :: rs, s'')

/-- A thermomechanical material as the adaptors see it: state, displacement gradient, temperature, temperature gradient. -/
abbrev Behaviour := ℝ → Mat ℝ 3 3 → ℝ → Vec ℝ 3 → Option (Response × ℝ)

/-- `ThermalMaterialInterface::operator()`: a fresh `State state{}` (zero), of the outputs only heat capacity and flux are returned. -/
def thermalInterface (mat : Behaviour) (theta : ℝ) (gradTheta : Vec ℝ 3) (du : Mat ℝ 3 3) : Option (ℝ × Vec ℝ 3) :=
  (mat 0 du theta gradTheta).map fun r => (r.1.heatCapacity, r.1.flux)

/-- `MechanicalMaterialInterface::operator()`: the stress and the new state. -/
def mechanicalInterface (mat : Behaviour) (state : ℝ) (du : Mat ℝ 3 3) (theta : ℝ) (gradTheta : Vec ℝ 3) : Option (Mat ℝ 3 3 × ℝ) :=
  (mat state du theta gradTheta).map fun r => (r.1.sigma, r.2)

end Serac.Thermo
