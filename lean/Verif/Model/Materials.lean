import Verif.Model.Tensor
import Mathlib.Analysis.SpecialFunctions.Log.Basic
/-!
# Elastic material models

`LinearIsotropic`, `greenStrain`, `StVenantKirchhoff`, `NeoHookean` (`src/serac/physics/materials/solid_material.hpp:24-50, 55-59, 62-92,
98-127`) and `ParameterizedLinearIsotropicSolid`, `ParameterizedNeoHookeanSolid`
(`src/serac/physics/materials/parameterized_solid_material.hpp:25-59, 65-104`).

`double` is ℝ.  Tensor operations are those of `Verif.Model.Tensor`; sums and scalings of tensors are entrywise (tensor.hpp:546-700).
`det` and `detApIm1` are overloaded for 2×2 and 3×3 in C++; here they are arguments, instantiated below.  Division by zero and the logarithm
of a non-positive number have outcome `none`.
-/

noncomputable section
namespace Serac.Mat
open Serac.Tensor

variable {d : ℕ}

/-- `LinearIsotropic::operator()` (solid_material.hpp:38-44). -/
def linearIsotropic (K G : ℝ) (du : Mat ℝ d d) : Mat ℝ d d :=
  let lam := K - (2 / 3) * G
  let eps : Mat ℝ d d := fun i j => (1 / 2) * (transpose du i j + du i j)
  fun i j => lam * tr eps * identity d i j + 2 * G * eps i j

/-- `greenStrain` (solid_material.hpp:55-59). -/
def greenStrain (du : Mat ℝ d d) : Mat ℝ d d :=
  fun i j => (1 / 2) * (du i j + transpose du i j + dot (transpose du) du i j)

/-- `StVenantKirchhoff::operator()` (solid_material.hpp:74-87). -/
def stVenantKirchhoff (det : Mat ℝ d d → ℝ) (K G : ℝ) (du : Mat ℝ d d) : Option (Mat ℝ d d) :=
  let F : Mat ℝ d d := fun i j => du i j + identity d i j
  let E := greenStrain du
  let S : Mat ℝ d d := fun i j => K * tr E * identity d i j + 2 * G * dev E i j
  let P := dot F S
  if det F = 0 then none else some fun i j => dot P (transpose F) i j / det F

/-- `NeoHookean::operator()` (solid_material.hpp:112-122). -/
def neoHookean (detApIm1 : Mat ℝ d d → ℝ) (K G : ℝ) (du : Mat ℝ d d) : Option (Mat ℝ d d) :=
  let lam := K - (2 / 3) * G
  let BmI : Mat ℝ d d := fun i j => dot du (transpose du) i j + transpose du i j + du i j
  let Jm1 := detApIm1 du
  let J := Jm1 + 1
  if Jm1 ≤ -1 then none else some fun i j => (lam * Real.log (1 + Jm1) * identity d i j + G * BmI i j) / J

/-- `ParameterizedLinearIsotropicSolid::operator()` (parameterized_solid_material.hpp:40-50). -/
def parameterizedLinearIsotropic (K0 G0 dK dG : ℝ) (du : Mat ℝ d d) : Mat ℝ d d :=
  let K := K0 + dK
  let G := G0 + dG
  let lam := K - (2 / (d : ℝ)) * G
  let eps : Mat ℝ d d := fun i j => (1 / 2) * (transpose du i j + du i j)
  fun i j => lam * tr eps * identity d i j + 2 * G * eps i j

/-- `ParameterizedNeoHookeanSolid::operator()` (parameterized_solid_material.hpp:81-94). -/
def parameterizedNeoHookean (detApIm1 : Mat ℝ d d → ℝ) (K0 G0 dK dG : ℝ) (du : Mat ℝ d d) : Option (Mat ℝ d d) :=
  let K := K0 + dK
  let G := G0 + dG
  let lam := K - (2 / (d : ℝ)) * G
  let BmI : Mat ℝ d d := fun i j => dot du (transpose du) i j + transpose du i j + du i j
  let Jm1 := detApIm1 du
  let J := Jm1 + 1
  if Jm1 ≤ -1 then none else some fun i j => (lam * Real.log (1 + Jm1) * identity d i j + G * BmI i j) / J

/-! The two- and three-dimensional instances. -/

def svk2 := stVenantKirchhoff (d := 2) det2
def svk3 := stVenantKirchhoff (d := 3) det3
def nh2 := neoHookean (d := 2) detApIm1_2
def nh3 := neoHookean (d := 3) detApIm1_3
def pnh2 := parameterizedNeoHookean (d := 2) detApIm1_2
def pnh3 := parameterizedNeoHookean (d := 3) detApIm1_3

end Serac.Mat
