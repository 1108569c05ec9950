import Verif.Model.Tensor
import Mathlib.Data.Real.Basic
import Mathlib.Algebra.Order.AbsoluteValue.Basic
/-!
# Heat conductors

`/repo/src/serac/physics/materials/thermal_material.hpp` 20-178, `numerics/functional/tensor.hpp` 1424-1479.

`double` is `ℝ`; a NaN (which passes every `< 0.0` test in C++) is not modelled.  A constructor that stops in `SLIC_ERROR_ROOT_IF` is `none`.
-/

noncomputable section
namespace Serac.Conductors
open Serac.Tensor

/-- `is_symmetric`, tensor.hpp 1431-1442: false as soon as an entry above the diagonal differs from its mirror image by more than the tolerance. -/
def isSymmetric {n : ℕ} (A : Mat ℝ n n) (tol : ℝ) : Prop := ¬ ∃ i j, i < j ∧ |A i j - A j i| > tol

/-- The default tolerance `1.0e-8`. -/
def tol : ℝ := 1 / 10 ^ 8

/-- `is_symmetric_and_positive_definite`, 2x2, tensor.hpp 1452-1464. -/
def isSPD2 (A : Mat ℝ 2 2) : Prop := isSymmetric A tol ∧ ¬ A 0 0 < 0 ∧ ¬ det2 A < 0

/-- `is_symmetric_and_positive_definite`, 3x3, tensor.hpp 1466-1479. -/
def isSPD3 (A : Mat ℝ 3 3) : Prop :=
  isSymmetric A tol ∧ ¬ det3 A < 0 ∧ isSPD2 (fun i j => A (i.castLE (by decide)) (j.castLE (by decide)))

/-- A material: heat capacity per volume and flux as functions of temperature and temperature gradient; `none` is a stop. -/
structure Material (d : ℕ) where
  capacity : ℝ
  flux : ℝ → Vec ℝ d → Option (Vec ℝ d)

open Classical in
/-- `LinearIsotropicConductor`, 20-68. -/
def isotropic (d : ℕ) (density cp k : ℝ) : Option (Material d) :=
  if k < 0 then none
  else if density < 0 then none
  else if cp < 0 then none
  else some ⟨density * cp, fun _ g => some fun i => (-1 * k) * g i⟩

open Classical in
/-- `IsotropicConductorWithLinearConductivityVsTemperature`, 71-125. -/
def temperatureDependent (d : ℕ) (density cp k0 slope : ℝ) : Option (Material d) :=
  if density < 0 then none
  else if cp < 0 then none
  else some ⟨density * cp, fun T g =>
    let k := k0 + slope * T
    if k < 0 then none else some fun i => (-1 * k) * g i⟩

open Classical in
/-- `LinearConductor<dim>`, 132-178; `spd` is the overload for the dimension.  `-1.0 * conductivity_ * temperature_gradient` scales the matrix, then applies
it. -/
def anisotropic {d : ℕ} (spd : Mat ℝ d d → Prop) (density cp : ℝ) (A : Mat ℝ d d) : Option (Material d) :=
  if density < 0 then none
  else if cp < 0 then none
  else if ¬ spd A then none
  else some ⟨density * cp, fun _ g => some (dotMV (fun i j => -1 * A i j) g)⟩

end Serac.Conductors
