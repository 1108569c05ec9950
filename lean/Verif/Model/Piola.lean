import Verif.Model.Materials
/-!
# Stress transport

`KirchhoffToPiola`, `CauchyToPiola` (`src/serac/physics/materials/solid_material.hpp:339-361`) and the flux of `MaterialStressFunctor`
(`src/serac/physics/solid_mechanics.hpp:834-852`).

`det` and `inv` are overloaded for 2×2 and 3×3; they are passed as one record, instantiated in `ops2`, `ops3`.  The inverse of a singular
matrix has outcome `none`.
-/

noncomputable section
namespace Serac.Piola
open Serac.Tensor

structure Ops (d : ℕ) where
  det : Mat ℝ d d → ℝ
  inv : Mat ℝ d d → Option (Mat ℝ d d)

/-- `det` and `inv` of 2×2 matrices (tensor.hpp:1242-1253, 1592-1627, see `Verif.Model.Tensor`). -/
def ops2 : Ops 2 := ⟨det2, inv2⟩
/-- `det` and `inv` of 3×3 matrices. -/
def ops3 : Ops 3 := ⟨det3, inv3⟩

variable {d : ℕ} (o : Ops d)

/-- `KirchhoffToPiola` (solid_material.hpp:339-343). -/
def kirchhoffToPiola (tau du : Mat ℝ d d) : Option (Mat ℝ d d) :=
  (o.inv fun i j => du i j + identity d i j).map fun Finv => transpose (dot Finv tau)

/-- `CauchyToPiola` (solid_material.hpp:356-361). -/
def cauchyToPiola (sigma du : Mat ℝ d d) : Option (Mat ℝ d d) :=
  let J := o.det fun i j => du i j + identity d i j
  kirchhoffToPiola o (fun i j => J * sigma i j) du

/-- `GeometricNonlinearities` (common.hpp:31-35); `true` is `On`. -/
abbrev GeomNonlin := Bool

/-- The flux of `MaterialStressFunctor::operator()` (solid_mechanics.hpp:838-850) from the stress the material returned. -/
def flux (gn : GeomNonlin) (stress du : Mat ℝ d d) : Option (Mat ℝ d d) :=
  let dxdX0 : Mat ℝ d d := fun i j => 0 * du i j + identity d i j
  let dxdX : Mat ℝ d d := if gn then fun i j => dxdX0 i j + du i j else dxdX0
  (o.inv dxdX).map fun Finv => fun i j => dot stress (transpose Finv) i j * o.det dxdX

/-- The whole flux for a material law (which may itself be undefined). -/
def materialFlux (gn : GeomNonlin) (material : Mat ℝ d d → Option (Mat ℝ d d)) (du : Mat ℝ d d) : Option (Mat ℝ d d) :=
  (material du).bind fun stress => flux o gn stress du

end Serac.Piola
