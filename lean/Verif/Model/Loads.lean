import Verif.Model.Transforms
/-!
# Loads

* `/repo/src/serac/physics/solid_mechanics.hpp` 936-963 (`BodyForceIntegrand`), 1022-1037 (`setTraction`), 1068-1102 (`setPressure`);
* `/repo/src/serac/physics/heat_transfer.hpp` 391-402 (`ThermalMaterialIntegrand`), 487-505 (`setSource`), 537-553 (`setFluxBCs`);
* the boundary kernel `/repo/src/serac/numerics/functional/boundary_integral_kernels.hpp` 114-160 and the wrapper for shape displacements
  `/repo/src/serac/numerics/functional/shape_aware_functional.hpp` 156-174, 475-499.

Exact arithmetic.  A division by the norm of a zero vector (infinities and NaNs in the code) has the outcome `none`.  Extra parameters of the user's functions are fixed; the
derivatives of fields on a face are with respect to the coordinates of the face, as in the code.
-/

noncomputable section
namespace Serac.Loads
open Serac.Tensor Serac.Transform

/-- Division of a vector by a norm. -/
def divN {n : ℕ} (A : Vec ℝ n) (s : ℝ) : Option (Vec ℝ n) := open Classical in if s = 0 then none else some (divV A s)

/-- A field on a face of a body in three (two) dimensions: value and derivative. -/
abbrev Face3 := Vec ℝ 3 × Mat ℝ 3 2
abbrev Face2 := Vec ℝ 2 × Vec ℝ 2

/-- `tuple + tuple`. -/
def add3 (a b : Face3) : Face3 := (addV a.1 b.1, addM a.2 b.2)
def add2 (a b : Face2) : Face2 := (addV a.1 b.1, addV a.2 b.2)

/-- `0.0 * tuple`. -/
def zero3 (a : Face3) : Face3 := (smulV a.1 0, smulM a.2 0)
def zero2 (a : Face2) : Face2 := (smulV a.1 0, smulV a.2 0)

/-- solid_mechanics.hpp:1078-1099, three dimensions: the integrand of a pressure load.  `on` is `geom_nonlin == GeometricNonlinearities::On`. -/
def pressure3 (on : Bool) (f : Vec ℝ 3 → ℝ → ℝ) (t : ℝ) (u X : Face3) : Option (Vec ℝ 3) :=
  let x := add3 X (zero3 u)
  let x := if on then add3 x u else x
  (divN (crossCols x.2) (Transform.norm (crossCols X.2))).map fun n => smulV n (f X.1 t)

/-- The same in two dimensions. -/
def pressure2 (on : Bool) (f : Vec ℝ 2 → ℝ → ℝ) (t : ℝ) (u X : Face2) : Option (Vec ℝ 2) :=
  let x := add2 X (zero2 u)
  let x := if on then add2 x u else x
  (divN (crossFace2 x.2) (Transform.norm (crossFace2 X.2))).map fun n => smulV n (f X.1 t)

/-- solid_mechanics.hpp:1031-1034: the integrand of a traction. -/
def traction3 (f : Vec ℝ 3 → Vec ℝ 3 → ℝ → Vec ℝ 3) (t : ℝ) (X : Face3) : Option (Vec ℝ 3) :=
  (divN (crossCols X.2) (Transform.norm (crossCols X.2))).map fun n => smulV (f X.1 n t) (-1)

def traction2 (f : Vec ℝ 2 → Vec ℝ 2 → ℝ → Vec ℝ 2) (t : ℝ) (X : Face2) : Option (Vec ℝ 2) :=
  (divN (crossFace2 X.2) (Transform.norm (crossFace2 X.2))).map fun n => smulV (f X.1 n t) (-1)

/-- heat_transfer.hpp:546-549: the integrand of a heat flux, a function of position, normal, time and temperature. -/
def flux3 (f : Vec ℝ 3 → Vec ℝ 3 → ℝ → ℝ → ℝ) (t temp : ℝ) (X : Face3) : Option (Vec ℝ 1) :=
  (divN (crossCols X.2) (Transform.norm (crossCols X.2))).map fun n => fun _ => f X.1 n t temp

/-- shape_aware_functional.hpp:495-498 with 156-174. -/
def shaped3 {c : ℕ} (qf : Face3 → Option (Vec ℝ c)) (p X : Face3) : Option (Vec ℝ c) :=
  open Classical in (qf (add3 X p)).bind fun r => if Transform.norm (crossCols X.2) = 0 then none else some (smulV r (areaCorrection3 X.2 p.2))

def shaped2 {c : ℕ} (qf : Face2 → Option (Vec ℝ c)) (p X : Face2) : Option (Vec ℝ c) :=
  open Classical in (qf (add2 X p)).bind fun r => if Transform.norm (crossFace2 X.2) = 0 then none else some (smulV r (areaCorrection2 X.2 p.2))

/-- boundary_integral_kernels.hpp:151-153: the result is multiplied by the area of the face. -/
def weigh3 {c : ℕ} (qf : Face3 → Option (Vec ℝ c)) (X : Face3) : Option (Vec ℝ c) := (qf X).map fun r => smulV r (Transform.norm (crossCols X.2))

def weigh2 {c : ℕ} (qf : Face2 → Option (Vec ℝ c)) (X : Face2) : Option (Vec ℝ c) := (qf X).map fun r => smulV r (Transform.norm (crossFace2 X.2))

/-- What a load leaves at one point of the boundary, before quadrature weight and test functions. -/
def pressureAt3 (on : Bool) (f : Vec ℝ 3 → ℝ → ℝ) (t : ℝ) (X p u : Face3) : Option (Vec ℝ 3) := weigh3 (shaped3 (pressure3 on f t u) p) X
def pressureAt2 (on : Bool) (f : Vec ℝ 2 → ℝ → ℝ) (t : ℝ) (X p u : Face2) : Option (Vec ℝ 2) := weigh2 (shaped2 (pressure2 on f t u) p) X
def tractionAt3 (f : Vec ℝ 3 → Vec ℝ 3 → ℝ → Vec ℝ 3) (t : ℝ) (X p : Face3) : Option (Vec ℝ 3) := weigh3 (shaped3 (traction3 f t) p) X
def tractionAt2 (f : Vec ℝ 2 → Vec ℝ 2 → ℝ → Vec ℝ 2) (t : ℝ) (X p : Face2) : Option (Vec ℝ 2) := weigh2 (shaped2 (traction2 f t) p) X
def fluxAt3 (f : Vec ℝ 3 → Vec ℝ 3 → ℝ → ℝ → ℝ) (t temp : ℝ) (X p : Face3) : Option (Vec ℝ 1) := weigh3 (shaped3 (flux3 f t temp) p) X

/-- solid_mechanics.hpp:851 and 961: density times acceleration, and minus the body force, as sources of the residual. -/
def inertia {d : ℕ} (density : ℝ) (a : Vec ℝ d) : Vec ℝ d := smulV a density
def bodyForce {d : ℕ} (b : Vec ℝ d) : Vec ℝ d := smulV b (-1)

/-- heat_transfer.hpp:401 and 502: the sources of the residual of heat transfer. -/
def heating (capacity rate : ℝ) : ℝ := capacity * rate
def heatSource (s : ℝ) : ℝ := -1 * s

/-- A residual: sums over quadrature points of weight, test function and source, and of weight, gradient of the test function and flux (domain integrals, with the weights
including the volume factor), and over boundary points of weight, test function and load. -/
def residual {n d c nq nb : ℕ} (w : Fin nq → ℝ) (N : Fin nq → Fin n → ℝ) (B : Fin nq → Fin n → Fin d → ℝ) (source : Fin nq → Vec ℝ c) (flux : Fin nq → Mat ℝ c d)
    (wb : Fin nb → ℝ) (Nb : Fin nb → Fin n → ℝ) (load : Fin nb → Vec ℝ c) (a : Fin n) (i : Fin c) : ℝ :=
  (∑ q, w q * (N q a * source q i + ∑ j, B q a j * flux q i j)) + ∑ s, wb s * (Nb s a * load s i)

end Serac.Loads
