import Verif.Model.LU
import Verif.Model.Transforms
import Verif.Model.Materials
/-!
# Root finding and drivers for material models

* `find_root` (`/repo/src/serac/numerics/functional/tuple_tensor_dual_functions.hpp` 692-711);
* `uniaxial_stress_test`, `single_quadrature_point_test` (`/repo/src/serac/physics/materials/material_verification_tools.hpp` 41-121).

Exact arithmetic.  A function called with dual numbers is a function returning value and gradient (C12); undefined results of the material or of `linear_solve` (C14) are `none`.
`t_max / double(num_steps - 1)` is a division by zero for one step, and wraps around for none; neither value is used by a record.
-/

noncomputable section
namespace Serac.Drivers
open Serac.Tensor

/-- `epsilon` (:697). -/
def epsilon : ℝ := 1 / 10 ^ 8

/-- The loop of `find_root` (:702-708) with `k` passes left. -/
def rootLoop {n : ℕ} (f : Vec ℝ n → Option (Vec ℝ n × Mat ℝ n n)) : ℕ → Vec ℝ n → Option (Vec ℝ n)
  | 0, x => some x
  | k + 1, x => (f x).bind fun o =>
      open Classical in if Transform.norm o.1 < epsilon then some x
      else (LU.linearSolve o.2 o.1).bind fun d => rootLoop f k fun i => x i - d i

/-- `find_root` (:692-711): `max_iterations = 10`. -/
def findRoot {n : ℕ} (f : Vec ℝ n → Option (Vec ℝ n × Mat ℝ n n)) (x0 : Vec ℝ n) : Option (Vec ℝ n) := rootLoop f 10 x0

/-- A material with its parameters as functions of time: new state and stress, and the derivative of the two lateral stresses by the two lateral strains that comes with dual
numbers. -/
structure Material (St : Type) where
  respond : ℝ → St → Mat ℝ 3 3 → Option (St × Mat ℝ 3 3)
  tangent : ℝ → St → Mat ℝ 3 3 → Mat ℝ 2 2

/-- `du_dx` (:54-57, 74-76). -/
def axes (exx eyy ezz : ℝ) : Mat ℝ 3 3 := fun i j => if i = j then (![exx, eyy, ezz] : Vec ℝ 3) i else 0

/-- `sigma_yy_and_zz` (:49-61): the state is copied. -/
def lateral {St : Type} (M : Material St) (exx : ℝ → ℝ) (t : ℝ) (state : St) (x : Vec ℝ 2) : Option (Vec ℝ 2 × Mat ℝ 2 2) :=
  let du := axes (exx t) (x 0) (x 1)
  (M.respond t state du).map fun r => (![r.2 1 1, r.2 2 2], M.tangent t state du)

/-- What is stored at every step. -/
structure Record (St : Type) where
  t : ℝ
  du : Mat ℝ 3 3
  stress : Mat ℝ 3 3
  state : St

/-- The loop of `uniaxial_stress_test` (:71-82) with `n` passes left. -/
def uniaxialLoop {St : Type} (M : Material St) (exx : ℝ → ℝ) (dt : ℝ) : ℕ → ℝ → St → Mat ℝ 3 3 → Option (List (Record St))
  | 0, _, _, _ => some []
  | n + 1, t, state, du =>
    (findRoot (lateral M exx t state) ![du 1 1, du 2 2]).bind fun x =>
    let du' := axes (exx t) (x 0) (x 1)
    (M.respond t state du').bind fun r =>
    (uniaxialLoop M exx dt n (t + dt) r.1 du').map fun h => ⟨t, du', r.2, r.1⟩ :: h

/-- `uniaxial_stress_test` (:41-86). -/
def uniaxial {St : Type} (tmax : ℝ) (steps : ℕ) (M : Material St) (initial : St) (exx : ℝ → ℝ) : Option (List (Record St)) :=
  uniaxialLoop M exx (tmax / ((steps : ℝ) - 1)) steps 0 initial fun _ _ => 0

/-- What `single_quadrature_point_test` stores (:114): time, state, inputs, output. -/
structure Point (St In Out : Type) where
  t : ℝ
  state : St
  input : In
  output : Out

/-- Its loop (:112-116). -/
def pointLoop {St In Out : Type} (mat : St → In → Option (St × Out)) (f : ℝ → In) (dt : ℝ) : ℕ → ℝ → St → Option (List (Point St In Out))
  | 0, _, _ => some []
  | n + 1, t, state => (mat state (f t)).bind fun r => (pointLoop mat f dt n (t + dt) r.1).map fun h => ⟨t, r.1, f t, r.2⟩ :: h

/-- `single_quadrature_point_test` (:101-119). -/
def singlePoint {St In Out : Type} (tmax : ℝ) (steps : ℕ) (mat : St → In → Option (St × Out)) (initial : St) (f : ℝ → In) : Option (List (Point St In Out)) :=
  pointLoop mat f (tmax / ((steps : ℝ) - 1)) steps 0 initial

/-- `LinearIsotropic` as such a material; it has no state. -/
def linear (K G : ℝ) : Material Unit where
  respond _ _ du := some ((), Mat.linearIsotropic K G du)
  tangent _ _ _ := fun i j => (K - (2 / 3) * G) + (if i = j then 2 * G else 0)

end Serac.Drivers
