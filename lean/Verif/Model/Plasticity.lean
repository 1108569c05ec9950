import Verif.Model.Tensor
import Verif.Model.ScalarSolver
import Mathlib.Analysis.SpecialFunctions.Pow.Real
import Mathlib.Analysis.SpecialFunctions.Sqrt
/-!
# J2 plasticity

`LinearHardening`, `PowerLawHardening`, `VoceHardening` and `J2SmallStrain`
(`src/serac/physics/materials/solid_material.hpp:132-149, 154-171, 178-196, 200-258`), for plain `double` strains.

`double` is ℝ.  The hardening law is a function `Y`; `dY` is the derivative dual numbers give for it.  The scalar solve is
`Verif.Model.ScalarSolver`.  Division by zero, an unbracketed root (`SLIC_ERROR`) and a division by zero in the solver have outcome `none`.
-/

noncomputable section
namespace Serac.J2
open Serac.Tensor

/-- `LinearHardening` (solid_material.hpp:144-147) -/
def linearHardening (sigmaY Hi : ℝ) (a : ℝ) : ℝ := sigmaY + Hi * a

/-- `PowerLawHardening` (solid_material.hpp:166-170) -/
def powerLawHardening (sigmaY n eps0 : ℝ) (a : ℝ) : ℝ := sigmaY * (1 + a / eps0) ^ (1 / n)

/-- `VoceHardening` (solid_material.hpp:191-195) -/
def voceHardening (sigmaY sigmaSat c : ℝ) (a : ℝ) : ℝ := sigmaSat - (sigmaSat - sigmaY) * Real.exp (-a / c)

structure Params where
  E : ℝ
  nu : ℝ
  Hk : ℝ
  sigmaY : ℝ
  Y : ℝ → ℝ
  dY : ℝ → ℝ

structure State where
  plasticStrain : Mat ℝ 3 3
  eqps : ℝ

/-- `norm` (tensor.hpp:1044-1048) -/
def norm (A : Mat ℝ 3 3) : ℝ := Real.sqrt (sqNorm A)

def tol : ℝ := 1 / 10 ^ 10

def shear (P : Params) : ℝ := (1 / 2) * P.E / (1 + P.nu)
def bulk (P : Params) : ℝ := P.E / (3 * (1 - 2 * P.nu))

/-- The lambda `residual` (solid_material.hpp:235-237) -/
def residual (P : Params) (eqpsOld q delta : ℝ) : ℝ := q - (3 * shear P + P.Hk) * delta - P.Y (eqpsOld + delta)

/-- Its derivative with respect to `delta`, as dual numbers compute it. -/
def dresidual (P : Params) (eqpsOld delta : ℝ) : ℝ := -(3 * shear P + P.Hk) - P.dY (eqpsOld + delta)

/-- Elastic predictor (solid_material.hpp:225-231): `p`, `s`, `eta`, `q`. -/
def predictor (P : Params) (st : State) (du : Mat ℝ 3 3) : ℝ × Mat ℝ 3 3 × Mat ℝ 3 3 × ℝ :=
  let el : Mat ℝ 3 3 := fun i j => sym du i j - st.plasticStrain i j
  let p := bulk P * tr el
  let s : Mat ℝ 3 3 := fun i j => 2 * shear P * dev el i j
  let sigmaB : Mat ℝ 3 3 := fun i j => 2 / 3 * P.Hk * st.plasticStrain i j
  let eta : Mat ℝ 3 3 := fun i j => s i j - sigmaB i j
  (p, s, eta, Real.sqrt (3 / 2) * norm eta)

open Classical in
/-- `J2SmallStrain::operator()` (solid_material.hpp:218-257): the stress, the new state and, if the return map ran, the solver's status (which
the code ignores). -/
def update (P : Params) (st : State) (du : Mat ℝ 3 3) : Option (Mat ℝ 3 3 × State × Option ScalarSolver.Result) :=
  if 1 - 2 * P.nu = 0 ∨ 1 + P.nu = 0 then none
  else
    let (p, s, eta, q) := predictor P st du
    if residual P st.eqps q 0 > tol * P.sigmaY then
      if 3 * shear P + P.Hk = 0 ∨ q = 0 then none
      else
        let upper := (q - P.Y st.eqps) / (3 * shear P + P.Hk)
        match ScalarSolver.solve (residual P st.eqps q) (dresidual P st.eqps) ⟨0, tol * P.sigmaY, 25⟩ 0 0 upper with
        | .ok r =>
          let Np : Mat ℝ 3 3 := fun i j => 3 / 2 * eta i j / q
          let s' : Mat ℝ 3 3 := fun i j => s i j - 2 * shear P * r.x * Np i j
          some (fun i j => s' i j + p * identity 3 i j, ⟨fun i j => st.plasticStrain i j + r.x * Np i j, st.eqps + r.x⟩, some r)
        | _ => none
    else some (fun i j => s i j + p * identity 3 i j, st, none)

/-- A strain history: the state after each evaluation is the start of the next. -/
def history (P : Params) : List (Mat ℝ 3 3) → State → Option State
  | [], st => some st
  | du :: rest, st => (update P st du).bind fun r => history P rest r.2.1

end Serac.J2
