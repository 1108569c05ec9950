import Verif.Model.Plasticity
import Verif.Model.Eigen
/-!
# Finite deformation J2 plasticity

`J2` (`/repo/src/serac/physics/materials/solid_material.hpp:260-326`), for plain `double` displacement gradients.

`double` is ℝ.  The hardening law is a function `Y` with derivative `dY` (as in `Verif.Model.Plasticity`), the scalar solve is
`Verif.Model.ScalarSolver`, `log_symm` and `exp_symm` are those of `Verif.Model.Eigen`.  Division by zero, the logarithm of a number that is not
positive, an unbracketed root (`SLIC_ERROR`) and a division by zero in the solver have outcome `none`.
-/

noncomputable section
namespace Serac.FiniteJ2
open Serac.Tensor Serac.Eigen

/-- Members (266-269); `sigmaY` and `Y` are the hardening model. -/
structure Params where
  E : ℝ
  nu : ℝ
  sigmaY : ℝ
  Y : ℝ → ℝ
  dY : ℝ → ℝ

/-- `State` (272-275). -/
structure State where
  Fpinv : Mat ℝ 3 3
  eqps : ℝ

/-- `State{}`: the identity from the default initializer, the accumulated strain value-initialised. -/
def State.initial : State := ⟨identity 3, 0⟩

def tol : ℝ := 1 / 10 ^ 10

def bulk (P : Params) : ℝ := P.E / (3 * (1 - 2 * P.nu))
def shear (P : Params) : ℝ := (1 / 2) * P.E / (1 + P.nu)

/-- The lambda `residual` (298-300) -/
def residual (P : Params) (eqpsOld q delta : ℝ) : ℝ := q - 3 * shear P * delta - P.Y (eqpsOld + delta)

/-- Its derivative with respect to `delta`, as dual numbers compute it. -/
def dresidual (P : Params) (eqpsOld delta : ℝ) : ℝ := -(3 * shear P) - P.dY (eqpsOld + delta)

open Classical in
/-- `log_symm` where the logarithms of all computed eigenvalues exist. -/
def logSymm? (A : Mat ℝ 3 3) : Option (Mat ℝ 3 3) :=
  (eigSymm A).bind fun q => if ∀ k, 0 < q.1 k then logSymm A else none

/-- Lines 320-324: `dot(dot(inv(FeT), M), FeT) / det(F)` with `M = s + p * I`. -/
def cauchy (s : Mat ℝ 3 3) (p : ℝ) (Fe F : Mat ℝ 3 3) : Option (Mat ℝ 3 3) := do
  let M : Mat ℝ 3 3 := fun i j => s i j + p * identity 3 i j
  let FeT := transpose Fe
  let i ← inv3 FeT
  if det3 F = 0 then none
  else return fun a b => dot (dot i M) FeT a b / det3 F

open Classical in
/-- `J2::operator()` (278-325): the stress, the new state and, if the return map ran, the solver's status (which the code ignores). -/
def update (P : Params) (st : State) (du : Mat ℝ 3 3) : Option (Mat ℝ 3 3 × State × Option ScalarSolver.Result) :=
  if 1 - 2 * P.nu = 0 ∨ 1 + P.nu = 0 then none
  else do
    let K := bulk P
    let G := shear P
    let F : Mat ℝ 3 3 := fun i j => du i j + identity 3 i j
    let Fe := dot F st.Fpinv
    let L ← logSymm? (dot (transpose Fe) Fe)
    let Ee : Mat ℝ 3 3 := fun i j => (1 / 2) * L i j
    let p := K * tr Ee
    let s : Mat ℝ 3 3 := fun i j => 2 * G * dev Ee i j
    let q := Real.sqrt (3 / 2) * J2.norm s
    if residual P st.eqps q 0 > tol * P.sigmaY then
      if 3 * G = 0 ∨ q = 0 then none
      else
        let upper := (q - P.Y st.eqps) / (3 * G)
        match ScalarSolver.solve (residual P st.eqps q) (dresidual P st.eqps) ⟨0, tol * P.sigmaY, 25⟩ 0 0 upper with
        | .ok r =>
          let Np : Mat ℝ 3 3 := fun i j => 3 / 2 * s i j / q
          let s' : Mat ℝ 3 3 := fun i j => s i j - 2 * G * r.x * Np i j
          let A ← expSymm fun i j => -r.x * Np i j
          let Fe' := dot Fe A
          let sigma ← cauchy s' p Fe' F
          return (sigma, ⟨dot st.Fpinv A, st.eqps + r.x⟩, some r)
        | _ => none
    else
      let sigma ← cauchy s p Fe F
      return (sigma, st, none)

/-- A history of displacement gradients: the state after each evaluation is the start of the next. -/
def history (P : Params) : List (Mat ℝ 3 3) → State → Option State
  | [], st => some st
  | du :: rest, st => (update P st du).bind fun r => history P rest r.2.1

end Serac.FiniteJ2
