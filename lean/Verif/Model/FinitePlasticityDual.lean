import Verif.Model.FinitePlasticity
import Verif.Model.PlasticityDual
/-!
# Finite deformation J2 plasticity with derivatives

`J2::operator()` (`/repo/src/serac/physics/materials/solid_material.hpp:278-325`) called, as assembly does, with a displacement gradient whose entries are dual numbers.

The gradient type is a number: `log_symm` and `exp_symm` of dual numbers (`tuple_tensor_dual_functions.hpp` 962-1041) are modelled in `Eigen.lean` for that type; tensor-valued
gradients are treated component by component by the same code.  `det` (tensor.hpp:1248-1253), `dot` (730-756), `inv` (`Tensor.invDual`) and the operations with isotropic tensors
(isotropic_tensor.hpp 72-75, 146-155) are those of the code at the type of dual numbers; `tr`, `dev` and `norm` are those of `PlasticityDual.lean`.
-/

noncomputable section
namespace Serac.FiniteJ2
open Serac.Tensor Serac.Eigen
open Serac.J2 (MatD zeroD trD devD normD)

/-- `get_value` -/
def val (A : MatD ℝ) : Mat ℝ 3 3 := fun i j => (A i j).value
def grad (A : MatD ℝ) : Mat ℝ 3 3 := fun i j => (A i j).gradient

/-- `dot` of a matrix of dual numbers and one of `double`s. -/
def dotDR (A : MatD ℝ) (B : Mat ℝ 3 3) : MatD ℝ := fun i j => Fin.foldl 3 (fun s k => s.add ((A i k).mulR (B k j))) zeroD

/-- `dot` of two matrices of dual numbers. -/
def dotDD (A B : MatD ℝ) : MatD ℝ := fun i j => Fin.foldl 3 (fun s k => s.add ((A i k).mul (B k j))) zeroD

def transposeD (A : MatD ℝ) : MatD ℝ := fun i j => A j i

/-- `det` -/
def detDual (A : MatD ℝ) : Dual ℝ :=
  ((((((A 0 0).mul (A 1 1)).mul (A 2 2)).add (((A 0 1).mul (A 1 2)).mul (A 2 0))).add (((A 0 2).mul (A 1 0)).mul (A 2 1))).sub
    (((A 0 0).mul (A 1 2)).mul (A 2 1))).sub (((A 0 1).mul (A 1 0)).mul (A 2 2)) |>.sub (((A 0 2).mul (A 1 1)).mul (A 2 0))

/-- `log_symm` of dual numbers, where the logarithms exist. -/
def logSymmD (A : MatD ℝ) : Option (MatD ℝ) :=
  (logSymm? (val A)).bind fun L => (matDerivative logSecant (val A) (grad A)).map fun dL i j => ⟨L i j, dL i j⟩

/-- `exp_symm` of dual numbers. -/
def expSymmD (A : MatD ℝ) : Option (MatD ℝ) :=
  (expSymm (val A)).bind fun L => (matDerivative expSecant (val A) (grad A)).map fun dL i j => ⟨L i j, dL i j⟩

/-- Lines 320-324. -/
def cauchyD (s : MatD ℝ) (p : Dual ℝ) (Fe F : MatD ℝ) : Option (MatD ℝ) :=
  (invDual inv3 (transposeD Fe)).bind fun i =>
    if (detDual F).value = 0 then none
    else some fun a b => (dotDD (dotDD i fun k l => (s k l).add ((Dual.mulL 1 p).mulR (if k = l then 1 else 0))) (transposeD Fe) a b).div (detDual F)

/-- `dual{x, -df / df_dx}` (tuple_tensor_dual_functions.hpp:665-669) for the lambda `residual` (298-300) at a `double` increment and a dual `trial_mises`. -/
def rootDual (P : Params) (eqpsOld : ℝ) (q : Dual ℝ) (r : ScalarSolver.Result) : Dual ℝ :=
  let f : Dual ℝ := (q.subR (3 * shear P * r.x)).subR (P.Y (eqpsOld + r.x))
  ⟨r.x, (r.dfdx)⁻¹ • (-f.gradient)⟩

open Classical in
/-- Lines 292-324, from the logarithm on. -/
def finishD (P : Params) (st : State) (F Fe L : MatD ℝ) : Option (MatD ℝ × State) :=
  let Ee : MatD ℝ := fun i j => .mulL (1 / 2) (L i j)
  let p : Dual ℝ := .mulL (bulk P) (trD Ee)
  let s : MatD ℝ := fun i j => .mulL (2 * shear P) (devD Ee i j)
  let q : Dual ℝ := .mulL (Real.sqrt (3 / 2)) (normD s)
  if residual P st.eqps q.value 0 > tol * P.sigmaY then
    if 3 * shear P = 0 ∨ q.value = 0 then none
    else
      let upper := (q.value - P.Y st.eqps) / (3 * shear P)
      match ScalarSolver.solve (residual P st.eqps q.value) (dresidual P st.eqps) ⟨0, tol * P.sigmaY, 25⟩ 0 0 upper with
      | .ok r =>
        let delta := rootDual P st.eqps q r
        let Np : MatD ℝ := fun i j => (Dual.mulL (3 / 2) (s i j)).div q
        let s' : MatD ℝ := fun i j => (s i j).sub ((Dual.mulL (2 * shear P) delta).mul (Np i j))
        (expSymmD fun i j => delta.neg.mul (Np i j)).bind fun A =>
          (cauchyD s' p (dotDD Fe A) F).map fun sigma => (sigma, ⟨dot st.Fpinv (val A), st.eqps + delta.value⟩)
      | _ => none
  else (cauchyD s p Fe F).map fun sigma => (sigma, st)

open Classical in
/-- `J2::operator()` (278-325) with dual numbers: the stress with its derivative, and the new state. -/
def updateD (P : Params) (st : State) (du : MatD ℝ) : Option (MatD ℝ × State) :=
  if 1 - 2 * P.nu = 0 ∨ 1 + P.nu = 0 then none
  else
    let F : MatD ℝ := fun i j => (du i j).addR (1 * (if i = j then 1 else 0))
    let Fe := dotDR F st.Fpinv
    (logSymmD (dotDD (transposeD Fe) Fe)).bind fun L => finishD P st F Fe L

end Serac.FiniteJ2
