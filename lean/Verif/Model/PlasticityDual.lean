import Verif.Model.Plasticity
/-!
# J2 plasticity with derivatives

`J2SmallStrain::operator()` (`/repo/src/serac/physics/materials/solid_material.hpp:218-257`) called, as assembly does, with a displacement gradient whose entries are
dual numbers; the tensor functions it uses (`tensor.hpp` 1020-1029, 1044-1048, 1089-1096, 1104-1113, 1140-1148; `isotropic_tensor.hpp` 72-75, 146-155) at that type, and the part
of `solve_scalar_equation` for parameters that are dual (`tuple_tensor_dual_functions.hpp` 657-669).

The gradient type is any real vector space, as in `Dual.lean`.  The gradient of `q` is not a number where `eta = 0`; it is used only after `q > 0` has been established.
-/

noncomputable section
namespace Serac.J2
open Serac.Tensor

variable {G : Type} [AddCommGroup G] [Module ℝ G]

/-- `tensor<dual<G>, 3, 3>` -/
abbrev MatD (G : Type) := Fin 3 → Fin 3 → Dual G

/-- `T total{}` -/
def zeroD : Dual G := ⟨0, 0⟩

/-- `tr` (tensor.hpp:1089-1096) -/
def trD (A : MatD G) : Dual G := Fin.foldl 3 (fun s i => s.add (A i i)) zeroD

/-- `sym` (1104-1113) -/
def symD (A : MatD G) : MatD G := fun i j => .mulL (1 / 2) ((A i j).add (A j i))

/-- `dev` (1140-1148) -/
def devD (A : MatD G) : MatD G :=
  Fin.foldl 3 (fun (D : MatD G) i => Function.update D i (Function.update (D i) i ((D i i).sub ((trD A).divR 3)))) A

/-- `squared_norm` (1020-1029) -/
def sqNormD (A : MatD G) : Dual G := Fin.foldl 3 (fun s i => Fin.foldl 3 (fun s j => s.add ((A i j).mul (A i j))) s) zeroD

/-- `norm` (1044-1048) -/
def normD (A : MatD G) : Dual G := (sqNormD A).sqrt

/-- Elastic predictor (solid_material.hpp:225-231). -/
def predictorD (P : Params) (st : State) (du : MatD G) : Dual G × MatD G × MatD G × Dual G :=
  let el : MatD G := fun i j => (symD du i j).subR (st.plasticStrain i j)
  let p := Dual.mulL (bulk P) (trD el)
  let s : MatD G := fun i j => .mulL (2 * shear P) (devD el i j)
  let sigmaB : Mat ℝ 3 3 := fun i j => 2 / 3 * P.Hk * st.plasticStrain i j
  let eta : MatD G := fun i j => (s i j).subR (sigmaB i j)
  (p, s, eta, .mulL (Real.sqrt (3 / 2)) (normD eta))

/-- `dual{x, -df / df_dx}` where `df` is the gradient of `f(x, params...)` (tuple_tensor_dual_functions.hpp:665-669), for the lambda `residual`
    (solid_material.hpp:235-237) at a `double` increment and a dual `trial_q`. -/
def rootD (P : Params) (eqpsOld : ℝ) (q : Dual G) (r : ScalarSolver.Result) : Dual G :=
  let f : Dual G := (q.subR ((3 * shear P + P.Hk) * r.x)).subR (P.Y (eqpsOld + r.x))
  ⟨r.x, (r.dfdx)⁻¹ • (-f.gradient)⟩

open Classical in
/-- `J2SmallStrain::operator()` (solid_material.hpp:218-257) with dual numbers: the stress with its derivative, and the new state. -/
def updateD (P : Params) (st : State) (du : MatD G) : Option (MatD G × State) :=
  if 1 - 2 * P.nu = 0 ∨ 1 + P.nu = 0 then none
  else
    let (p, s, eta, q) := predictorD P st du
    let pI : MatD G := fun i j => (Dual.mulL 1 p).mulR (if i = j then 1 else 0)
    if residual P st.eqps q.value 0 > tol * P.sigmaY then
      if 3 * shear P + P.Hk = 0 ∨ q.value = 0 then none
      else
        let upper := (q.value - P.Y st.eqps) / (3 * shear P + P.Hk)
        match ScalarSolver.solve (residual P st.eqps q.value) (dresidual P st.eqps) ⟨0, tol * P.sigmaY, 25⟩ 0 0 upper with
        | .ok r =>
          let delta := rootD P st.eqps q r
          let Np : MatD G := fun i j => (Dual.mulL (3 / 2) (eta i j)).div q
          let s' : MatD G := fun i j => (s i j).sub ((Dual.mulL (2 * shear P) delta).mul (Np i j))
          some (fun i j => (s' i j).add (pI i j), ⟨fun i j => st.plasticStrain i j + delta.value * (Np i j).value, st.eqps + delta.value⟩)
        | _ => none
    else some (fun i j => (s i j).add (pI i j), st)

end Serac.J2
