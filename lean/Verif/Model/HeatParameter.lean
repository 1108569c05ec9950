import Verif.Model.HeatTangent
import Verif.Model.ParameterTangent
import Verif.Model.TransientAdjoint
/-!
# Conductors with a parameter field, and the derivative of the thermal residual with respect to it

`HeatTransfer` hands the values of its parameter fields at a quadrature point to the material (`/repo/src/serac/physics/heat_transfer.hpp` 393-402 and 431-436; `params...` are
pairs of value and gradient, the materials of `materials/parameterized_thermal_material.hpp` use the values).  `computeTimestepSensitivity` (923-935) evaluates the residual
with `differentiate_wrt` on the parameter (`d_residual_d_`, 1057-1066), assembles the gradient and multiplies its transpose with the adjoint temperature.

Simplifications as in `Verif.Model.ParameterTangent` and `Verif.Model.HeatTangent`: one scalar parameter field, on which the material depends through its value; sources and
fluxes through the boundary do not depend on parameters.  (`ParameterizedSource` and `ParameterizedFlux`, parameterized_thermal_material.hpp:155-212, add the pair itself to a
number, which no operator of `tuple.hpp` allows; nothing in /repo uses them.)  A capacity that does not depend on the parameter has a derivative of type `zero` in the code,
here the number zero.
-/

noncomputable section
namespace Serac.Conductors
open Serac.Tensor

open Classical in
/-- `ParameterizedLinearIsotropicConductor`, parameterized_thermal_material.hpp:20-79: constructor and response for a value of the parameter. -/
def parameterizedIsotropic (d : ℕ) (density cp offset : ℝ) : Option (ℝ → Material d) :=
  if offset < 0 then none
  else if density < 0 then none
  else if cp < 0 then none
  else some fun θ => ⟨density * cp, fun _ g => some fun i => (-1 * (offset + θ)) * g i⟩

open Classical in
/-- `ParameterizedIsotropicConductorWithLinearConductivityVsTemperature`, parameterized_thermal_material.hpp:82-153. -/
def parameterizedTemperatureDependent (d : ℕ) (density cp offset slope : ℝ) : Option (ℝ → Material d) :=
  if density < 0 then none
  else if cp < 0 then none
  else some fun θ => ⟨density * cp, fun T g =>
    let k := offset + θ + slope * T
    if k < 0 then none else some fun i => (-1 * k) * g i⟩

end Serac.Conductors

namespace Serac.Heat
open Serac.Tensor Serac.Transform Serac.Kernels Serac.Solid Serac.Loads

/-- A heat transfer problem whose material depends on the value of a scalar field with element `E` and `nn` nodes; the material of `X` is not used. -/
structure Variant (d : Dim) where
  X : Exchange d
  E : Elem ℝ
  nn : ℕ
  conn : ℕ → ℕ → Fin nn
  law : ℕ → ℝ → Conductors.Material d.n

/-- Derivatives of the user's functions: those of the material at a point and parameter value, by temperature, gradient and parameter; `base` has those of the sources and of
the fluxes through the boundary. -/
structure ParamSlopes (d : Dim) where
  base : Slopes d
  fluxT : ℕ → ℝ → ℝ → Vec ℝ d.n → Vec ℝ d.n
  fluxG : ℕ → ℝ → ℝ → Vec ℝ d.n → Mat ℝ d.n d.n
  fluxP : ℕ → ℝ → ℝ → Vec ℝ d.n → Vec ℝ d.n
  capacityP : ℕ → ℝ → ℝ

/-- With a dual parameter source and flux of the material are dual, through the value only. -/
def parameterShape : Shape := ⟨false, true, false, true⟩

namespace Variant
variable {d : Dim} (V : Variant d)

/-- The parameter as a nodal field with one component. -/
def field (q : Ode.Vec V.nn) : Fin V.nn → Vec ℝ 1 := fun n _ => q n

/-- The value of the parameter at a point of the domain. -/
def value (q : Ode.Vec V.nn) (p : ℕ) : ℝ :=
  (interpolate V.E fun t => gatherE V.E.ndof V.conn (V.field q) (V.X.S.elements.getD (p / V.X.S.E.npts) 0 * (1 * V.E.ndof) + t)).value (p % V.X.S.E.npts) 0

/-- The problem for given parameters. -/
def problem (q : Ode.Vec V.nn) : Problem d := { V.X.S with material := fun p => V.law p (V.value q p) }
def body (q : Ode.Vec V.nn) : Exchange d := ⟨V.problem q, V.X.F, V.X.fluxes⟩

/-- `(*residual_)(time, shape, u, rate, parameter)` -/
def residual (t : ℝ) (u a : Ode.Vec V.X.S.nn) (q : Ode.Vec V.nn) : Ode.Vec V.X.S.nn := (V.body q).residual t u a

/-- Derivatives of `ThermalMaterialIntegrand` with respect to a dual parameter: temperature, gradient and rate at the point are not dual. -/
def paramGrad (D : ParamSlopes d) (u a : V.X.S.Nodal) : ℕ → (ℕ → ℝ) → (ℕ → ℕ → ℝ) → Deriv ℝ := fun p v _ =>
  let S := V.X.S
  let J := S.jacobian S.elements (p / S.E.npts) (p % S.E.npts)
  let Ji := (inv d J).getD 0
  let JTi := (inv d (transpose J)).getD 0
  let e := S.elements.getD (p / S.E.npts) 0
  let U := Problem.interp (d := d) 1 S.E (fun t => gatherE S.E.ndof S.conn (S.field u) (e * (1 * S.E.ndof) + t)) (p % S.E.npts)
  let R := Problem.interp (d := d) 1 S.E (fun t => gatherE S.E.ndof S.conn (S.field a) (e * (1 * S.E.ndof) + t)) (p % S.E.npts)
  let G := dot U.2 Ji 0
  ⟨fun _ _ => D.capacityP p (v 0) * R.1 0 * det d (transpose J), fun _ _ _ => 0,
    fun _ l _ => flatV (fun l : Fin d.n => (∑ m, (-1 * D.fluxP p (v 0) (U.1 0) G m) * JTi m l) * det d (transpose J)) l, fun _ _ _ _ => 0⟩

def paramBuffer (D : ParamSlopes d) (old : Buffer ℝ) (u a : V.X.S.Nodal) (q : Ode.Vec V.nn) : Buffer ℝ :=
  evalDerivs V.X.S.E.npts V.E 1 (V.paramGrad D u a) V.X.S.elements (gatherE V.E.ndof V.conn (V.field q)) old

/-- `assemble(drdparam)` -/
def paramMatrix (D : ParamSlopes d) (old : Buffer ℝ) (u a : Ode.Vec V.X.S.nn) (q : Ode.Vec V.nn) : Fin V.X.S.nn → Fin V.nn → ℝ := fun k n =>
  assembleP V.X.S.E.ndof V.E.ndof V.X.S.ne V.X.S.conn V.conn
    (gradientKernel V.X.S.E V.E 1 1 parameterShape (V.paramBuffer D old u a q) V.X.S.elements fun _ => 0) (k, (0 : Fin 1)) n

/-- The derivatives of the material for given parameters. -/
def slopes (D : ParamSlopes d) (q : Ode.Vec V.nn) : Slopes d :=
  { D.base with fluxT := fun p => D.fluxT p (V.value q p), fluxG := fun p => D.fluxG p (V.value q p) }

/-- The matrices of temperature and rate for given parameters. -/
def conductMatrix (D : ParamSlopes d) (old : Buffer ℝ) (t : ℝ) (u : Ode.Vec V.X.S.nn) (q : Ode.Vec V.nn) : Elim.Mat V.X.S.nn := (V.body q).conductMatrix (V.slopes D q) old t u
def storeMatrix (old : Buffer ℝ) (a : Ode.Vec V.X.S.nn) (q : Ode.Vec V.nn) : Elim.Mat V.X.S.nn := (V.body q).storeMatrix old a

/-- The transient analysis and its sensitivities with the assembled operators; `solve` is the nonlinear solve that backward Euler asks for, `linear` the linear solver. -/
def transient (D : ParamSlopes d) (old : Buffer ℝ) (conds : List (List (Fin V.X.S.nn))) (solve : ℝ → ℝ → Ode.Vec V.nn → Ode.Vec V.X.S.nn → Ode.Vec V.X.S.nn)
    (linear : Elim.Mat V.X.S.nn → Ode.Vec V.X.S.nn → Ode.Vec V.X.S.nn) : TransientAdj.Problem V.X.S.nn V.nn where
  conds := conds
  K t u _ q := V.conductMatrix D old t u q
  M _ _ a q := V.storeMatrix old a q
  P _ u a q := V.paramMatrix D old u a q
  solve := solve
  linear := linear

/-- The quasi-static analysis (`Verif.Model.StaticAdjoint`; heat_transfer.hpp:336-343, 858-873), `a` is `temperature_rate_`. -/
def steady (D : ParamSlopes d) (old : Buffer ℝ) (a : Ode.Vec V.X.S.nn) (conds : List (List (Fin V.X.S.nn))) (solve : ℝ → Ode.Vec V.nn → Ode.Vec V.X.S.nn → Ode.Vec V.X.S.nn)
    (linear : Elim.Mat V.X.S.nn → Ode.Vec V.X.S.nn → Ode.Vec V.X.S.nn) : StaticAdj.Problem V.X.S.nn V.nn where
  conds := conds
  residual t u q := V.residual t u a q
  K t u q := V.conductMatrix D old t u q
  P _ u q := V.paramMatrix D old u a q
  solve := solve
  linear := linear

end Variant
end Serac.Heat
