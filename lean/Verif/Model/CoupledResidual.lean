import Verif.Model.SolidDynamics
import Verif.Model.SurfaceLoads
import Verif.Model.Thermoelastic
import Verif.Model.Thermomechanics
/-!
# The residuals and the steps of coupled thermomechanics, assembled

`Thermomechanics` (`/repo/src/serac/physics/thermomechanics.hpp`) owns a thermal and a mechanical module on one mesh with fields of one order (530-537).  `setMaterial` (377-387)
registers the material with both, each through its adaptor (272-349) and with the other module's field as parameter 0.  The integrands of the modules get that parameter as a
pair of value and gradient in physical coordinates (`heat_transfer.hpp` 393-402, `solid_mechanics.hpp` 833-852), after `parent_to_physical` (`finite_element.hpp` 240-286).
`advanceTimestep` (241-251) is `Verif.Model.Thermomechanics`; here its sub-solvers are a backward Euler step of the thermal module (`Verif.Model.Ode`) and a quasi-static
solve of the mechanical module (`solid_mechanics.hpp` 1620-1630), after which the module stores the internal variables (1278-1288).

The materials are the two of `green_saint_venant_thermoelastic.hpp`: `scale` is the value of the parameter of the parameterized one at each point, one for the other.
Nonlinear solvers are arbitrary functions of the residual operator they are given (and of state and guess); the Jacobian is determined by it.  Simplifications as in
`Verif.Model.SolidResidual`, `Verif.Model.HeatResidual` and `Verif.Model.Thermoelastic`: in particular a point with singular deformation gradient has no result, in the thermal
module too, where the code would discard the infinite stress.
-/

noncomputable section
namespace Serac.Coupled
open Serac.Tensor Serac.Transform Serac.Kernels Serac.Solid Serac.Heat Serac.Thermo

/-- The module: the mechanical side (whose material and density are not used), heat sources, boundary faces and heat fluxes through them, and the material. -/
structure Module where
  B : Body .three
  sources : List (Source .three)
  F : Faces B.S.nn B.S.ng
  fluxes : List (Heat.Flux .three)
  m : Material
  scale : ℕ → ℝ

/-- The response of `ThermalMaterialInterface` for a displacement gradient as a conductor. -/
def conductor (m : Material) (scale : ℝ) (H : Mat ℝ 3 3) : Conductors.Material 3 :=
  ⟨m.Cv, fun θ g => (thermalInterface (fun s du θ g => respondParameterized m s du θ g scale) θ g H).map Prod.snd⟩

namespace Module
variable (C : Module)

/-- `displacement`: gradient with respect to physical coordinates at a point of the domain. -/
def gradient (u : Ode.Vec C.B.N) (p : ℕ) : Mat ℝ 3 3 :=
  let S := C.B.S
  let idx := p / S.E.npts
  let Q := p % S.E.npts
  ((parentToPhysicalH1 .three (storeJacobian fun _ : Fin 1 => S.jacobian idx Q)
    (fun _ => Setup.interp (d := .three) S.E (fun t => gatherE S.E.ndof S.conn (C.B.nodal u) (S.elements.getD idx 0 * (3 * S.E.ndof) + t)) Q) 0).map Prod.snd).getD 0

/-- `temperature`: value and gradient at a point of the domain. -/
def temperature (T : Ode.Vec C.B.S.nn) (p : ℕ) : ℝ × Vec ℝ 3 :=
  let S := C.B.S
  let idx := p / S.E.npts
  let Q := p % S.E.npts
  ((parentToPhysicalH1 .three (storeJacobian fun _ : Fin 1 => S.jacobian idx Q)
    (fun _ => Problem.interp (d := .three) 1 S.E (fun t => gatherE S.E.ndof S.conn (fun n (_ : Fin 1) => T n) (S.elements.getD idx 0 * (1 * S.E.ndof) + t)) Q) 0).map
    fun v => (v.1 0, v.2 0)).getD 0

/-- A thermal module on the mesh with the given material. -/
def conduction (material : ℕ → Conductors.Material 3) : Exchange .three :=
  ⟨{ E := C.B.S.E, G := C.B.S.G, nn := C.B.S.nn, ng := C.B.S.ng, conn := C.B.S.conn, connG := C.B.S.connG, pos := C.B.S.pos, ne := C.B.S.ne, elements := C.B.S.elements,
     material := material, sources := C.sources }, C.F, C.fluxes⟩

/-- `thermal_` with the displacement as its parameter. -/
def thermal (u : Ode.Vec C.B.N) : Exchange .three := C.conduction fun p => conductor C.m (C.scale p) (C.gradient u p)

/-- `MechanicalMaterialInterface` at a point, for internal variables and temperatures. -/
def stress (T : Ode.Vec C.B.S.nn) (state : ℕ → ℝ) (p : ℕ) (H : Mat ℝ 3 3) : Option (Mat ℝ 3 3 × ℝ) :=
  mechanicalInterface (fun s du θ g => respondParameterized C.m s du θ g (C.scale p)) (state p) H (C.temperature T p).1 (C.temperature T p).2

/-- A mechanical module on the mesh with the given density and material. -/
def solid (density : ℝ) (material : ℕ → Mat ℝ 3 3 → Option (Mat ℝ 3 3)) : Body .three :=
  ⟨{ C.B.S with material := material, density := density }, C.B.forces, C.B.N, C.B.num⟩

/-- `solid_` with the temperature as its parameter. -/
def mechanical (T : Ode.Vec C.B.S.nn) (state : ℕ → ℝ) : Body .three := C.solid C.m.density fun p H => (C.stress T state p H).map Prod.fst

/-- The evaluation that stores the internal variables. -/
def store (T : Ode.Vec C.B.S.nn) (state : ℕ → ℝ) (u : Ode.Vec C.B.N) : ℕ → ℝ := fun p => ((C.stress T state p (C.gradient u p)).map Prod.snd).getD (state p)

/-- The mechanical module's own state: displacement and internal variables. -/
structure Solid (C : Module) where
  u : Ode.Vec C.B.N
  state : ℕ → ℝ

/-- The solvers of the sub-modules, functions of the residual. -/
structure Solvers (C : Module) where
  heat : (Ode.State1 C.B.S.nn → Ode.Vec C.B.S.nn → Ode.Vec C.B.S.nn) → Ode.State1 C.B.S.nn → Ode.Vec C.B.S.nn → Ode.Vec C.B.S.nn
  solid : ℝ → (Ode.Vec C.B.N → Ode.Vec C.B.N) → Ode.Vec C.B.N → Ode.Vec C.B.N

/-- A quasi-static solve of the mechanical module at temperature `T`. -/
def solidStep (o : Solvers C) (fixed : List (Fin C.B.N)) (t dt : ℝ) (T : Ode.Vec C.B.S.nn) (x : C.Solid) : C.Solid :=
  let u := o.solid (t + dt) (fun v k => if k ∈ fixed then 0 else (C.mechanical T x.state).residual (t + dt) v 0 k) x.u
  ⟨u, C.store T x.state u⟩

/-- The coupled module. -/
def setup (o : Solvers C) (b : Ode.BCs C.B.S.nn) (e : Ode.Enforce) (fixed : List (Fin C.B.N)) (heat0 : Ode.Run1 C.B.S.nn) (solid0 : C.Solid) :
    TM.Setup ℝ (Ode.Run1 C.B.S.nn) C.Solid (Ode.Vec C.B.N) (Ode.Vec C.B.S.nn) where
  add := (· + ·)
  zero := 0
  tickT := (· + ·)
  tickU := (· + ·)
  heat0 := heat0
  solid0 := solid0
  temperature r := r.x
  displacement x := x.u
  setTemperature r T := { r with x := T }
  setDisplacement x u := { x with u := u }
  heatStep _ dt u r := Ode.stepBE1 b e (o.heat ((C.thermal u).rateResidual b.allDofs)) dt r
  solidStep t dt T x := C.solidStep o fixed t dt T x

end Module
end Serac.Coupled
