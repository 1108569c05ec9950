import Verif.Model.SurfaceLoads
import Verif.Model.SolidTangent
import Verif.Model.Elimination
/-!
# The Jacobian of heat transfer, and its nonlinear solves

What `HeatTransfer` hands to its nonlinear solver as gradient (`/repo/src/serac/physics/heat_transfer.hpp` 722-728 for quasi-static, 745-764 for transient problems):
the residual is evaluated with `differentiate_wrt` on the temperature, or on its rate, which stores the derivatives of every q-function
(`domain_integral_kernels.hpp` 196-203, `boundary_integral_kernels.hpp` 190-205, `Verif.Model.ElementKernels`); the gradients are assembled from the element matrices
(`functional.hpp` 655-735), and the essential dofs eliminated (`Verif.Model.Elimination`).  The solves: `advanceTimestep` of quasi-static problems (336-343) and the
nonlinear solver that `FirstOrderODE` calls (`Verif.Model.Ode`), with the Newton solver of `Verif.Model.Newton`.

The derivatives are those that dual numbers carry through the steps of a quadrature point (C12 for the arithmetic).  The derivatives of what the user's functions
return (material, sources, fluxes) are the parameter `D`; the theorems say when they are the true ones.  An argument the function does not use has a derivative of type
`zero` in the code, here the number zero.  Simplifications as in `Verif.Model.HeatResidual` and `Verif.Model.SurfaceLoads`: in particular the heat capacity is a
constant at each point.
-/

noncomputable section
namespace Serac.Heat
open Serac.Tensor Serac.Transform Serac.Kernels Serac.Solid Serac.Loads

/-- Derivatives of the user's functions: of the heat flux at a point by temperature and gradient, of a source at a time and point by temperature and gradient, of a
flux through the boundary by temperature. -/
structure Slopes (d : Dim) where
  fluxT : ℕ → ℝ → Vec ℝ d.n → Vec ℝ d.n
  fluxG : ℕ → ℝ → Vec ℝ d.n → Mat ℝ d.n d.n
  sourceT : Source d → ℝ → ℕ → ℝ → Vec ℝ d.n → ℝ
  sourceG : Source d → ℝ → ℕ → ℝ → Vec ℝ d.n → Vec ℝ d.n
  exchange : Flux d → Vec ℝ d.n → Vec ℝ d.n → ℝ → ℝ → ℝ

/-- With a dual temperature the source of the material (capacity times rate) is not dual, its flux is. -/
def conductShape : Shape := ⟨true, true, false, false⟩
/-- A source: no flux. -/
def sourceShape : Shape := ⟨false, false, true, true⟩
/-- A flux through the boundary: a source that depends on the temperature only. -/
def exchangeShape : Shape := ⟨false, true, true, true⟩

namespace Problem
variable {d : Dim} (S : Problem d)

/-- Derivatives of `ThermalMaterialIntegrand` with respect to a dual temperature: its parent gradient times the inverse Jacobian (finite_element.hpp:259-262), through
the functor, then times the inverse transpose and the determinant (300-305). -/
def conductGrad (D : Slopes d) : ℕ → (ℕ → ℝ) → (ℕ → ℕ → ℝ) → Deriv ℝ := fun p v g =>
  let J := S.jacobian S.elements (p / S.E.npts) (p % S.E.npts)
  let Ji := (inv d J).getD 0
  let JTi := (inv d (transpose J)).getD 0
  let G := dot (fun (i : Fin 1) (j : Fin d.n) => g i j) Ji 0
  ⟨fun _ _ => 0, fun _ _ _ => 0,
    fun _ l _ => flatV (fun l : Fin d.n => (∑ m, (-1 * D.fluxT p (v 0) G m) * JTi m l) * det d (transpose J)) l,
    fun _ l _ k => flatM (fun l k : Fin d.n => (∑ m, (∑ n, (-1 * D.fluxG p (v 0) G m n) * Ji k n) * JTi m l) * det d (transpose J)) l k⟩

/-- Derivatives of the q-function of `setSource`. -/
def sourceGrad (D : Slopes d) (src : Source d) (t : ℝ) : ℕ → (ℕ → ℝ) → (ℕ → ℕ → ℝ) → Deriv ℝ := fun p v g =>
  let J := S.jacobian src.elements (p / S.E.npts) (p % S.E.npts)
  let Ji := (inv d J).getD 0
  let G := dot (fun (i : Fin 1) (j : Fin d.n) => g i j) Ji 0
  ⟨fun _ _ => -1 * D.sourceT src t p (v 0) G * det d (transpose J),
    fun _ _ k => flatV (fun k : Fin d.n => (∑ n, (-1 * D.sourceG src t p (v 0) G n) * Ji k n) * det d (transpose J)) k,
    fun _ _ _ => 0, fun _ _ _ _ => 0⟩

/-- Derivatives of `ThermalMaterialIntegrand` with respect to a dual rate. -/
def storeGrad : ℕ → (ℕ → ℝ) → (ℕ → ℕ → ℝ) → Deriv ℝ := fun p _ _ =>
  let J := S.jacobian S.elements (p / S.E.npts) (p % S.E.npts)
  ⟨fun _ _ => (S.material p).capacity * det d (transpose J), fun _ _ _ => 0, fun _ _ _ => 0, fun _ _ _ _ => 0⟩

/-- The buffers of derivatives after an evaluation; `old` is what they held before. -/
def conductBuffer (D : Slopes d) (old : Buffer ℝ) (u : S.Nodal) : Buffer ℝ := evalDerivs S.E.npts S.E 1 (S.conductGrad D) S.elements (gatherE S.E.ndof S.conn (S.field u)) old
def sourceBuffer (D : Slopes d) (src : Source d) (t : ℝ) (old : Buffer ℝ) (u : S.Nodal) : Buffer ℝ :=
  evalDerivs S.E.npts S.E 1 (S.sourceGrad D src t) src.elements (gatherE S.E.ndof S.conn (S.field u)) old
def storeBuffer (old : Buffer ℝ) (a : S.Nodal) : Buffer ℝ := evalDerivs S.E.npts S.E 1 S.storeGrad S.elements (gatherE S.E.ndof S.conn (S.field a)) old

end Problem

/-- The tolerances of the linear solver are not modelled: it is a function of matrix and right-hand side; `norm` is the norm of residuals. -/
structure Solver (n : ℕ) where
  linear : Elim.Mat n → Elim.Vec n → Elim.Vec n
  norm : Elim.Vec n → Newton.Num
  newton : Newton.Options

/-- `time_`, `temperature_`, and the residual vector and report that the Newton solver keeps between calls. -/
structure Steady (n : ℕ) where
  time : ℝ
  u : Ode.Vec n
  r : Ode.Vec n
  rep : Newton.Report

namespace Exchange
variable {d : Dim} (X : Exchange d)

/-- Derivatives of a flux through the boundary with respect to a dual temperature: dual numbers carry its derivative through the same factors (heat_transfer.hpp:546-549,
`Verif.Model.Loads`). -/
def exchangeGrad (D : Slopes d) (l : Flux d) (t : ℝ) : ℕ → (ℕ → ℝ) → (ℕ → ℕ → ℝ) → Deriv ℝ := fun p v _ =>
  ⟨fun i _ => flatV ((fluxAt d (D.exchange l) t (v 0) (X.F.geometry X.S.pos l.elements (p / X.F.E.npts) (p % X.F.E.npts))).getD 0) i,
    fun _ _ _ => 0, fun _ _ _ => 0, fun _ _ _ _ => 0⟩

def exchangeBuffer (D : Slopes d) (l : Flux d) (t : ℝ) (old : Buffer ℝ) (u : X.S.Nodal) : Buffer ℝ :=
  evalDerivs X.F.E.npts X.F.E 1 (X.exchangeGrad D l t) l.elements (gatherE X.F.E.ndof X.F.conn (X.S.field u)) old

/-- `dR/du` applied to a direction: the integrals in the order of their calls (functional.hpp:410-428 with the action kernels). -/
def conductAction (D : Slopes d) (old : Buffer ℝ) (t : ℝ) (u du : X.S.Nodal) : X.S.Nodal :=
  X.fluxes.foldl (fun r l => r + fun n => scatterE X.F.E.ndof X.F.ne X.F.conn
      (actionKernel X.F.E X.F.E 1 1 exchangeShape (X.exchangeBuffer D l t old u) l.elements (gatherE X.F.E.ndof X.F.conn (X.S.field du)) fun _ => 0) n (0 : Fin 1))
    fun n => scatterE X.S.E.ndof X.S.ne X.S.conn
      (X.S.sources.foldl (fun r src => actionKernel X.S.E X.S.E 1 1 sourceShape (X.S.sourceBuffer D src t old u) src.elements
          (gatherE X.S.E.ndof X.S.conn (X.S.field du)) r)
        (actionKernel X.S.E X.S.E 1 1 conductShape (X.S.conductBuffer D old u) X.S.elements (gatherE X.S.E.ndof X.S.conn (X.S.field du)) fun _ => 0)) n (0 : Fin 1)

/-- `assemble(dR/du)`: the element matrices of all integrals. -/
def conductMatrix (D : Slopes d) (old : Buffer ℝ) (t : ℝ) (u : X.S.Nodal) : Elim.Mat X.S.nn := fun k m =>
  X.fluxes.foldl (fun x l => x + assembleE X.F.E.ndof X.F.ne X.F.conn
      (gradientKernel X.F.E X.F.E 1 1 exchangeShape (X.exchangeBuffer D l t old u) l.elements fun _ => 0) (k, (0 : Fin 1)) (m, 0))
    (assembleE X.S.E.ndof X.S.ne X.S.conn
      (X.S.sources.foldl (fun K src => gradientKernel X.S.E X.S.E 1 1 sourceShape (X.S.sourceBuffer D src t old u) src.elements K)
        (gradientKernel X.S.E X.S.E 1 1 conductShape (X.S.conductBuffer D old u) X.S.elements fun _ => 0)) (k, (0 : Fin 1)) (m, 0))

/-- `dR/du_dot` applied to a direction and assembled; sources and fluxes do not use the rate. -/
def storeAction (old : Buffer ℝ) (a da : X.S.Nodal) : X.S.Nodal := fun n =>
  scatterE X.S.E.ndof X.S.ne X.S.conn
    (actionKernel X.S.E X.S.E 1 1 massShape (X.S.storeBuffer old a) X.S.elements (gatherE X.S.E.ndof X.S.conn (X.S.field da)) fun _ => 0) n (0 : Fin 1)
def storeMatrix (old : Buffer ℝ) (a : X.S.Nodal) : Elim.Mat X.S.nn := fun k m =>
  assembleE X.S.E.ndof X.S.ne X.S.conn (gradientKernel X.S.E X.S.E 1 1 massShape (X.S.storeBuffer old a) X.S.elements fun _ => 0) (k, (0 : Fin 1)) (m, 0)

/-- `residual_with_bcs_` of a quasi-static problem (heat_transfer.hpp:711-721), `rate` is `temperature_rate_`. -/
def staticResidual (fixed : List (Fin X.S.nn)) (time : ℝ) (rate u : X.S.Nodal) : X.S.Nodal := fun n => if n ∈ fixed then 0 else X.residual time u rate n

/-- `J_` and `J_e_` of a quasi-static problem (heat_transfer.hpp:722-728). -/
def staticJacobian (D : Slopes d) (old : Buffer ℝ) (fixed : List (Fin X.S.nn)) (t : ℝ) (u : X.S.Nodal) : Elim.Mat X.S.nn × Elim.Mat X.S.nn :=
  (Elim.elim (X.conductMatrix D old t u) fixed, Elim.elimRest (X.conductMatrix D old t u) fixed)

/-- `J := M + dt K` of a transient problem (heat_transfer.hpp:745-760), before the elimination; then `J_` and `J_e_` (761). -/
def rateMatrix (D : Slopes d) (old old' : Buffer ℝ) (st : Ode.State1 X.S.nn) (k : X.S.Nodal) : Elim.Mat X.S.nn := fun i j =>
  1 * X.storeMatrix old' k i j + st.dt * X.conductMatrix D old st.time (fun m => 1 * st.u m + st.dt * k m) i j
def rateJacobian (D : Slopes d) (old old' : Buffer ℝ) (fixed : List (Fin X.S.nn)) (st : Ode.State1 X.S.nn) (k : X.S.Nodal) : Elim.Mat X.S.nn × Elim.Mat X.S.nn :=
  (Elim.elim (X.rateMatrix D old old' st k) fixed, Elim.elimRest (X.rateMatrix D old old' st k) fixed)

/-- The problem the nonlinear solver sees in a transient step (730-764), and what it makes of a guess: the solver that `FirstOrderODE` calls. -/
def rateProblem (D : Slopes d) (old old' : Buffer ℝ) (o : Solver X.S.nn) (fixed : List (Fin X.S.nn)) (st : Ode.State1 X.S.nn) : Newton.Problem (Ode.Vec X.S.nn) (Ode.Vec X.S.nn) where
  oper := Elim.residualOp (fun k => some (X.residual st.time (fun m => 1 * st.u m + st.dt * k m) k)) fixed
  norm := o.norm
  correction k r := o.linear (X.rateJacobian D old old' fixed st k).1 r
def rateSolve (D : Slopes d) (old old' : Buffer ℝ) (o : Solver X.S.nn) (fixed : List (Fin X.S.nn)) (rep : Newton.Report) (st : Ode.State1 X.S.nn) (guess : Ode.Vec X.S.nn) :
    Ode.Vec X.S.nn := (Newton.mult (X.rateProblem D old old' o fixed st) o.newton guess 0 rep).1.x

/-- The problem of a quasi-static step (708-728). -/
def staticProblem (D : Slopes d) (old : Buffer ℝ) (o : Solver X.S.nn) (fixed : List (Fin X.S.nn)) (time : ℝ) (rate : X.S.Nodal) :
    Newton.Problem (Ode.Vec X.S.nn) (Ode.Vec X.S.nn) where
  oper := Elim.residualOp (fun u => some (X.residual time u rate)) fixed
  norm := o.norm
  correction u r := o.linear (X.staticJacobian D old fixed time u).1 r

/-- `advanceTimestep(dt)` of a quasi-static problem (336-343): time, boundary values, solve. -/
def steadyStep (D : Slopes d) (old : Buffer ℝ) (o : Solver X.S.nn) (b : Ode.BCs X.S.nn) (rate : X.S.Nodal) (x : Steady X.S.nn) (dt : ℝ) : Steady X.S.nn :=
  let time := x.time + dt
  let u := b.essentials.foldl (fun v bc => bc.setDofs v time) x.u
  let s := Newton.mult (X.staticProblem D old o b.allDofs time rate) o.newton u x.r x.rep
  ⟨time, s.1.x, s.1.r, s.2⟩
def steadyRun (D : Slopes d) (old : Buffer ℝ) (o : Solver X.S.nn) (b : Ode.BCs X.S.nn) (rate : X.S.Nodal) (x : Steady X.S.nn) (dts : List ℝ) : Steady X.S.nn :=
  dts.foldl (X.steadyStep D old o b rate) x

end Exchange
end Serac.Heat
