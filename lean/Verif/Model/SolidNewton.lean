import Verif.Model.SolidStatics
/-!
# The Newton solves of transient solid mechanics

`/repo/src/serac/physics/solid_mechanics.hpp` 1164-1209 (`completeSetup` of a dynamic problem: residual and Jacobian in terms of the acceleration) as the problem that the
Newton solver of `Verif.Model.Newton` gets from the second-order integrator (odes.cpp 190, `Verif.Model.Ode`).

The linear solver is a parameter, called with the eliminated matrix; tolerances of it are not modelled.  The residual vector that the Newton solver keeps between calls starts at
zero in every solve, which no theorem uses: `Newton.mult` overwrites it first.  Parameters and material state are not part of this model.
-/

noncomputable section
namespace Serac.Solid
open Serac.Tensor Serac.Transform Serac.Kernels

namespace Loaded
variable {d : Dim} (L : Loaded d)

/-- The problem the nonlinear solver sees (1171-1209). -/
def dynamicProblem (A : Moduli d) (old old' : Buffer ℝ) (o : StaticSolver L.B.N) (fixed : List (Fin L.B.N)) (st : Ode.State2 L.B.N) : Newton.Problem (Ode.Vec L.B.N) (Ode.Vec L.B.N) where
  oper := Elim.residualOp (fun a => some (L.residual st.time (fun m => 1 * st.u m + st.c0 * a m) a)) fixed
  norm := o.norm
  correction a r := o.linear (L.dynamicJacobian A old old' fixed st a).1 r

/-- `nonlinear_solver_.solve(d2u_dt2)` from a guess. -/
def dynamicSolve (A : Moduli d) (old old' : Buffer ℝ) (o : StaticSolver L.B.N) (fixed : List (Fin L.B.N)) (rep : Newton.Report) (st : Ode.State2 L.B.N) (guess : Ode.Vec L.B.N) :
    Ode.Vec L.B.N := (Newton.mult (L.dynamicProblem A old old' o fixed st) o.newton guess 0 rep).1.x

end Loaded
end Serac.Solid
