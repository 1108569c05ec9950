import Verif.Model.SolidTangent
/-!
# Quasi-static steps of solid mechanics

`/repo/src/serac/physics/solid_mechanics.hpp` 1620-1630 (`quasiStaticSolve`: warm start, new time, nonlinear solve), with the residual and the Jacobian of
1119-1141 on the assembled body of `Verif.Model.SurfaceLoads` and `Verif.Model.SolidTangent`, the warm start of `Verif.Model.Elimination` (1727-1770) and the Newton
solver of `Verif.Model.Newton`.

The linear solver is a parameter, called by the warm start and by every Newton iteration with the eliminated matrix.  `acceleration` is the vector the residual gets as
acceleration, zero unless the user has set it.  `old` is what the buffers of derivatives held before; parameters and material state are not part of this model.
-/

noncomputable section
namespace Serac.Solid
open Serac.Tensor Serac.Transform Serac.Kernels

/-- Options and external pieces of the solve: `use_warm_start_`, the linear solver, the norm the Newton solver uses, its options. -/
structure StaticSolver (n : ℕ) where
  warm : Bool
  linear : Elim.Mat n → Elim.Vec n → Elim.Vec n
  norm : Elim.Vec n → Newton.Num
  newton : Newton.Options

/-- `time_`, `displacement_`, and the residual vector and report that the Newton solver keeps between calls. -/
structure StaticState (n : ℕ) where
  time : ℝ
  u : Ode.Vec n
  r : Ode.Vec n
  rep : Newton.Report

namespace Loaded
variable {d : Dim} (L : Loaded d)

/-- The problem the nonlinear solver sees at a time (1119-1141). -/
def staticProblem (A : Moduli d) (old : Buffer ℝ) (o : StaticSolver L.B.N) (fixed : List (Fin L.B.N)) (time : ℝ) (acceleration : Ode.Vec L.B.N) :
    Newton.Problem (Ode.Vec L.B.N) (Ode.Vec L.B.N) where
  oper := Elim.residualOp (fun u => some (L.residual time u acceleration)) fixed
  norm := o.norm
  correction u r := o.linear (L.staticJacobian A old fixed time u).1 r

/-- `warmStartDisplacement(dt)`: residual at the new time, Jacobian at the old one. -/
def warmDisplacement (A : Moduli d) (old : Buffer ℝ) (o : StaticSolver L.B.N) (b : Ode.BCs L.B.N) (acceleration : Ode.Vec L.B.N) (dt : ℝ) (x : StaticState L.B.N) :
    Ode.Vec L.B.N :=
  Elim.warmStart b.allDofs (b.eval (x.time + dt)) x.u o.warm (L.stiffMatrix A old x.time x.u) (L.residual (x.time + dt) x.u acceleration) o.linear

/-- `quasiStaticSolve(dt)`. -/
def staticStep (A : Moduli d) (old : Buffer ℝ) (o : StaticSolver L.B.N) (b : Ode.BCs L.B.N) (acceleration : Ode.Vec L.B.N) (x : StaticState L.B.N) (dt : ℝ) :
    StaticState L.B.N :=
  let u := L.warmDisplacement A old o b acceleration dt x
  let s := Newton.mult (L.staticProblem A old o b.allDofs (x.time + dt) acceleration) o.newton u x.r x.rep
  ⟨x.time + dt, s.1.x, s.1.r, s.2⟩

/-- A sequence of calls of `advanceTimestep`. -/
def staticRun (A : Moduli d) (old : Buffer ℝ) (o : StaticSolver L.B.N) (b : Ode.BCs L.B.N) (acceleration : Ode.Vec L.B.N) (x : StaticState L.B.N) (dts : List ℝ) :
    StaticState L.B.N :=
  dts.foldl (L.staticStep A old o b acceleration) x

end Loaded
end Serac.Solid
