import Verif.Model.Ode
/-!
# The integrators of second-order equations

Model of the choice of integrator in `SecondOrderODE::SetTimestepper` (odes.cpp:22-74) and of `SecondOrderODE::Step` (odes.cpp:76-118) with each of them.  mfem's
classes are external; their steps are written out from mfem's `linalg/ode.cpp` and are assumptions, recorded in DESIGN.md.  The time at which
`GeneralizedAlpha2Solver` evaluates the equation is kept as a parameter (`stage`, as a fraction of the step; mfem's `f->SetTime(t + dt)` is `1`).
-/

noncomputable section
namespace Serac.Ode

/-- Parameters of `mfem::GeneralizedAlpha2Solver`. -/
structure Alpha where
  am : ℝ
  af : ℝ
  beta : ℝ
  gamma : ℝ
  stage : ℝ

/-- `mfem::HHTAlphaSolver(alpha)` (external, assumed). -/
def Alpha.hht (alpha : ℝ) : Alpha := ⟨1, alpha, (2 - alpha) * (2 - alpha) / 4, 1 / 2 + 1 - alpha, 1⟩

/-- `mfem::WBZAlphaSolver(rho_inf)` (external, assumed). -/
def Alpha.wbz (rho : ℝ) : Alpha :=
  ⟨2 / (1 + rho), 1, 1 / 4 * ((1 + 2 / (1 + rho) - 1) * (1 + 2 / (1 + rho) - 1)), 1 / 2 + 2 / (1 + rho) - 1, 1⟩

/-- `mfem::AverageAccelerationSolver` (external, assumed), with the stage at the fraction `θ` of the step. -/
def Alpha.average (θ : ℝ) : Alpha := ⟨1 / 2, 1 / 2, 1 / 4, 1 / 2, θ⟩

/-- `mfem::GeneralizedAlpha2Solver::Step` (external, assumed).  `Mult` is `Solve(t, 0, 0, u, du)` (odes.hpp:111-114), `ImplicitSolve` is `Solve(t, c0, c1, u, du)`
(odes.hpp:125-129). -/
def alphaStep {n : ℕ} (b : BCs n) (m : Enforce) (solve : State2 n → Vec n → Vec n) (A : Alpha) (dt : ℝ) (r : Run2 n) : Option (Run2 n) :=
  (if r.first then (solve2 b m solve r.st r.t 0 0 r.x r.dxdt) else some (r.st, r.d2xdt2)).bind fun (st, a) =>
  let c0 := A.beta * A.af / A.am * dt * dt
  let c1 := A.gamma * A.af / A.am * dt
  let va0 := fun i => r.dxdt i + ((1 / 2 - A.beta / A.am) * dt) * a i
  let xa := fun i => r.x i + (A.af * dt) * va0 i
  let va := fun i => r.dxdt i + (A.af * (1 - A.gamma / A.am) * dt) * a i
  (solve2 b m solve st (r.t + A.stage * dt) c0 c1 xa va).map fun (st', aa) =>
    { st := st'
      x := fun i => (1 - 1 / A.af) * r.x i + 1 / A.af * (xa i + c0 * aa i)
      dxdt := fun i => (1 - 1 / A.af) * r.dxdt i + 1 / A.af * (va i + c1 * aa i)
      d2xdt2 := fun i => (1 - 1 / A.am) * a i + 1 / A.am * aa i
      first := false
      t := r.t + dt }

/-- `SecondOrderODE::Step` with `GeneralizedAlpha2Solver` (odes.cpp:77-98). -/
def stepAlpha {n : ℕ} (b : BCs n) (m : Enforce) (solve : State2 n → Vec n → Vec n) (A : Alpha) (dt : ℝ) (r : Run2 n) : Option (Run2 n) :=
  (alphaStep b m solve A dt r).map (afterStep b m)

/-- What `SetTimestepper` constructs. -/
inductive Integrator
  | newmark (beta gamma : ℝ)
  | alpha (A : Alpha)
  | euler

/-- The switch of `SecondOrderODE::SetTimestepper` (odes.cpp:26-60), with the default arguments of mfem's constructors (external, assumed); `none` is `SLIC_ERROR_ROOT`. -/
def integratorOf : Method → Option Integrator
  | .Newmark => some (.newmark (1 / 4) (1 / 2))
  | .HHTAlpha => some (.alpha (.hht 1))
  | .WBZAlpha => some (.alpha (.wbz 1))
  | .AverageAcceleration => some (.alpha (.average 1))
  | .LinearAcceleration => some (.newmark (1 / 6) (1 / 2))
  | .CentralDifference => some (.newmark 0 (1 / 2))
  | .FoxGoodwin => some (.newmark (1 / 12) (1 / 2))
  | .BackwardEuler => some .euler
  | _ => none

/-- `SecondOrderODE::Step` (odes.cpp:76-118). -/
def stepBy {n : ℕ} (b : BCs n) (m : Enforce) (solve : State2 n → Vec n → Vec n) : Integrator → ℝ → Run2 n → Option (Run2 n)
  | .newmark β γ => step2 b m solve β γ
  | .alpha A => stepAlpha b m solve A
  | .euler => stepBE2 b m solve

/-- A run of `SecondOrderODE` after `SetTimestepper(method)`; `none` if the method is not supported. -/
def runMethod {n : ℕ} (b : BCs n) (m : Enforce) (solve : State2 n → Vec n → Vec n) (method : Method) (dts : List ℝ) (r : Run2 n) : Option (Run2 n) :=
  (integratorOf method).bind fun k => runSteps (stepBy b m solve k) dts r

end Serac.Ode
