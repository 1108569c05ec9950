import Mathlib.Analysis.Real.Sqrt
import Mathlib.Analysis.SpecialFunctions.Trigonometric.Basic
/-!
# The time of a transient module

`/repo/src/serac/physics/heat_transfer.hpp` 334-374 and 919-920, `solid_mechanics.hpp` 1243-1295 and 1402-1403, `numerics/odes.cpp` 150-161, 257-297 and
300-310.

A transient `advanceTimestep` hands a copy of `time_` to the integrator and ignores it afterwards; `time_` changes only inside `Solve`, which stores the
time of the stage being solved (`state_.time` is a reference to `time_`).

The stage times of the integrators are mfem's (`mfem::ODESolver` and derived classes), an assumption: stage `i` of a step from `t` by `dt` is solved at
`t + cᵢ dt`.
-/

namespace Serac.StepTime

/-- Methods `FirstOrderODE::SetTimestepper` accepts, lines 261-295. -/
inductive Method where
  | backwardEuler | sdirk33 | forwardEuler | rk2 | rk3ssp | rk4 | generalizedAlpha | implicitMidpoint | sdirk23 | sdirk34
  deriving DecidableEq

/-- Stage abscissae of mfem's solvers with the arguments serac passes, in the order the stages are solved.  `γ` is the parameter of `SDIRK33Solver`
(`0.435866521508458999416019`), which does not matter here. -/
noncomputable def stages (γ : ℝ) : Method → List ℝ
  | .backwardEuler => [1]
  | .sdirk33 => [γ, (1 + γ) / 2, 1]
  | .forwardEuler => [0]
  | .rk2 => [0, 1 / 2]
  | .rk3ssp => [0, 1, 1 / 2]
  | .rk4 => [0, 1 / 2, 1 / 2, 1]
  | .generalizedAlpha => [1 / (1 + 1 / 2)]
  | .implicitMidpoint => [1 / 2]
  | .sdirk23 => [(3 + Real.sqrt 3) / 6, 1 - (3 + Real.sqrt 3) / 6]
  | .sdirk34 => let a := 1 / Real.sqrt 3 * Real.cos (Real.pi / 18) + 1 / 2; [a, 1 / 2, 1 - a]

/-- A module: its `time_` and (ghost) the times at which the residual and the boundary conditions were evaluated, per step. -/
structure Module where
  time : ℝ
  evaluated : List (List ℝ)

/-- `Solve`, first line. -/
def solveStage (t dt : ℝ) (m : ℝ × List ℝ) (c : ℝ) : ℝ × List ℝ := (t + c * dt, m.2 ++ [t + c * dt])

/-- `advanceTimestep`, transient branch: all stages are placed relative to the copy of `time_` taken at the start. -/
def advance (cs : List ℝ) (m : Module) (dt : ℝ) : Module :=
  let r := cs.foldl (solveStage m.time dt) (m.time, [])
  ⟨r.1, m.evaluated ++ [r.2]⟩

def run (cs : List ℝ) (m : Module) (dts : List ℝ) : Module := dts.foldl (advance cs) m

/-- `reverseAdjointTimestep`: `time_ -= dt` per step, last step first. -/
def reverse (time : ℝ) (dts : List ℝ) : ℝ := dts.reverse.foldl (· - ·) time

end Serac.StepTime
