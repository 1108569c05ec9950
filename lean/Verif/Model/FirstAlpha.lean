import Verif.Model.Ode
import Mathlib.Tactic.Linarith
/-!
# Generalized-α steps of the first-order transient solver

Model of `FirstOrderODE::Step` (src/serac/numerics/odes.hpp:341-348) with the integrator `mfem::GeneralizedAlphaSolver(0.5)` that `SetTimestepper` selects for
`TimestepMethod::GeneralizedAlpha` (odes.cpp:284-286), and of what `HeatTransfer::resetStates` (src/serac/physics/heat_transfer.hpp:282-309) leaves of it.

mfem's class is external (`linalg/ode.cpp`, not in /repo); its step is written out here and is an assumption, recorded in DESIGN.md.  Its first step calls `f->Mult` without
setting the time of the operator, which is then the `0.0` of the constructor of `FirstOrderODE` (odes.cpp:253); here that time is the field `clock`, with any value.
-/

noncomputable section
namespace Serac.Ode

/-- Parameters of `mfem::GeneralizedAlphaSolver`. -/
structure Alpha1 where
  am : ℝ
  af : ℝ
  gamma : ℝ

/-- `GeneralizedAlphaSolver::SetRhoInf` (external, assumed). -/
def Alpha1.ofRho (rho : ℝ) : Alpha1 :=
  let rho := if rho > 1 then 1 else rho
  let rho := if rho < 0 then 0 else rho
  let am := 0.5 * (3 - rho) / (1 + rho)
  let af := 1 / (1 + rho)
  ⟨am, af, 0.5 + am - af⟩

/-- The integrator of `TimestepMethod::GeneralizedAlpha` (odes.cpp:285). -/
def Alpha1.serac : Alpha1 := .ofRho 0.5

/-- The solver with its integrator: `x` and `t` are the arguments of `Step`; `xdot` and `first` (`nstate == 0`) are members of the integrator, `clock` is the time the
operator holds. -/
structure RunA (n : ℕ) where
  st : State1 n
  x : Vec n
  xdot : Vec n
  first : Bool
  clock : ℝ
  t : ℝ

/-- `if (nstate == 0) { f->Mult(x, xdot); nstate = 1; }`, where `Mult` is `Solve(t, 0.0, u, du_dt)` (odes.hpp:308). -/
def startA {n : ℕ} (b : BCs n) (m : Enforce) (solve : State1 n → Vec n → Vec n) (r : RunA n) : RunA n :=
  if r.first then
    let p := solve1 b m solve r.st r.clock 0 r.x
    { r with st := p.1, xdot := p.2, first := false }
  else r

/-- The rest of `GeneralizedAlphaSolver::Step`, with `ImplicitSolve` (odes.hpp:317). -/
def moveA {n : ℕ} (b : BCs n) (m : Enforce) (solve : State1 n → Vec n → Vec n) (A : Alpha1) (dt : ℝ) (r : RunA n) : RunA n :=
  let y : Vec n := fun i => r.x i + A.af * (1 - A.gamma / A.am) * dt * r.xdot i
  let p := solve1 b m solve r.st (r.t + A.af * dt) (A.gamma * A.af / A.am * dt) y
  { st := p.1
    x := fun i => r.x i + (1 - A.gamma / A.am) * dt * r.xdot i + A.gamma / A.am * dt * p.2 i
    xdot := fun i => (1 - 1 / A.am) * r.xdot i + 1 / A.am * p.2 i
    first := r.first
    clock := r.t + A.af * dt
    t := r.t + dt }

/-- `FirstOrderODE::Step` (odes.hpp:341-348). -/
def stepA {n : ℕ} (b : BCs n) (m : Enforce) (solve : State1 n → Vec n → Vec n) (A : Alpha1) (dt : ℝ) (r : RunA n) : RunA n := moveA b m solve A dt (startA b m solve r)

/-- A sequence of steps. -/
def runA {n : ℕ} (b : BCs n) (m : Enforce) (solve : State1 n → Vec n → Vec n) (A : Alpha1) (dts : List ℝ) (r : RunA n) : RunA n :=
  dts.foldl (fun r dt => stepA b m solve A dt r) r

/-- The members of `HeatTransfer` that the solver sees, as `initializeBasePhysicsStates` and `initializeThermalStates` leave them (heat_transfer.hpp:276-288, 305-309). -/
def zeroState {n : ℕ} (time : ℝ) : State1 n := ⟨time, fun _ => 0, 0, fun _ => 0, -1⟩

/-- `HeatTransfer::resetStates(cycle, time)` followed by `setTemperature` (heat_transfer.hpp:305-309): temperature, rate and time are set again; the members of the
integrator and of the operator are not touched. -/
def resetA {n : ℕ} (time : ℝ) (x : Vec n) (r : RunA n) : RunA n := { r with st := zeroState time, x := x, t := time }

/-- A module as its constructor and `setTemperature` leave it (heat_transfer.hpp:158-175): the integrator is new (`Init`), the operator holds the time `0.0` (odes.cpp:253,
262-300). -/
def newA {n : ℕ} (time : ℝ) (x : Vec n) : RunA n := ⟨zeroState time, x, fun _ => 0, true, 0, time⟩

end Serac.Ode
