import Verif.Model.StaticAdjoint
/-!
# Transient heat transfer and its sensitivities

`/repo/src/serac/physics/heat_transfer.hpp`: 335-372 (`advanceTimestep`, the transient branch, with the checkpoints in memory), 792-810 (`setAdjointLoad`), 842-915
(`reverseAdjointTimestep`, transient branch: `Verif.Model.Adjoint`), 923-935 (`computeTimestepSensitivity`), 972-975 (`computeInitialConditionSensitivity`);
`base_physics.cpp` 359-387 (checkpoints).

`Verif.Model.Adjoint` has the reverse steps for given matrices.  Here the matrices are assembled from the checkpoints, as the code does, and the sensitivities with respect to
a parameter are computed after every reverse step.  The time integrator is backward Euler, the only one the reverse pass accepts (878-879): MFEM's `BackwardEulerSolver` asks
for the rate at the end of the step and adds `dt` times it.  `solve` is that request (`Verif.Model.Ode`).  The parameter is one vector; further parameters and the shape
displacement are inside the operators.
-/

noncomputable section
namespace Serac.TransientAdj
open Serac.Elim Serac.Adj

structure Problem (n m : ℕ) where
  conds : List (List (Fin n))
  /-- assembled derivatives of the residual by temperature, rate and parameter, at a time, temperature, rate and parameter -/
  K : ℝ → Vec n → Vec n → Vec m → Mat n
  M : ℝ → Vec n → Vec n → Vec m → Mat n
  P : ℝ → Vec n → Vec n → Vec m → Fin n → Fin m → ℝ
  /-- the rate at the end of a step: end time, step, parameter, temperature before -/
  solve : ℝ → ℝ → Vec m → Vec n → Vec n
  linear : Mat n → Vec n → Vec n

structure State (n m : ℕ) where
  time : ℝ
  timeEnd : ℝ
  cycle : ℕ
  maxCycle : ℕ
  maxTime : ℝ
  temp : Vec n
  rate : Vec n
  /-- loads, `adjoint_temperature_` and `implicit_sensitivity_temperature_start_of_step_` -/
  adj : HeatState n
  /-- `*parameters_[i].sensitivity` -/
  sens : Vec m
  checkpoints : List (Vec n × Vec n)
  timesteps : List ℝ

variable {n m : ℕ}

/-- After `completeSetup` with a temperature set by the user. -/
def start (t0 : ℝ) (T0 : Vec n) : State n m := ⟨t0, 0, 0, 0, t0, T0, 0, heatInit n, 0, [(T0, 0)], []⟩

/-- `advanceTimestep(dt)` -/
def advance (p : Problem n m) (q : Vec m) (dt : ℝ) (s : State n m) : State n m :=
  let time := s.time + dt
  let rate := p.solve time dt q s.temp
  let temp : Vec n := fun i => s.temp i + dt * rate i
  let cycle := s.cycle + 1
  { s with
    time := time
    temp := temp
    rate := rate
    cycle := cycle
    checkpoints := s.checkpoints ++ [(temp, rate)]
    timesteps := if cycle > s.maxCycle then s.timesteps ++ [dt] else s.timesteps
    maxCycle := if cycle > s.maxCycle then cycle else s.maxCycle
    maxTime := if cycle > s.maxCycle then time else s.maxTime }

/-- `setAdjointLoad(...)` -/
def setAdjointLoad (l : HeatLoad n) (s : State n m) : State n m := { s with adj := heatSetAdjointLoad l s.adj }

/-- `reverseAdjointTimestep()`; `none`: the checks stop the program, a checkpoint is missing, or the step has size zero. -/
def reverse (p : Problem n m) (q : Vec m) (s : State n m) : Option (State n m) :=
  if s.cycle ≤ 0 then none
  else
    let cycle := s.cycle - 1
    if cycle + 1 > s.timesteps.length then none
    else
      let dt := s.timesteps.getD cycle 0
      match s.checkpoints[cycle + 1]? with
      | none => none
      | some z =>
        (heatReverse p.conds p.linear dt (p.M s.time z.1 z.2 q) (p.K s.time z.1 z.2 q) s.adj).map fun adj =>
          { s with
            cycle := cycle
            temp := z.1
            rate := z.2
            adj := adj
            timeEnd := s.time
            time := s.time - dt }

/-- `computeTimestepSensitivity(i)`: the buffer is overwritten. -/
def timestepSensitivity (p : Problem n m) (q : Vec m) (s : State n m) : State n m :=
  { s with sens := StaticAdj.multTranspose (p.P s.timeEnd s.temp s.rate q) s.adj.lam }

/-- The steps of a forward analysis. -/
def forward (p : Problem n m) (q : Vec m) : List ℝ → State n m → State n m
  | [], s => s
  | dt :: dts, s => forward p q dts (advance p q dt s)

/-- An adjoint pass over `loads` (last step first): set the load, step back, and record the sensitivity.  What `computeInitialConditionSensitivity` returns is `adj.D` of the
state afterwards. -/
def pass (p : Problem n m) (q : Vec m) : List (HeatLoad n) → State n m → Option (List (Vec m) × State n m)
  | [], s => some ([], s)
  | g :: gs, s =>
    match reverse p q (setAdjointLoad g s) with
    | none => none
    | some s2 =>
      let s3 := timestepSensitivity p q s2
      (pass p q gs s3).map fun r => (s3.sens :: r.1, r.2)

end Serac.TransientAdj
