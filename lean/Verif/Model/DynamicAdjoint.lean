import Verif.Model.ParameterTangent
import Verif.Model.SolidNewton
/-!
# Transient solid mechanics and its sensitivities

`/repo/src/serac/physics/solid_mechanics.hpp`: 1223-1294 (`advanceTimestep`, the transient branch, with the checkpoints in memory), 1311-1338 (`setAdjointLoad`), 1341-1404
(`reverseAdjointTimestep`, transient branch), 1407-1417 (`computeTimestepSensitivity`), 1435-1439 (`computeInitialConditionSensitivity`); `solid_mechanics.cpp` 15-66
(`adjoint_integrate`: `Verif.Model.Adjoint`); `base_physics.cpp` 359-387 (checkpoints).

`Verif.Model.Adjoint` has the reverse steps for given matrices.  Here the matrices are assembled from the checkpoints, as the code does, and the sensitivities with respect to a
parameter are computed after every reverse step.  The time integrator is Newmark's (β = 1/4, γ = 1/2), the only one the reverse pass accepts (1377-1378): `Verif.Model.Ode`,
`newmarkStep`.  Its first step asks for the initial acceleration (coefficients zero), every step for the acceleration at its end.  `solve` is that request; that it also depends
on the previous acceleration, from which the solver starts to iterate, is left out (C92_solver shows that this changes nothing for the code's solver).  The correction after a
step (`Ode.afterStep`) belongs to full control only.  The parameter is one vector; further parameters and the shape displacement are inside the operators.
-/

noncomputable section
namespace Serac.DynamicAdj
open Serac.Elim Serac.Adj

structure Problem (n m : ℕ) where
  conds : List (List (Fin n))
  /-- assembled derivatives of the residual by displacement, acceleration and parameter, at a time, displacement, acceleration and parameter -/
  K : ℝ → Vec n → Vec n → Vec m → Mat n
  M : ℝ → Vec n → Vec n → Vec m → Mat n
  P : ℝ → Vec n → Vec n → Vec m → Fin n → Fin m → ℝ
  /-- the acceleration: time, coefficients `c0` and `c1`, parameter, predicted displacement and velocity -/
  solve : ℝ → ℝ → ℝ → Vec m → Vec n → Vec n → Vec n
  linear : Mat n → Vec n → Vec n

structure State (n m : ℕ) where
  time : ℝ
  timeEnd : ℝ
  cycle : ℕ
  maxCycle : ℕ
  maxTime : ℝ
  u : Vec n
  v : Vec n
  a : Vec n
  /-- the integrator's flag -/
  first : Bool
  /-- loads, `adjoint_displacement_` and the two `implicit_sensitivity_*_start_of_step_` -/
  adj : Adj.State n
  /-- `*parameters_[i].sensitivity` -/
  sens : Vec m
  checkpoints : List (Vec n × Vec n × Vec n)
  timesteps : List ℝ

variable {n m : ℕ}

/-- After `completeSetup` with displacement and velocity set by the user. -/
def start (t0 : ℝ) (u0 v0 : Vec n) : State n m := ⟨t0, 0, 0, 0, t0, u0, v0, 0, true, init n, 0, [(u0, v0, 0)], []⟩

/-- Newmark's step to time `t` from displacement, velocity and acceleration. -/
def newmark (p : Problem n m) (q : Vec m) (t dt : ℝ) (z : Vec n × Vec n × Vec n) : Vec n × Vec n × Vec n :=
  let x1 : Vec n := fun i => z.1 i + dt * z.2.1 i + ((1 / 2 - 1 / 4) * dt * dt) * z.2.2 i
  let v1 : Vec n := fun i => z.2.1 i + ((1 - 1 / 2) * dt) * z.2.2 i
  let a := p.solve t (1 / 4 * dt * dt) (1 / 2 * dt) q x1 v1
  (fun i => x1 i + (1 / 4 * dt * dt) * a i, fun i => v1 i + (1 / 2 * dt) * a i, a)

/-- `advanceTimestep(dt)` -/
def advance (p : Problem n m) (q : Vec m) (dt : ℝ) (s : State n m) : State n m :=
  let a := if s.first then p.solve s.time 0 0 q s.u s.v else s.a
  let time := s.time + dt
  let z := newmark p q time dt (s.u, s.v, a)
  let cycle := s.cycle + 1
  { s with
    time := time
    u := z.1
    v := z.2.1
    a := z.2.2
    first := false
    cycle := cycle
    checkpoints := s.checkpoints ++ [z]
    timesteps := if cycle > s.maxCycle then s.timesteps ++ [dt] else s.timesteps
    maxCycle := if cycle > s.maxCycle then cycle else s.maxCycle
    maxTime := if cycle > s.maxCycle then time else s.maxTime }

/-- `setAdjointLoad(...)` -/
def setAdjointLoad (l : Load n) (s : State n m) : State n m := { s with adj := Adj.setAdjointLoad l s.adj }

/-- `reverseAdjointTimestep()`; `none`: the checks stop the program, or a checkpoint is missing.  `getCheckpointedTimestep` is asked for the step and the one after it. -/
def reverse (p : Problem n m) (q : Vec m) (s : State n m) : Option (State n m) :=
  if s.cycle ≤ 0 then none
  else
    let cycle := s.cycle - 1
    if cycle + 1 > s.timesteps.length then none
    else
      let dtNext := if cycle + 1 < s.timesteps.length then s.timesteps.getD (cycle + 1) 0 else 0
      let dt := if cycle < s.timesteps.length then s.timesteps.getD cycle 0 else 0
      (s.checkpoints[cycle + 1]?).map fun z =>
        { s with
          cycle := cycle
          u := z.1
          v := z.2.1
          a := z.2.2
          adj := adjointIntegrate p.conds p.linear dt dtNext (p.M s.time z.1 z.2.2 q) (p.K s.time z.1 z.2.2 q) s.adj
          timeEnd := s.time
          time := s.time - dt }

/-- `computeTimestepSensitivity(i)`: the buffer is overwritten. -/
def timestepSensitivity (p : Problem n m) (q : Vec m) (s : State n m) : State n m :=
  { s with sens := StaticAdj.multTranspose (p.P s.timeEnd s.u s.a q) s.adj.lam }

/-- The steps of a forward analysis. -/
def forward (p : Problem n m) (q : Vec m) : List ℝ → State n m → State n m
  | [], s => s
  | dt :: dts, s => forward p q dts (advance p q dt s)

/-- An adjoint pass over `loads` (last step first): set the loads, step back, and record the sensitivity.  What `computeInitialConditionSensitivity` returns is `adj.D` and
`adj.V` of the state afterwards. -/
def pass (p : Problem n m) (q : Vec m) : List (Load n) → State n m → Option (List (Vec m) × State n m)
  | [], s => some ([], s)
  | g :: gs, s =>
    match reverse p q (setAdjointLoad g s) with
    | none => none
    | some s2 =>
      let s3 := timestepSensitivity p q s2
      (pass p q gs s3).map fun r => (s3.sens :: r.1, r.2)

end Serac.DynamicAdj

namespace Serac.Solid.Variant
open Serac.Tensor Serac.Transform Serac.Kernels Serac.Loads
variable {d : Dim} (V : Variant d)

/-- `assemble(dR/da)` for given parameters. -/
def massMatrix (old : Buffer ℝ) (a : Ode.Vec V.L.B.N) (q : Ode.Vec V.nn) : Elim.Mat V.L.B.N := (V.body q).massMatrix old a

/-- The request for an acceleration with direct control of the boundary values and the code's Newton solver, which starts from the acceleration in `st`. -/
def request (A : ℕ → ℝ → Mat ℝ d.n d.n → Fin d.n → Fin d.n → Fin d.n → Fin d.n → ℝ) (old old' : Buffer ℝ) (o : StaticSolver V.L.B.N) (b : Ode.BCs V.L.B.N) (rep : Newton.Report)
    (st : Ode.State2 V.L.B.N) (t c0 c1 : ℝ) (q : Ode.Vec V.nn) (x v : Ode.Vec V.L.B.N) : Ode.Vec V.L.B.N :=
  ((Ode.solve2 b .direct ((V.body q).dynamicSolve (fun p H => A p (V.value q p) H) old old' o b.allDofs rep) st t c0 c1 x v).map Prod.snd).getD 0

/-- The dynamic analysis of a body with a parameter field, with the assembled operators. -/
def dynamic (A : ℕ → ℝ → Mat ℝ d.n d.n → Fin d.n → Fin d.n → Fin d.n → Fin d.n → ℝ) (B : Slopes d) (old : Buffer ℝ) (conds : List (List (Fin V.L.B.N)))
    (solve : ℝ → ℝ → ℝ → Ode.Vec V.nn → Ode.Vec V.L.B.N → Ode.Vec V.L.B.N → Ode.Vec V.L.B.N) (linear : Elim.Mat V.L.B.N → Ode.Vec V.L.B.N → Ode.Vec V.L.B.N) :
    DynamicAdj.Problem V.L.B.N V.nn where
  conds := conds
  K t u _ q := V.stiffMatrix A old t u q
  M _ _ a q := V.massMatrix old a q
  P _ u _ q := V.paramMatrix B old u q
  solve := solve
  linear := linear

end Serac.Solid.Variant
