import Verif.Model.Adjoint
/-!
# Quasi-static analysis and its sensitivities

`/repo/src/serac/physics/solid_mechanics.hpp`: 360-390 (reset of the members), 1245-1295 (`advanceTimestep`), 1311-1338 (`setAdjointLoad`, displacement only: the
quasi-static branch reads no other load), 1341-1374 and 1402-1403 (`reverseAdjointTimestep`), 1407-1417 (`computeTimestepSensitivity`; 1420-1431 is the same with the
shape displacement as the parameter), 1466-1477 (`computeDualAdjointLoad`), 1480-1492 (`computeDualSensitivity`; 1495-1503 for shape), 1620-1630 (`quasiStaticSolve`);
`base_physics.hpp` 141-145 (`resetAdjointStates`), `base_physics.cpp` 359-387 (checkpoints in memory).

The parameter is one vector; further parameters and the shape displacement do not change during an analysis and are inside the residual.  The material has no internal
variables.  `K` and `P` are the assembled derivatives of the residual with respect to displacement and parameter; that `assemble` produces derivatives is C51-C53.
-/

noncomputable section
namespace Serac.StaticAdj
open Serac.Elim Serac.Adj

structure Problem (n m : ℕ) where
  conds : List (List (Fin n))
  residual : ℝ → Vec n → Vec m → Vec n
  K : ℝ → Vec n → Vec m → Mat n
  P : ℝ → Vec n → Vec m → Fin n → Fin m → ℝ
  /-- warm start and nonlinear solve: end time, parameter, displacement before -/
  solve : ℝ → Vec m → Vec n → Vec n
  linear : Mat n → Vec n → Vec n

structure State (n m : ℕ) where
  time : ℝ
  timeEnd : ℝ
  cycle : ℕ
  maxCycle : ℕ
  maxTime : ℝ
  disp : Vec n
  load : Vec n
  adj : Vec n
  /-- `*parameters_[i].sensitivity`, to which both sensitivity routines return a reference -/
  sens : Vec m
  reactions : Vec n
  checkpoints : List (Vec n)
  timesteps : List ℝ

variable {n m : ℕ}

/-- After `completeSetup`, for an analysis from cycle zero. -/
def start (t0 : ℝ) (u0 : Vec n) : State n m :=
  ⟨t0, 0, 0, 0, t0, u0, 0, 0, 0, 0, [u0], []⟩

/-- `advanceTimestep(dt)` -/
def advance (q : Problem n m) (p : Vec m) (dt : ℝ) (s : State n m) : State n m :=
  let time := s.time + dt
  let disp := q.solve time p s.disp
  let cycle := s.cycle + 1
  { s with
    time := time
    disp := disp
    cycle := cycle
    checkpoints := s.checkpoints ++ [disp]
    reactions := q.residual time disp p
    timesteps := if cycle > s.maxCycle then s.timesteps ++ [dt] else s.timesteps
    maxCycle := if cycle > s.maxCycle then cycle else s.maxCycle
    maxTime := if cycle > s.maxCycle then time else s.maxTime }

def setAdjointLoad (g : Vec n) (s : State n m) : State n m := { s with load := fun i => g i * (-1) }

/-- `A^T x` for the derivative with respect to the parameter. -/
def multTranspose (A : Fin n → Fin m → ℝ) (x : Vec n) : Vec m := fun j => ∑ i, A i j * x i

/-- `reverseAdjointTimestep()`; `none`: the checks stop the program or a checkpoint is missing. -/
def reverse (q : Problem n m) (p : Vec m) (s : State n m) : Option (State n m) :=
  if s.cycle ≤ 0 then none
  else
    let cycle := s.cycle - 1
    if cycle + 1 > s.timesteps.length then none
    else
      let dt := s.timesteps.getD cycle 0
      match s.checkpoints[cycle + 1]? with
      | none => none
      | some disp =>
        let sys := applyAll q.conds 0 (transpose (q.K s.time disp p), s.load)
        some { s with
          cycle := cycle
          disp := disp
          load := sys.2
          adj := q.linear sys.1 sys.2
          timeEnd := s.time
          time := s.time - dt }

/-- `computeTimestepSensitivity(i)`: the buffer is overwritten. -/
def timestepSensitivity (q : Problem n m) (p : Vec m) (s : State n m) : State n m :=
  { s with sens := multTranspose (q.P s.timeEnd s.disp p) s.adj }

/-- `computeDualAdjointLoad("reactions", w)` -/
def dualAdjointLoad (q : Problem n m) (p : Vec m) (w : Vec n) (s : State n m) : State n m :=
  setAdjointLoad (mulVecT (q.K s.time s.disp p) w) s

/-- `computeDualSensitivity(w, i)` -/
def dualSensitivity (q : Problem n m) (p : Vec m) (w : Vec n) (s : State n m) : State n m :=
  { s with sens := multTranspose (q.P s.timeEnd s.disp p) w }

/-- `resetAdjointStates()` -/
def resetAdjoint (s : State n m) : State n m := { s with time := s.maxTime, cycle := s.maxCycle }

/-- The steps of a forward analysis. -/
def forward (q : Problem n m) (p : Vec m) : List ℝ → State n m → State n m
  | [], s => s
  | dt :: dts, s => forward q p dts (advance q p dt s)

/-- An adjoint pass over `loads` (last step first): set the load if there is one, step back, and record the sensitivity. -/
def pass (q : Problem n m) (p : Vec m) : List (Option (Vec n)) → State n m → Option (List (Vec m) × State n m)
  | [], s => some ([], s)
  | g :: gs, s =>
    let s1 := match g with
      | none => s
      | some g => setAdjointLoad g s
    match reverse q p s1 with
    | none => none
    | some s2 =>
      let s3 := timestepSensitivity q p s2
      (pass q p gs s3).map fun r => (s3.sens :: r.1, r.2)

end Serac.StaticAdj
