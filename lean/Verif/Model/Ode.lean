import Mathlib.Data.Real.Basic
import Mathlib.Data.List.Basic
import Mathlib.Logic.Function.Basic
/-!
# Transient solvers with prescribed boundary values

Model of `src/serac/numerics/odes.cpp` / `odes.hpp`.

`double` is ℝ; `mfem::Vector` of length `n` is `Fin n → ℝ`.  Division by zero (an infinity or NaN in C++) is the outcome `none`.
The nonlinear solve is a parameter.  mfem's integrators are external; the ones used below are written out from mfem's `linalg/ode.cpp`
(`BackwardEulerSolver::Step`, `NewmarkSolver::Step`) and are assumptions, recorded in DESIGN.md.
-/

noncomputable section
namespace Serac.Ode

abbrev Vec (n : ℕ) := Fin n → ℝ

/-- An essential `BoundaryCondition` as these solvers use it: its true dofs and the projected coefficient at a time. -/
structure BC (n : ℕ) where
  dofs : List (Fin n)
  value : ℝ → Vec n

/-- `BoundaryCondition::setDofs` (boundary_condition.cpp:80-113), last loop (110-112): `vector(i) = state(i)` for the true dofs.  The
projection of the coefficient to `state` is mfem's and is the field `value`. -/
def BC.setDofs {n : ℕ} (bc : BC n) (v : Vec n) (t : ℝ) : Vec n := bc.dofs.foldl (fun v i => Function.update v i (bc.value t i)) v

/-- What the ODE classes see of `BoundaryConditionManager`: `essentials()` and `allEssentialTrueDofs()`. -/
structure BCs (n : ℕ) where
  essentials : List (BC n)
  allDofs : List (Fin n)

/-- `mfem::Vector::SetSubVector(dofs, value)`. -/
def setSub {n : ℕ} (v : Vec n) (dofs : List (Fin n)) (a : ℝ) : Vec n := dofs.foldl (fun v i => Function.update v i a) v

/-- `mfem::Vector::SetSubVectorComplement(dofs, value)`: copy, fill, restore the listed entries. -/
def setSubCompl {n : ℕ} (v : Vec n) (dofs : List (Fin n)) (a : ℝ) : Vec n :=
  dofs.foldl (fun w i => Function.update w i (v i)) (fun _ => a)

/-- `U_ = 0.0; for (bc : essentials) bc.setDofs(U_, time);` (odes.cpp:166-173, 316-323, 85-92). -/
def BCs.eval {n : ℕ} (b : BCs n) (t : ℝ) : Vec n := b.essentials.foldl (fun v bc => bc.setDofs v t) (fun _ => 0)

/-- `DirichletEnforcementMethod` (solver_config.hpp:62-89). -/
inductive Enforce | direct | rate | full
deriving DecidableEq

/-! ### Second order -/

/-- `SecondOrderODE::epsilon` (odes.hpp:45). -/
def eps2 : ℝ := 1 / 10000

/-- `SecondOrderODE::State` (odes.hpp:51-84): variables of the physics module the residual operator reads. -/
structure State2 (n : ℕ) where
  time : ℝ
  c0 : ℝ
  c1 : ℝ
  u : Vec n
  du : Vec n
  d2u : Vec n

/-- The candidate constrained values `(U_, dU_dt_, d2U_dt2_)` (odes.cpp:175-226).  `dU_dt_`, `d2U_dt2_` are scratch members; every branch
assigns all three. -/
def constraint2 {n : ℕ} (b : BCs n) (m : Enforce) (time c0 c1 : ℝ) (u du : Vec n) : Option (Vec n × Vec n × Vec n) :=
  let Um := b.eval (time - eps2)
  let U := b.eval time
  let Up := b.eval (time + eps2)
  if c0 ≠ 0 ∨ c1 ≠ 0 then
    match m with
    | .direct =>
      -- subtract(1.0 / c0, U_, u, d2U_dt2_); dU_dt_ = du_dt; U_ = u;
      if c0 = 0 then none else some (u, du, fun i => (1 / c0) * (U i - u i))
    | .rate =>
      if c1 = 0 then none else some (u, du, fun i => ((Up i - Um i) / (2 * eps2) - du i) / c1)
    | .full =>
      if c1 = 0 then none
      else
        -- the second difference is computed first and then overwritten
        let d2U : Vec n := fun i => ((Up i - Um i) / (2 * eps2) - du i) / c1
        let dU : Vec n := fun i => (Up i - Um i) / (2 * eps2) + (-1 * c1) * d2U i
        some (fun i => U i + (-1 * c0) * d2U i, dU, d2U)
  else
    some (U, fun i => (Up i - Um i) / (2 * eps2), fun i => (1 * Um i + -2 * U i + Up i) / (eps2 * eps2))

/-- `SecondOrderODE::Solve` (odes.cpp:152-248): new state and the returned acceleration.  `solve st v` is `solver_.solve(v)` with the
residual operator reading `st` (its references). -/
def solve2 {n : ℕ} (b : BCs n) (m : Enforce) (solve : State2 n → Vec n → Vec n) (st : State2 n) (time c0 c1 : ℝ) (u du : Vec n) :
    Option (State2 n × Vec n) :=
  (constraint2 b m time c0 c1 u du).map fun (U, dU, d2U) =>
    let su := fun i => setSub u b.allDofs 0 i + setSubCompl U b.allDofs 0 i
    let sdu := fun i => setSub du b.allDofs 0 i + setSubCompl dU b.allDofs 0 i
    let guess := setSubCompl (fun i => setSub st.d2u b.allDofs 0 i + d2U i) b.allDofs 0
    let st' : State2 n := { time, c0, c1, u := su, du := sdu, d2u := st.d2u }
    let a := solve st' guess
    ({ st' with d2u := a }, a)

/-- The working vectors carried between steps: the state, and the integrator's `d2xdt2` and `first` flag. -/
structure Run2 (n : ℕ) where
  st : State2 n
  x : Vec n
  dxdt : Vec n
  d2xdt2 : Vec n
  first : Bool
  t : ℝ

/-- `mfem::NewmarkSolver::Step` (external, assumed; parameters `beta`, `gamma`, default 1/4 and 1/2). -/
def newmarkStep {n : ℕ} (b : BCs n) (m : Enforce) (solve : State2 n → Vec n → Vec n) (β γ dt : ℝ) (r : Run2 n) : Option (Run2 n) :=
  (if r.first then (solve2 b m solve r.st r.t 0 0 r.x r.dxdt) else some (r.st, r.d2xdt2)).bind fun (st, a) =>
  let x1 := fun i => r.x i + dt * r.dxdt i + ((1 / 2 - β) * dt * dt) * a i
  let v1 := fun i => r.dxdt i + ((1 - γ) * dt) * a i
  (solve2 b m solve st (r.t + dt) (β * dt * dt) (γ * dt) x1 v1).map fun (st', a') =>
    { st := st', x := fun i => x1 i + (β * dt * dt) * a' i, dxdt := fun i => v1 i + (γ * dt) * a' i, d2xdt2 := a', first := false,
      t := r.t + dt }

/-- The correction after a step (odes.cpp:82-98): note `x[i]`, `dxdt[i]` with `i` the *position* in the dof list. -/
def afterStep {n : ℕ} (b : BCs n) (m : Enforce) (r : Run2 n) : Run2 n :=
  match m with
  | .full =>
    let Um := b.eval (r.t - eps2)
    let U := b.eval r.t
    let Up := b.eval (r.t + eps2)
    { r with
      x := fun i => if i.val < b.allDofs.length then U i else r.x i
      dxdt := fun i => if i.val < b.allDofs.length then (Up i - Um i) / (2 * eps2) else r.dxdt i }
  | _ => r

/-- `SecondOrderODE::Step` with a second-order integrator (odes.cpp:77-98), here Newmark. -/
def step2 {n : ℕ} (b : BCs n) (m : Enforce) (solve : State2 n → Vec n → Vec n) (β γ dt : ℝ) (r : Run2 n) : Option (Run2 n) :=
  (newmarkStep b m solve β γ dt r).map (afterStep b m)

/-- `SecondOrderODE::ImplicitSolve(dt, u, du_dt)` (odes.cpp:120-150) on the two blocks `(x, v)`: returns `(dx/dt, dv/dt)`. -/
def implicitSolve1 {n : ℕ} (b : BCs n) (m : Enforce) (solve : State2 n → Vec n → Vec n) (st : State2 n) (t dt : ℝ) (x v : Vec n) :
    Option (State2 n × Vec n × Vec n) :=
  let uNext := fun i => x i + dt * v i
  (solve2 b m solve st t (dt * dt) dt uNext v).map fun (st', a) => (st', fun i => v i + dt * a i, a)

/-- `SecondOrderODE::Step` with `mfem::BackwardEulerSolver` on the first-order system (odes.cpp:100-114; the external step is
`f->SetTime(t + dt); f->ImplicitSolve(dt, x, k); x.Add(dt, k); t += dt`). -/
def stepBE2 {n : ℕ} (b : BCs n) (m : Enforce) (solve : State2 n → Vec n → Vec n) (dt : ℝ) (r : Run2 n) : Option (Run2 n) :=
  (implicitSolve1 b m solve r.st (r.t + dt) dt r.x r.dxdt).map fun (st', k0, k1) =>
    { r with st := st', x := fun i => r.x i + dt * k0 i, dxdt := fun i => r.dxdt i + dt * k1 i, t := r.t + dt }

/-- A sequence of steps. -/
def runSteps {S : Type} (step : ℝ → S → Option S) : List ℝ → S → Option S
  | [], s => some s
  | dt :: dts, s => (step dt s).bind (runSteps step dts)

/-! ### First order -/

/-- `FirstOrderODE::epsilon` (odes.hpp:249). -/
def eps1 : ℝ := 1 / 1000000

/-- `FirstOrderODE::State` (odes.hpp:255-284). -/
structure State1 (n : ℕ) where
  time : ℝ
  u : Vec n
  dt : ℝ
  du : Vec n
  previousDt : ℝ

/-- `(U_, dU_dt_)` (odes.cpp:316-348). -/
def constraint1 {n : ℕ} (b : BCs n) (m : Enforce) (time dt : ℝ) (u : Vec n) : Vec n × Vec n :=
  let Um := b.eval (time - eps1)
  let U := b.eval time
  let Up := b.eval (time + eps1)
  let rate : Vec n := fun i => (1 / (2 * eps1)) * (Up i - Um i)
  if dt ≠ 0 then
    match m with
    | .direct => (u, fun i => (1 / dt) * (U i - u i))
    | .rate => (u, rate)
    | .full => (fun i => U i + (-1 * dt) * rate i, rate)
  else (U, rate)

/-- `FirstOrderODE::Solve` (odes.cpp:302-365). -/
def solve1 {n : ℕ} (b : BCs n) (m : Enforce) (solve : State1 n → Vec n → Vec n) (st : State1 n) (time dt : ℝ) (u : Vec n) :
    State1 n × Vec n :=
  let c := constraint1 b m time dt u
  let su := fun i => setSub u b.allDofs 0 i + setSubCompl c.1 b.allDofs 0 i
  let guess := fun i => setSub st.du b.allDofs 0 i + setSubCompl c.2 b.allDofs 0 i
  let st' : State1 n := { time, u := su, dt, du := st.du, previousDt := st.previousDt }
  let k := solve st' guess
  ({ st' with du := k, previousDt := dt }, k)

structure Run1 (n : ℕ) where
  st : State1 n
  x : Vec n
  t : ℝ

/-- `FirstOrderODE::Step` (odes.hpp:341-348) with `mfem::BackwardEulerSolver` (external, assumed as above). -/
def stepBE1 {n : ℕ} (b : BCs n) (m : Enforce) (solve : State1 n → Vec n → Vec n) (dt : ℝ) (r : Run1 n) : Run1 n :=
  let p := solve1 b m solve r.st (r.t + dt) dt r.x
  { st := p.1, x := fun i => r.x i + dt * p.2 i, t := r.t + dt }

/-- `FirstOrderODE::Step` with `mfem::ForwardEulerSolver` (`f->SetTime(t); f->Mult(x, dxdt); x.Add(dt, dxdt); t += dt`), where `Mult` is
`Solve(t, 0.0, u, du_dt)` (odes.hpp:308). -/
def stepFE1 {n : ℕ} (b : BCs n) (m : Enforce) (solve : State1 n → Vec n → Vec n) (dt : ℝ) (r : Run1 n) : Run1 n :=
  let p := solve1 b m solve r.st r.t 0 r.x
  { st := p.1, x := fun i => r.x i + dt * p.2 i, t := r.t + dt }

/-! ### Selecting the integrator -/

/-- `TimestepMethod` (solver_config.hpp:25-57). -/
inductive Method
  | QuasiStatic | BackwardEuler | SDIRK33 | ForwardEuler | RK2 | RK3SSP | RK4 | GeneralizedAlpha | ImplicitMidpoint | SDIRK23 | SDIRK34
  | Newmark | HHTAlpha | WBZAlpha | AverageAcceleration | LinearAcceleration | CentralDifference | FoxGoodwin
deriving DecidableEq

/-- The members of `SecondOrderODE` that `SetTimestepper` touches: the two owning pointers (`none` = null, otherwise the integrator
together with the operator width at its last `Init`, which sizes its work vectors), the operator width, and `timestepper_`. -/
structure Select2 where
  second : Option (Method × ℕ)
  firstSys : Option (Method × ℕ)
  width : ℕ
  timestepper : Option Method

/-- State after construction with size `n` (odes.cpp:11-20). -/
def Select2.init (n : ℕ) : Select2 := ⟨none, none, n, none⟩

/-- `SecondOrderODE::SetTimestepper` (odes.cpp:22-75); `none` is `SLIC_ERROR` (the program aborts). -/
def Select2.set (s : Select2) (m : Method) : Option Select2 :=
  let s := { s with timestepper := some m }
  let after : Option Select2 :=
    match m with
    | .Newmark | .HHTAlpha | .WBZAlpha | .AverageAcceleration | .LinearAcceleration | .CentralDifference | .FoxGoodwin =>
      some { s with second := some (m, 0) }
    | .BackwardEuler => some { s with firstSys := some (m, 0) }
    | _ => none
  after.bind fun s =>
    match s.second with
    | some (k, _) => some { s with second := some (k, s.width) }
    | none =>
      match s.firstSys with
      | some (k, _) => some { s with width := s.width * 2, firstSys := some (k, s.width * 2) }
      | none => none

/-- Which integrator `Step` runs, with the size of its work vectors (odes.cpp:79-117). -/
def Select2.stepsWith (s : Select2) : Option (Method × ℕ) :=
  match s.second with
  | some k => some k
  | none => s.firstSys

/-- `FirstOrderODE::SetTimestepper` (odes.cpp:261-300) on `ode_solver_`; `none` is `SLIC_ERROR_ROOT`. -/
def firstSet (_current : Option Method) (m : Method) : Option (Option Method) :=
  match m with
  | .BackwardEuler | .SDIRK33 | .ForwardEuler | .RK2 | .RK3SSP | .RK4 | .GeneralizedAlpha | .ImplicitMidpoint | .SDIRK23 | .SDIRK34 =>
    some (some m)
  | _ => none

end Serac.Ode
