/-!
# Quasi-static solves with and without contact

`/repo/src/serac/physics/solid_mechanics.hpp` 1620-1630 (`quasiStaticSolve`), 1118-1150 (residual at `time_`), 1727-1770 (warm start at `time_ + dt`);
`solid_mechanics_contact.hpp` 110-125, 136, 172 (residual at `ode_time_point_`), 218-254 (`quasiStaticSolve`); `heat_transfer.hpp` 336-343;
`base_physics.cpp` 64-73.

`τ` is the type of times, `add` the addition the code performs.  The warm start and the nonlinear solve are arbitrary functions of the time at which the
residual is evaluated.
-/

namespace Serac.QS

/-- Which `quasiStaticSolve` runs. -/
inductive Kind where
  /-- `SolidMechanics` -/
  | plain
  /-- `SolidMechanicsContact` with a Lagrange multiplier interaction -/
  | multiplier
  /-- `SolidMechanicsContact` without -/
  | penalty
  deriving DecidableEq

structure Setup (τ V : Type) where
  add : τ → τ → τ
  /-- warm start; the argument is the time of the boundary values -/
  warm : τ → V → V
  /-- nonlinear solve with the residual at the given time -/
  solve : τ → V → V

/-- `time_`, `ode_time_point_`, the displacement, and (ghost) the boundary value and residual times of the solves. -/
structure State (τ V : Type) where
  time : τ
  odeTime : τ
  u : V
  log : List (τ × τ)

/-- `initializeBasePhysicsStates`. -/
def init {τ V : Type} (t : τ) (u : V) : State τ V := ⟨t, t, u, []⟩

/-- Time the residual operator uses. -/
def residualTime {τ V : Type} (k : Kind) (x : State τ V) : τ :=
  match k with
  | .plain => x.time
  | .multiplier => x.odeTime
  | .penalty => x.odeTime

/-- `quasiStaticSolve`. -/
def step {τ V : Type} (s : Setup τ V) (k : Kind) (x : State τ V) (dt : τ) : State τ V :=
  let u := s.warm (s.add x.time dt) x.u
  let x := { x with time := s.add x.time dt }
  let x := match k with
    | .multiplier => { x with odeTime := x.time }
    | _ => x
  { x with u := s.solve (residualTime k x) u, log := x.log ++ [(x.time, residualTime k x)] }

def run {τ V : Type} (s : Setup τ V) (k : Kind) (x : State τ V) (dts : List τ) : State τ V := dts.foldl (step s k) x

end Serac.QS
