/-!
# Coupled thermomechanics

`/repo/src/serac/physics/thermomechanics.hpp` 76-92 (constructor), 142-147 (`resetStates`), 189-205 (`setState`), 241-251 (`advanceTimestep`), 377-387
(`setMaterial`); the clock is `base_physics.cpp` 21-85 and the ends of `advanceTimestep` in `heat_transfer.hpp` 358-373 and `solid_mechanics.hpp`
1268-1294; `resetAdjointStates` is `base_physics.hpp` 141-145.

`τ` is the type of times with the addition the code performs (`add`); nothing is assumed about it.  The two sub-solvers are arbitrary functions of the
module's own state, the time, the step and the coupling field.  `tickT`, `tickU` give the time of the sub-modules after a step: `add` in quasi-static
mode; in transient mode the time of the integrator's last stage (see `Verif/Model/StepTime.lean`).
-/

namespace Serac.TM

/-- Members of `BasePhysics` that keep track of time. -/
structure Clock (τ : Type) where
  time : τ
  cycle : Int
  maxTime : τ
  maxCycle : Int
  timesteps : List τ

/-- `initializeBasePhysicsStates`, lines 64-85. -/
def Clock.init {τ : Type} (cycle : Int) (time : τ) : Clock τ := ⟨time, cycle, time, cycle, []⟩

/-- End of `advanceTimestep` in the sub-modules. -/
def Clock.advance {τ : Type} (tick : τ → τ → τ) (c : Clock τ) (dt : τ) : Clock τ :=
  let time := tick c.time dt
  let cycle := c.cycle + 1
  if c.maxCycle < cycle then ⟨time, cycle, time, cycle, c.timesteps ++ [dt]⟩ else { c with time := time, cycle := cycle }

/-- `resetAdjointStates`. -/
def Clock.resetAdjoint {τ : Type} (c : Clock τ) : Clock τ := { c with time := c.maxTime, cycle := c.maxCycle }

/-- What is fixed: the addition on times, the initial states and the sub-solvers. -/
structure Setup (τ HS SS U T : Type) where
  add : τ → τ → τ
  zero : τ
  tickT : τ → τ → τ
  tickU : τ → τ → τ
  /-- state of the thermal module after construction or reset -/
  heat0 : HS
  solid0 : SS
  temperature : HS → T
  displacement : SS → U
  setTemperature : HS → T → HS
  setDisplacement : SS → U → SS
  /-- thermal step: time, step, displacement parameter -/
  heatStep : τ → τ → U → HS → HS
  solidStep : τ → τ → T → SS → SS

/-- A sub-solve that was carried out: time, step and the coupling field it used. -/
inductive Event (τ U T : Type) where
  | heat (time dt : τ) (u : U)
  | solid (time dt : τ) (t : T)

structure State (τ HS SS U T : Type) where
  base : Clock τ
  heatClock : Clock τ
  solidClock : Clock τ
  heat : HS
  solid : SS
  /-- parameter 0 of the thermal module -/
  heatParam : Option U
  /-- parameter 0 of the solid module -/
  solidParam : Option T
  /-- ghost: the sub-solves so far -/
  log : List (Event τ U T)

variable {τ HS SS U T : Type}

/-- Constructor, lines 76-92: the base class is constructed without cycle and time, so they default to zero. -/
def construct (s : Setup τ HS SS U T) (cycle : Int) (time : τ) : State τ HS SS U T :=
  ⟨Clock.init 0 s.zero, Clock.init cycle time, Clock.init cycle time, s.heat0, s.solid0, none, none, []⟩

/-- The calls a user can make. -/
inductive Op (τ U T : Type) where
  | advance (dt : τ)
  | reset (cycle : Int) (time : τ)
  | resetAdjoint
  | setDisplacement (u : U)
  | setTemperature (t : T)

/-- `advanceTimestep`, lines 241-251. -/
def advance (s : Setup τ HS SS U T) (x : State τ HS SS U T) (dt : τ) : State τ HS SS U T :=
  let u := s.displacement x.solid
  let heat := s.heatStep x.heatClock.time dt u x.heat
  let t := s.temperature heat
  let solid := s.solidStep x.solidClock.time dt t x.solid
  { base := { x.base with time := s.add x.base.time dt, cycle := x.base.cycle + 1 }
    heatClock := x.heatClock.advance s.tickT dt
    solidClock := x.solidClock.advance s.tickU dt
    heat := heat
    solid := solid
    heatParam := some u
    solidParam := some t
    log := x.log ++ [.heat x.heatClock.time dt u, .solid x.solidClock.time dt t] }

def step (s : Setup τ HS SS U T) (x : State τ HS SS U T) : Op τ U T → State τ HS SS U T
  | .advance dt => advance s x dt
  | .reset cycle time =>
    { x with base := Clock.init cycle time, heatClock := Clock.init cycle time, solidClock := Clock.init cycle time, heat := s.heat0, solid := s.solid0 }
  | .resetAdjoint => { x with base := x.base.resetAdjoint }
  | .setDisplacement u => { x with solid := s.setDisplacement x.solid u }
  | .setTemperature t => { x with heat := s.setTemperature x.heat t }

def run (s : Setup τ HS SS U T) (x : State τ HS SS U T) (ops : List (Op τ U T)) : State τ HS SS U T := ops.foldl (step s) x

/-- Parameter indices a sub-module's material is registered with, lines 377-387: `DependsOn<0, active_parameters + 1 ...>`. -/
def subParameters (active : List Nat) : List Nat := 0 :: active.map (· + 1)

/-- Arguments a material receives: the parameters with the registered indices. -/
def arguments {F : Type} (parameters : List F) (registered : List Nat) : List (Option F) := registered.map (parameters[·]?)

end Serac.TM
