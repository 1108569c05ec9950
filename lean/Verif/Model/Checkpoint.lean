import Mathlib.Logic.Function.Basic
/-
Checkpoint bookkeeping of a physics module: the live fields, the cycle counters, the list of time
steps and the two places a past state can be kept (memory, disk).

Source:
  src/serac/physics/base_physics.hpp      141-145   resetAdjointStates
  src/serac/physics/base_physics.cpp       62-79    initializeBasePhysicsStates
  src/serac/physics/base_physics.cpp      181-201   outputStateToDisk (the restart file only)
  src/serac/physics/base_physics.cpp      334-357   loadCheckpointedState
  src/serac/physics/base_physics.cpp      359-378   getCheckpointedStates
  src/serac/physics/base_physics.cpp      380-387   getCheckpointedTimestep
  src/serac/physics/state/state_manager.cpp 94-115  loadCheckpointedStates
  src/serac/physics/solid_mechanics.hpp   369-411   initializeSolidMechanicsStates, resetStates
  src/serac/physics/solid_mechanics.hpp   663-682   setState
  src/serac/physics/solid_mechanics.hpp  1223-1231  end of completeSetup
  src/serac/physics/solid_mechanics.hpp  1243-1295  advanceTimestep
  src/serac/physics/solid_mechanics.hpp  1341-1404  reverseAdjointTimestep
  src/serac/physics/heat_transfer.hpp     276-297, 334-374, 621-628, 766-775, 842-921   the same in
                                          the thermal module

Simplifications:
* What the solve computes is an argument of `advance`: any new field values whatever.
* The clock moves by `dt` in a step and back by the recorded `dt` in a reverse step; times are
  elements of any additive group, so rounding is not modelled.
* A restart file is the field values at the moment of writing (round trip through Sidre is assumed;
  see `Verif/Model/Restart.lean`).
* Only the checkpointed primal fields are kept; adjoint fields, duals and parameters are not.
* `checkpoint_states_` is an `unordered_map`; a missing key under `operator[]` is an empty vector, so
  it is a total function to lists here.  Indexing a vector out of range and every `SLIC_ERROR` give
  `none`.
-/

namespace Serac.Checkpoint

/-- The part of `BasePhysics` concerned with cycles, time steps and checkpoints. -/
structure Phys (N V R : Type) where
  /-- `checkpoint_to_disk_` -/
  toDisk : Bool
  /-- solid mechanics (as opposed to heat transfer): writes a restart file when its states are
  reset, and asks for two time step sizes in a reverse step -/
  solid : Bool
  /-- `stateNames()` -/
  names : List N
  /-- the current field values -/
  live : N → V
  cycle : Int
  maxCycle : Int
  minCycle : Int
  time : R
  maxTime : R
  /-- `timesteps_` -/
  steps : List R
  /-- `checkpoint_states_` -/
  mem : N → List V
  /-- restart files, by cycle -/
  disk : Int → Option (N → V)
  /-- `cached_checkpoint_cycle_` with `cached_checkpoint_states_` -/
  cached : Option (Int × (N → V))

variable {N V R : Type}

/-- `v[static_cast<size_t>(i)]`: a negative `i` is a huge index. -/
def at? (l : List V) (i : Int) : Option V :=
  if i < 0 then none else l[i.toNat]?

/-- `v[static_cast<size_t>(i)] = x` -/
def set? (l : List V) (i : Int) (x : V) : Option (List V) :=
  if 0 ≤ i ∧ i.toNat < l.length then some (l.set i.toNat x) else none

/-- base_physics.cpp 181-201: the file for the current cycle is (over)written with the live
fields. -/
def output (p : Phys N V R) : Phys N V R :=
  { p with disk := fun c => if c = p.cycle then some p.live else p.disk c }

variable [DecidableEq N]

/-- `checkpoint_states_.clear()` followed by one `push_back` per state name. -/
def restartMemory (p : Phys N V R) : Phys N V R :=
  { p with mem := fun n => if n ∈ p.names then [p.live n] else [] }

/-- solid_mechanics.hpp 1272-1276: one `push_back` per state name. -/
def pushMemory (p : Phys N V R) : Phys N V R :=
  { p with mem := fun n => if n ∈ p.names then p.mem n ++ [p.live n] else p.mem n }

/-- `resetStates(cycle, time)`: base_physics.cpp 62-79, then solid_mechanics.hpp 369-404 or
heat_transfer.hpp 276-297.  `zero` is the zero field. -/
def reset (zero : N → V) (cycle : Int) (time : R) (p : Phys N V R) : Phys N V R :=
  let p := { p with steps := [], time := time, maxTime := time, cycle := cycle, maxCycle := cycle,
                    minCycle := cycle, live := zero }
  if p.toDisk then (if p.solid then output p else p) else restartMemory p

/-- solid_mechanics.hpp 663-682 for a name the module knows. -/
def setState (n : N) (v : V) (p : Phys N V R) : Option (Phys N V R) :=
  let p := { p with live := Function.update p.live n v }
  if p.toDisk then some p
  else do
    let l ← set? (p.mem n) p.cycle v
    pure { p with mem := Function.update p.mem n l }

/-- solid_mechanics.hpp 1223-1231, heat_transfer.hpp 766-775. -/
def completeSetup (p : Phys N V R) : Phys N V R :=
  if p.toDisk then output p else restartMemory p

/-- solid_mechanics.hpp 1268-1294, heat_transfer.hpp 358-373: `s` is what the solve left in the
fields. -/
def advance [Add R] (dt : R) (s : N → V) (p : Phys N V R) : Phys N V R :=
  let p := { p with live := s, time := p.time + dt }
  let p := { p with cycle := p.cycle + 1 }
  let p := if p.toDisk then output p else pushMemory p
  if p.cycle > p.maxCycle then
    { p with steps := p.steps ++ [dt], maxCycle := p.cycle, maxTime := p.time }
  else p

/-- base_physics.cpp 380-387. -/
def timestep [Zero R] (p : Phys N V R) (cycle : Int) : Option R :=
  if cycle < 0 then none
  else if cycle > p.steps.length then none
  else some (if cycle < p.steps.length then p.steps.getD cycle.toNat 0 else 0)

/-- `.at(name)[cycle]` for each state name (base_physics.cpp 372-374); the entries for other names
are never looked at. -/
def fromMemory (p : Phys N V R) (cycle : Int) : Option (N → V) :=
  if p.names.all (fun n => (at? (p.mem n) cycle).isSome) then
    some (fun n => (at? (p.mem n) cycle).getD (p.live n))
  else none

/-- base_physics.cpp 359-378.  On disk: a copy of every live field is put in the map *first*, then
the live fields themselves are overwritten from the file; the map is returned. -/
def getStates (p : Phys N V R) (cycle : Int) : Option ((N → V) × Phys N V R) :=
  if p.toDisk then do
    let file ← p.disk cycle
    pure (p.live, { p with live := fun n => if n ∈ p.names then file n else p.live n })
  else do
    let m ← fromMemory p cycle
    pure (m, p)

/-- base_physics.cpp 334-357 for a name the module knows. -/
def load (p : Phys N V R) (n : N) (cycle : Int) : Option (V × Phys N V R) :=
  if p.toDisk then
    match p.cached with
    | some (c, m) =>
      if c = cycle then some (m n, p)
      else do
        let (m, p) ← getStates p cycle
        pure (m n, { p with cached := some (cycle, m) })
    | none => do
      let (m, p) ← getStates p cycle
      pure (m n, { p with cached := some (cycle, m) })
  else do
    let v ← at? (p.mem n) cycle
    pure (v, p)

/-- solid_mechanics.hpp 1341-1404, heat_transfer.hpp 842-921, as far as the primal fields and
counters go. -/
def reverse [Zero R] [Sub R] (p : Phys N V R) : Option (Phys N V R) :=
  if p.cycle ≤ p.minCycle then none
  else do
    let p := { p with cycle := p.cycle - 1 }
    let _dtNext ← (if p.solid then timestep p (p.cycle + 1) else some 0)
    let dt ← timestep p p.cycle
    let (m, p) ← getStates p (p.cycle + 1)
    pure { p with live := fun n => if n ∈ p.names then m n else p.live n, time := p.time - dt }

/-- base_physics.hpp 141-145 -/
def resetAdjoint (p : Phys N V R) : Phys N V R :=
  { p with time := p.maxTime, cycle := p.maxCycle }

/-- One call from the user. -/
inductive Op (N V R : Type) where
  | reset (cycle : Int) (time : R)
  | setState (n : N) (v : V)
  | completeSetup
  | advance (dt : R) (s : N → V)
  | reverse
  | resetAdjoint
  | query (n : N) (cycle : Int)

def step [Zero R] [Add R] [Sub R] (zero : N → V) : Op N V R → Phys N V R → Option (Phys N V R)
  | .reset c t, p => some (reset zero c t p)
  | .setState n v, p => setState n v p
  | .completeSetup, p => some (completeSetup p)
  | .advance dt s, p => some (advance dt s p)
  | .reverse, p => reverse p
  | .resetAdjoint, p => some (resetAdjoint p)
  | .query n c, p => (load p n c).map Prod.snd

def run [Zero R] [Add R] [Sub R] (zero : N → V) : List (Op N V R) → Phys N V R → Option (Phys N V R)
  | [], p => some p
  | op :: ops, p => (step zero op p).bind (run zero ops)

end Serac.Checkpoint
