import Mathlib.Logic.Function.Basic
/-
The state manager's data store, restart files, and how a physics module is rebuilt from them.

Source:
  src/serac/physics/state/state_manager.cpp  23-92   newDataCollection (load branch)
  src/serac/physics/state/state_manager.cpp 117-130  initialize;  state_manager.hpp 242-251 reset
  src/serac/physics/state/state_manager.cpp 137-159  storeState
  src/serac/physics/state/state_manager.cpp 174-198  storeDual
  src/serac/physics/state/state_manager.cpp 213-225  save
  src/serac/physics/state/state_manager.cpp 272-291  constructShapeFields
  src/serac/physics/state/state_manager.hpp 188-212  updateState, updateDual
  src/serac/physics/state/state_manager.hpp 226-231  load
  src/serac/physics/base_physics.cpp         21-48   BasePhysics ctor;  62-79 initializeBasePhysicsStates
  src/serac/physics/base_physics.cpp        181-201  outputStateToDisk
  src/serac/physics/base_physics.hpp        566-573  ParameterInfo ctor
  src/serac/physics/solid_mechanics.hpp     167-269  SolidMechanics ctor;  369-404 initializeSolidMechanicsStates
  src/serac/physics/heat_transfer.hpp       142-220  HeatTransfer ctor;  276-297 initializeThermalStates

Simplifications:
* One mesh (one data collection).  Writing a Sidre file and reading it back returns the same grid
  functions (assumed of Axom); a file maps field names to grid functions and carries a time.
* `T` is the type of true-dof vectors, `G` of grid functions.  `P` is `SetFromTrueDofs`, `R` is
  `GetTrueDofs`, `RT` is multiplication with the transposed restriction (used for duals).
* A field registered outside a restart has the contents of freshly allocated memory (`alloc`).
* Errors and null pointers give `none`.
-/

namespace Serac.Restart

/-- The mfem maps between true dofs and grid functions. -/
structure Maps (T G : Type) where
  P : T → G
  R : G → T
  RT : T → G
  /-- contents of fresh memory -/
  alloc : G

/-- `StateManager`'s static members and the output directory. -/
structure Store (Nm G Tm : Type) where
  restart : Bool
  /-- fields of the data collection -/
  fields : Nm → Option G
  /-- keys of `named_states_` -/
  states : Nm → Bool
  /-- keys of `named_duals_` -/
  duals : Nm → Bool
  /-- files in the output directory -/
  files : Int → Option (Tm × (Nm → Option G))

variable {Nm T G Tm : Type} [DecidableEq Nm]

/-- state_manager.cpp 117-130, state_manager.hpp 242-251: forget everything but the files. -/
def clear (s : Store Nm G Tm) : Store Nm G Tm :=
  { restart := false, fields := fun _ => none, states := fun _ => false, duals := fun _ => false, files := s.files }

/-- state_manager.cpp 137-159.  Returns the value given to the state. -/
def storeState (m : Maps T G) (n : Nm) (s : Store Nm G Tm) : Option (T × Store Nm G Tm) :=
  if s.states n then none
  else if s.restart then do
    let g ← s.fields n
    pure (m.R g, { s with states := Function.update s.states n true })
  else if (s.fields n).isSome then none
  else
    some (m.R m.alloc, { s with fields := Function.update s.fields n (some m.alloc), states := Function.update s.states n true })

/-- state_manager.cpp 174-198 -/
def storeDual (m : Maps T G) (n : Nm) (s : Store Nm G Tm) : Option (T × Store Nm G Tm) :=
  if s.duals n then none
  else if s.restart then do
    let g ← s.fields n
    pure (m.R g, { s with duals := Function.update s.duals n true })
  else if (s.fields n).isSome then none
  else
    some (m.R m.alloc, { s with fields := Function.update s.fields n (some m.alloc), duals := Function.update s.duals n true })

/-- state_manager.hpp 188-195 -/
def updateState (m : Maps T G) (n : Nm) (v : T) (s : Store Nm G Tm) : Option (Store Nm G Tm) :=
  if s.states n then some { s with fields := Function.update s.fields n (some (m.P v)) } else none

/-- state_manager.hpp 205-212 -/
def updateDual (m : Maps T G) (n : Nm) (v : T) (s : Store Nm G Tm) : Option (Store Nm G Tm) :=
  if s.duals n then some { s with fields := Function.update s.fields n (some (m.RT v)) } else none

/-- state_manager.cpp 213-225 -/
def save (t : Tm) (cycle : Int) (s : Store Nm G Tm) : Store Nm G Tm :=
  { s with files := Function.update s.files cycle (some (t, s.fields)) }

/-- state_manager.hpp 226-231 and the load branch of newDataCollection.  Returns the time and the
shape displacement, which `constructShapeFields` reads and then sets to zero. -/
def load (m : Maps T G) (zero : T) (shape : Nm) (cycle : Int) (s : Store Nm G Tm) : Option (Tm × T × Store Nm G Tm) := do
  let (t, fields) ← s.files cycle
  let s := { s with restart := true, fields := fields }
  let (_, s) ← storeState m shape s
  pure (t, zero, s)

/-- One field of a physics module, in the order the constructor stores them. -/
structure Entry (Nm : Type) where
  name : Nm
  isDual : Bool
  /-- set to zero at the end of the constructor -/
  zeroed : Bool
  /-- written by `outputStateToDisk` -/
  written : Bool
deriving DecidableEq

/-- Parameters: `ParameterInfo` stores the field and its sensitivity; nothing zeroes them afterwards
(`initializeBasePhysicsStates` ran earlier, when there were no parameters). -/
def paramEntries (params : List (Nm × Nm)) : List (Entry Nm) :=
  params.flatMap (fun p => [⟨p.1, false, false, true⟩, ⟨p.2, true, false, true⟩])

/-- Names of the solid mechanics fields. -/
structure SolidNames (Nm : Type) where
  shapeSensitivity : Nm
  displacement : Nm
  velocity : Nm
  acceleration : Nm
  adjoint : Nm
  reactions : Nm

/-- solid_mechanics.hpp 171-264: velocity and acceleration join `states_` only in dynamics. -/
def solidEntries (k : SolidNames Nm) (quasistatic : Bool) (params : List (Nm × Nm)) : List (Entry Nm) :=
  [⟨k.shapeSensitivity, true, true, true⟩, ⟨k.displacement, false, true, true⟩, ⟨k.velocity, false, true, !quasistatic⟩,
   ⟨k.acceleration, false, true, !quasistatic⟩, ⟨k.adjoint, false, true, false⟩, ⟨k.reactions, true, true, true⟩] ++ paramEntries params

/-- heat_transfer.hpp 145-219 -/
structure HeatNames (Nm : Type) where
  shapeSensitivity : Nm
  temperature : Nm
  rate : Nm
  adjoint : Nm

def heatEntries (k : HeatNames Nm) (quasistatic : Bool) (params : List (Nm × Nm)) : List (Entry Nm) :=
  [⟨k.shapeSensitivity, true, true, true⟩, ⟨k.temperature, false, true, true⟩, ⟨k.rate, false, true, !quasistatic⟩,
   ⟨k.adjoint, false, true, false⟩] ++ paramEntries params

/-- The constructor: store every field, then zero those that are zeroed. -/
def build (m : Maps T G) (zero : T) : List (Entry Nm) → Store Nm G Tm → Option ((Nm → T) × Store Nm G Tm)
  | [], s => some (fun _ => zero, s)
  | e :: es, s => do
    let (v, s) ← (if e.isDual then storeDual m e.name s else storeState m e.name s)
    let (live, s) ← build m zero es s
    pure (Function.update live e.name (if e.zeroed then zero else v), s)

/-- The update calls of `outputStateToDisk` (base_physics.cpp 184-198). -/
def updateAll (m : Maps T G) (live : Nm → T) : List (Entry Nm) → Store Nm G Tm → Option (Store Nm G Tm)
  | [], s => some s
  | e :: es, s => do
    let s ← (if e.written then (if e.isDual then updateDual m e.name (live e.name) s else updateState m e.name (live e.name) s) else some s)
    updateAll m live es s

/-- base_physics.cpp 181-201; the shape displacement is the state manager's own state. -/
def output (m : Maps T G) (shape : Nm) (es : List (Entry Nm)) (live : Nm → T) (t : Tm) (cycle : Int) (s : Store Nm G Tm) :
    Option (Store Nm G Tm) := do
  let s ← updateAll m live es s
  let s ← updateState m shape (live shape) s
  pure (save t cycle s)

/-- A restart: initialize, load, construct the module (which zeroes the shape displacement once
more); with disk checkpoints solid mechanics then writes its states (solid_mechanics.hpp 395-396). -/
def restart (m : Maps T G) (zero : T) (shape : Nm) (es : List (Entry Nm)) (writes : Bool) (cycle : Int) (s : Store Nm G Tm) :
    Option (Tm × (Nm → T) × Store Nm G Tm) := do
  let (t, _, s) ← load m zero shape cycle (clear s)
  let (live, s) ← build m zero es s
  let live := Function.update live shape zero
  let s ← (if writes then output m shape es live t cycle s else some s)
  pure (t, live, s)

/-- Calls on the state manager between a save and the next restart. -/
inductive Op (Nm T Tm : Type) where
  | newState (n : Nm)
  | newDual (n : Nm)
  | updateState (n : Nm) (v : T)
  | updateDual (n : Nm) (v : T)
  | save (t : Tm) (cycle : Int)

def step (m : Maps T G) : Op Nm T Tm → Store Nm G Tm → Option (Store Nm G Tm)
  | .newState n, s => (storeState m n s).map Prod.snd
  | .newDual n, s => (storeDual m n s).map Prod.snd
  | .updateState n v, s => updateState m n v s
  | .updateDual n v, s => updateDual m n v s
  | .save t c, s => some (save t c s)

def run (m : Maps T G) : List (Op Nm T Tm) → Store Nm G Tm → Option (Store Nm G Tm)
  | [], s => some s
  | o :: os, s => (step m o s).bind (run m os)

end Serac.Restart
