import Verif.Model.Elimination
/-!
# Parameter fields of a physics module and the parameters of the warm start

Model of `BasePhysics::setParameter` (src/serac/physics/base_physics.cpp:82-100), `ParameterInfo` (base_physics.hpp:555-590), the assignment
`FiniteElementVector::operator=` it uses (state/finite_element_vector.cpp:19-26, 75-86), `initializeBasePhysicsStates`
(base_physics.cpp:62-80) and the use of the parameters by `SolidMechanics::advanceTimestep` (solid_mechanics.hpp:1242-1290) and
`warmStartDisplacement` (solid_mechanics.hpp:1727-1770), for quasi-static analyses.

A field is a mesh, a space and its values `V`.  A step is reduced to which parameter fields it evaluates the residual and the Jacobian with.
-/

namespace Serac.Parameters

/-- A `FiniteElementState`: mesh, the name of its collection with the number of components and the ordering, its true size, its values. -/
structure FEField (V : Type) where
  mesh : ℕ
  space : ℕ
  size : ℕ
  val : V

/-- `ParameterInfo` without the sensitivity. -/
structure Info (V : Type) where
  state : FEField V
  previous : FEField V

/-- The members of the module that matter here. -/
structure Module (V : Type) where
  mesh : ℕ
  cycle : ℤ
  params : List (Info V)

/-- A new module: every field starts at zero (finite_element_vector.cpp:47), cycle as given to the constructor. -/
def Module.init {V : Type} (mesh : ℕ) (cycle : ℤ) (zero : V) (spaces : List (ℕ × ℕ)) : Module V :=
  { mesh, cycle, params := spaces.map fun p => ⟨⟨mesh, p.1, p.2, zero⟩, ⟨mesh, p.1, p.2, zero⟩⟩ }

/-- `setParameter` (base_physics.cpp:82-100); errors end the run. -/
def Module.setParameter {V : Type} (m : Module V) (i : ℕ) (f : FEField V) : Option (Module V) :=
  match m.params[i]? with
  | none => none
  | some p =>
    if f.mesh ≠ m.mesh then none
    else if f.size ≠ p.state.size then none
    else if ¬ (f.mesh = p.state.mesh ∧ f.space = p.state.space) then none
    else some { m with params := m.params.set i { p with state := { p.state with val := f.val } } }

/-- The parameter values a step uses: in the residual and reactions (`state`), and in the Jacobian of the warm start (`previous_state`). -/
structure Use (V : Type) where
  residual : List V
  jacobian : List V

/-- `advanceTimestep` (solid_mechanics.hpp:1242-1290): at cycle 0 the previous values are set first. -/
def Module.advance {V : Type} (m : Module V) : Module V × Use V :=
  let ps := if m.cycle = 0 then m.params.map fun p => { p with previous := { p.previous with val := p.state.val } } else m.params
  ({ m with cycle := m.cycle + 1, params := ps }, ⟨ps.map (·.state.val), ps.map (·.previous.val)⟩)

/-- `resetStates(cycle, time)` (base_physics.cpp:62-80): the parameters are kept. -/
def Module.reset {V : Type} (m : Module V) (cycle : ℤ) : Module V := { m with cycle }

/-- The calls of a user. -/
inductive Op (V : Type)
  | set (i : ℕ) (f : FEField V)
  | advance
  | reset (cycle : ℤ)

/-- One call. -/
def Module.step {V : Type} (m : Module V) : Op V → Option (Module V × List (Use V))
  | .set i f => (m.setParameter i f).map fun m' => (m', [])
  | .advance => some (m.advance.1, [m.advance.2])
  | .reset c => some (m.reset c, [])

/-- A sequence of calls and the uses of the parameters by its steps. -/
def Module.run {V : Type} : Module V → List (Op V) → Option (Module V × List (Use V))
  | m, [] => some (m, [])
  | m, op :: ops => (m.step op).bind fun r => (Module.run r.1 ops).map fun q => (q.1, r.2 ++ q.2)

/-- The displacement after the warm start of a step of a problem with residual `r p u` and Jacobian `K p u`, which the code evaluates with the
current and the previous parameter values (solid_mechanics.hpp:1745-1764). -/
noncomputable def warmStart {V : Type} {n : ℕ} (r : List V → Elim.Vec n → Elim.Vec n) (K : List V → Elim.Vec n → Elim.Mat n) (use : Use V)
    (dofs : List (Fin n)) (g u : Elim.Vec n) (solve : Elim.Mat n → Elim.Vec n → Elim.Vec n) : Elim.Vec n :=
  Elim.warmStart dofs g u true (K use.jacobian u) (r use.residual u) solve

end Serac.Parameters
