import Mathlib.Data.List.Destutter
import Mathlib.Data.List.Sort
/-!
# Essential boundary conditions and their manager

Model of `src/serac/physics/boundary_conditions/boundary_condition.cpp` and `boundary_condition_manager.{cpp,hpp}`.

The finite element space is reduced to what the code asks of it: which true and local dofs lie on a boundary attribute and which component
each dof belongs to.  Coefficients and tags are not modelled (they do not enter the bookkeeping); `SLIC` messages are left out.
-/

namespace Serac.BC

/-- A dof numbering of the space (true or local): size, component of each dof, and the boundary attributes it lies on. -/
structure Numbering where
  size : ℕ
  comp : ℕ → ℕ
  on : (attr : ℕ) → (dof : ℕ) → Bool

/-- The space: its mesh's largest boundary attribute, the true and local numberings, and the local dofs of a list of true dofs
(`ListToMarker`, `GetRestrictionMatrix()->BooleanMultTranspose`, `MarkerToList`: external). -/
structure Space where
  maxAttr : ℕ
  tdofs : Numbering
  ldofs : Numbering
  localOfTrue : List ℕ → List ℕ

/-- `attr_markers_` (boundary_condition.cpp:15, 21-26): one flag per attribute, entry `attr - 1` set for each attribute.  An attribute out
of range writes outside the array (the check is an assertion): `none`. -/
def mark (maxAttr : ℕ) : List ℤ → List Bool → Option (List Bool)
  | [], m => some m
  | a :: as, m => if 1 ≤ a ∧ a ≤ maxAttr then mark maxAttr as (m.set (a - 1).toNat true) else none

/-- `GetEssentialTrueDofs` / `GetEssentialVDofs` + `MarkerToList` (mfem): the dofs, in increasing order, that lie on a marked attribute and
belong to the component (all components if absent). -/
def essential (nb : Numbering) (markers : List Bool) (component : Option ℕ) : List ℕ :=
  (List.range nb.size).filter fun d =>
    (List.range markers.length).any (fun k => markers.getD k false && nb.on (k + 1) d) &&
      (match component with | none => true | some c => nb.comp d == c)

/-- `BoundaryCondition` (boundary_condition.hpp:30-200): the members that matter here. -/
structure Cond where
  component : Option ℕ
  markers : List Bool
  trueDofs : List ℕ
  localDofs : List ℕ

/-- Constructor from attributes (boundary_condition.cpp:13-29) with `setDofListsFromAttributeMarkers` (56-78). -/
def Cond.ofAttrs (sp : Space) (attrs : List ℤ) (component : Option ℕ) : Option Cond :=
  (mark sp.maxAttr attrs (List.replicate sp.maxAttr false)).map fun m =>
    { component, markers := m, trueDofs := essential sp.tdofs m component, localDofs := essential sp.ldofs m component }

/-- Constructor from true dofs (boundary_condition.cpp:31-39) with `setTrueDofList` (41-54). -/
def Cond.ofDofs (sp : Space) (dofs : List ℕ) : Cond :=
  { component := none, markers := [], trueDofs := dofs, localDofs := sp.localOfTrue dofs }

/-- `BoundaryConditionManager` (boundary_condition_manager.hpp:107-150).  `attrs_in_use_` is a `std::set`: here a list used as a set. -/
structure Manager where
  conds : List Cond
  attrsInUse : List ℤ
  allTrue : List ℕ
  allLocal : List ℕ
  valid : Bool

/-- Constructor (boundary_condition_manager.hpp:33). -/
def Manager.init : Manager := { conds := [], attrsInUse := [], allTrue := [], allLocal := [], valid := false }

/-- `addEssential` with attributes (boundary_condition_manager.cpp:16-31). -/
def Manager.addAttrs (m : Manager) (sp : Space) (attrs : List ℤ) (component : Option ℕ) : Option Manager :=
  (Cond.ofAttrs sp (attrs.filter (· ∉ m.attrsInUse)) component).map fun c =>
    { m with conds := m.conds ++ [c], attrsInUse := m.attrsInUse ++ attrs, valid := false }

/-- `addEssential` with true dofs (boundary_condition_manager.cpp:33-39). -/
def Manager.addDofs (m : Manager) (sp : Space) (dofs : List ℕ) : Manager :=
  { m with conds := m.conds ++ [Cond.ofDofs sp dofs], valid := false }

/-- `Sort()` then `Unique()` of `mfem::Array` (`std::sort`, `std::unique`). -/
def sortUnique (l : List ℕ) : List ℕ := (l.insertionSort (· ≤ ·)).destutter (· ≠ ·)

/-- `updateAllDofs` (boundary_condition_manager.cpp:41-54). -/
def Manager.updateAllDofs (m : Manager) : Manager :=
  { m with
    allTrue := sortUnique (m.conds.flatMap (·.trueDofs))
    allLocal := sortUnique (m.conds.flatMap (·.localDofs))
    valid := true }

/-- `allEssentialTrueDofs` (boundary_condition_manager.hpp:62-68). -/
def Manager.queryTrue (m : Manager) : Manager × List ℕ :=
  let m' := if m.valid then m else m.updateAllDofs
  (m', m'.allTrue)

/-- `allEssentialLocalDofs` (boundary_condition_manager.hpp:74-80). -/
def Manager.queryLocal (m : Manager) : Manager × List ℕ :=
  let m' := if m.valid then m else m.updateAllDofs
  (m', m'.allLocal)

/-- The calls a user can make. -/
inductive Op
  | addAttrs (attrs : List ℤ) (component : Option ℕ)
  | addDofs (dofs : List ℕ)
  | queryTrue
  | queryLocal

/-- Run one call; a call with undefined behaviour has no result. -/
def Manager.step (sp : Space) (m : Manager) : Op → Option Manager
  | .addAttrs a c => m.addAttrs sp a c
  | .addDofs d => some (m.addDofs sp d)
  | .queryTrue => some m.queryTrue.1
  | .queryLocal => some m.queryLocal.1

/-- Run a sequence of calls. -/
def Manager.run (sp : Space) : Manager → List Op → Option Manager
  | m, [] => some m
  | m, op :: ops => (m.step sp op).bind fun m' => Manager.run sp m' ops

end Serac.BC
