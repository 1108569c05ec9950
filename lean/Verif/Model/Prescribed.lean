import Verif.Model.BoundaryConditions
import Mathlib.Data.Real.Basic
import Mathlib.Data.List.Basic
/-!
# Prescribed displacements: choosing the degrees of freedom and setting their values

Model of `SolidMechanics::calculateConstrainedDofs` (src/serac/physics/solid_mechanics.hpp:1641-1690), of the `setDisplacementBCs` calls that
use it (434-640), of `BoundaryCondition::setDofs` (src/serac/physics/boundary_conditions/boundary_condition.cpp:80-114) and of the parts of
`FiniteElementState` it needs (src/serac/physics/state/finite_element_state.cpp:12-30, .hpp:126-140).

One rank is modelled at a time.  What mfem knows about the rank is data (`Rank`): the number of local nodes, the ordering of the vector
space, the true dof number of each local dof (`GetLocalTDofNumber`, negative if another rank owns it), the nodal positions
(`mesh_.GetNodes`) and which nodes lie on which boundary attribute.  Coefficients are functions of position and time; projecting evaluates
them at the nodal position (for mfem: the element map at the node).  The ordering is a compile time constant of the library: both choices
are modelled.
-/

namespace Serac.Prescribed

/-- `mfem::Ordering::Type`. -/
inductive VOrder
  | byNodes
  | byVDim

/-- `mfem::Ordering::Map<ord>(ndofs, vdim, dof, vd)`. -/
def VOrder.map (o : VOrder) (n vdim i d : ℕ) : ℕ :=
  match o with
  | .byNodes => i + n * d
  | .byVDim => d + vdim * i

/-- `FiniteElementSpace::VDofToDof`. -/
def VOrder.node (o : VOrder) (n vdim l : ℕ) : ℕ :=
  match o with
  | .byNodes => l % n
  | .byVDim => l / vdim

/-- The component a vector dof belongs to. -/
def VOrder.comp (o : VOrder) (n vdim l : ℕ) : ℕ :=
  match o with
  | .byNodes => l / n
  | .byVDim => l % vdim

/-- What one rank knows about the displacement space. -/
structure Rank where
  n : ℕ
  dim : ℕ
  ord : VOrder
  trueSize : ℕ
  /-- `GetLocalTDofNumber`. -/
  ltdof : ℕ → ℤ
  /-- The grid function filled by `mesh_.GetNodes`. -/
  X : ℕ → ℝ
  maxAttr : ℕ
  onBdr : (attr : ℕ) → (node : ℕ) → Bool

namespace Rank
variable (s : Rank)

/-- Local vector dof of component `d` of node `i`. -/
def vdof (i d : ℕ) : ℕ := s.ord.map s.n s.dim i d

/-- `mfem::Vector node_coords(dim)`: the position of node `i`. -/
def coords (i : ℕ) : Fin s.dim → ℝ := fun d => s.X (s.vdof i d)

/-- `is_active_component` (solid_mechanics.hpp:1668-1674). -/
def isActive (component : Option ℤ) (d : ℕ) : Bool :=
  match component with
  | none => true
  | some c => if c ≠ (d : ℤ) then false else true

/-- The inner loop over the components of one node (solid_mechanics.hpp:1660-1681): the true dofs of the active components. -/
def nodeDofs (component : Option ℤ) (i : ℕ) : List ℤ :=
  (List.range s.dim).foldl (fun acc d =>
    if isActive component d then acc ++ [s.ltdof (s.vdof i d)] else acc) []

/-- `calculateConstrainedDofs` (solid_mechanics.hpp:1641-1690). -/
def constrained (pred : (Fin s.dim → ℝ) → Bool) (component : Option ℤ) : List ℤ :=
  (List.range s.n).foldl (fun acc i =>
    if 0 ≤ s.ltdof (s.vdof i 0) then
      if pred (s.coords i) then acc ++ s.nodeDofs component i else acc
    else acc) []

/-- The local dof of a true dof: the single entry of that row of the restriction matrix. -/
def localOf (t : ℕ) : Option ℕ := (List.range (s.n * s.dim)).find? (fun l => decide (s.ltdof l = (t : ℤ)))

/-- `ListToMarker`, `BooleanMultTranspose`, `MarkerToList` (boundary_condition.cpp:45-53). -/
def localOfTrue (ts : List ℕ) : List ℕ := (List.range (s.n * s.dim)).filter (fun l => ts.any fun t => decide (s.ltdof l = (t : ℤ)))

/-- The view of the space that the bookkeeping of the boundary condition manager uses. -/
def space : BC.Space where
  maxAttr := s.maxAttr
  tdofs := {
    size := s.trueSize
    comp := fun t => match s.localOf t with | some l => s.ord.comp s.n s.dim l | none => 0
    on := fun a t => match s.localOf t with | some l => s.onBdr a (s.ord.node s.n s.dim l) | none => false }
  ldofs := { size := s.n * s.dim, comp := s.ord.comp s.n s.dim, on := fun a l => s.onBdr a (s.ord.node s.n s.dim l) }
  localOfTrue := s.localOfTrue

/-- `GeneralCoefficient`: a vector function or a scalar function of position and time (a function without time ignores it). -/
inductive Coef (dim : ℕ)
  | vector (f : (Fin dim → ℝ) → ℝ → (Fin dim → ℝ))
  | scalar (f : (Fin dim → ℝ) → ℝ → ℝ)

/-- A boundary condition: the dof lists of `Serac.BC.Cond` and the coefficient. -/
structure Cond (s : Rank) where
  bc : BC.Cond
  coef : Coef s.dim

/-- Write one entry of an array. -/
def put (g : ℕ → ℝ) (k : ℕ) (v : ℝ) : ℕ → ℝ := fun j => if j = k then v else g j

/-- `GridFunction::ProjectCoefficient(VectorCoefficient&, dofs)`: all components of each listed node. -/
def projectVector (f : (Fin s.dim → ℝ) → (Fin s.dim → ℝ)) (nodes : List ℕ) (g : ℕ → ℝ) : ℕ → ℝ :=
  nodes.foldl (fun g i => (List.finRange s.dim).foldl (fun g (d : Fin s.dim) => put g (s.vdof i d) (f (s.coords i) d)) g) g

/-- `GridFunction::ProjectCoefficient(Coefficient&, dofs, vd)`: one component of each listed node. -/
def projectScalar (f : (Fin s.dim → ℝ) → ℝ) (nodes : List ℕ) (c : ℕ) (g : ℕ → ℝ) : ℕ → ℝ :=
  nodes.foldl (fun g i => put g (s.vdof i c) (f (s.coords i))) g

/-- `setFromGridFunction`: each true dof takes the value of its local dof. -/
def toTrue (g : ℕ → ℝ) (t : ℕ) : ℝ := match s.localOf t with | some l => g l | none => 0

/-- The temporary state of `setDofs` (boundary_condition.cpp:85-109): a zero state into which the coefficient is projected.  Without a
component a scalar coefficient is projected onto the marked boundary of a scalar field: not modelled here. -/
def bcState (c : Cond s) (time : ℝ) : ℕ → ℝ :=
  let nodes := c.bc.localDofs.map (s.ord.node s.n s.dim)
  s.toTrue (match c.coef with
    | .vector f => s.projectVector (fun x => f x time) nodes (fun _ => 0)
    | .scalar f => s.projectScalar (fun x => f x time) nodes (c.bc.component.getD 0) (fun _ => 0))

/-- `BoundaryCondition::setDofs` (boundary_condition.cpp:80-114); a vector of another size is an error. -/
def setDofs (c : Cond s) (time : ℝ) (size : ℕ) (v : ℕ → ℝ) : Option (ℕ → ℝ) :=
  if s.trueSize ≠ size then none
  else some (c.bc.trueDofs.foldl (fun v i => put v i (s.bcState c time i)) v)

/-- `for (const auto& bc : bcs_.essentials()) bc.setDofs(v, time)` (solid_mechanics.hpp:1733-1735, odes.cpp:170-174). -/
def setAll : List (Cond s) → ℝ → ℕ → (ℕ → ℝ) → Option (ℕ → ℝ)
  | [], _, _, v => some v
  | c :: cs, time, size, v => (s.setDofs c time size v).bind (setAll cs time size)

/-- `setDisplacementBCsByDofList` (solid_mechanics.hpp:497-534) through `addEssential` (boundary_condition_manager.cpp:33-39). -/
def byDofList (ts : List ℕ) (f : (Fin s.dim → ℝ) → ℝ → (Fin s.dim → ℝ)) : Cond s := ⟨BC.Cond.ofDofs s.space ts, .vector f⟩

/-- `setDisplacementBCs` with a predicate (solid_mechanics.hpp:548-577). -/
def byPredicate (pred : (Fin s.dim → ℝ) → Bool) (f : (Fin s.dim → ℝ) → ℝ → (Fin s.dim → ℝ)) : Cond s :=
  s.byDofList ((s.constrained pred none).map Int.toNat) f

/-- The vector function built from a scalar one (solid_mechanics.hpp:600-603, 630-633). -/
def componentFunction (c : ℤ) (f : (Fin s.dim → ℝ) → ℝ → ℝ) : (Fin s.dim → ℝ) → ℝ → (Fin s.dim → ℝ) :=
  fun x t d => if ((d : ℕ) : ℤ) = c then f x t else 0

/-- `setDisplacementBCs` with a predicate and a component (solid_mechanics.hpp:595-637). -/
def byPredicateComponent (pred : (Fin s.dim → ℝ) → Bool) (f : (Fin s.dim → ℝ) → ℝ → ℝ) (c : ℤ) : Cond s :=
  s.byDofList ((s.constrained pred (some c)).map Int.toNat) (s.componentFunction c f)

/-- `setDisplacementBCs` with attributes (solid_mechanics.hpp:434-463), attributes not used before. -/
def byAttributes (attrs : List ℤ) (f : (Fin s.dim → ℝ) → ℝ → (Fin s.dim → ℝ)) : Option (Cond s) :=
  (BC.Cond.ofAttrs s.space attrs none).map fun b => ⟨b, .vector f⟩

/-- `setDisplacementBCs` with attributes and a component (solid_mechanics.hpp:477-484), attributes not used before. -/
def byAttributesComponent (attrs : List ℤ) (f : (Fin s.dim → ℝ) → ℝ → ℝ) (c : ℕ) : Option (Cond s) :=
  (BC.Cond.ofAttrs s.space attrs (some c)).map fun b => ⟨b, .scalar f⟩

end Rank
end Serac.Prescribed
