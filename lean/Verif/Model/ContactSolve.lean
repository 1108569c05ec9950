import Verif.Model.Contact
/-!
# Contact in the quasi-static solve

`ContactData::residualFunction` and `jacobianFunction` (`src/serac/physics/contact/contact_data.cpp` 229-273, with `update`, `forces`,
`setDisplacements`), the operators of `SolidMechanicsContact::buildQuasistaticOperator` and its `quasiStaticSolve`
(`src/serac/physics/solid_mechanics_contact.hpp` 110-182, 218-254).

Tribol is external: what it computes for an interaction is a function of the coordinates and, for forces, of the pressures it holds at the time
of `tribol::update`.  It keeps these results until the next `tribol::update`, whatever happens to coordinates and pressures in between.  The
nonlinear solver is external too: it evaluates the residual at any points in any order, the last one being the point it returns.  Vectors are
functions on ℕ; the displacement has `n` entries, the multipliers follow.
-/

noncomputable section
namespace Serac.Contact
open Classical

/-- What Tribol computes for the interaction with a given index. -/
structure Tribol where
  /-- `setDisplacements` (contact_data.cpp:299-303): reference nodes plus the prolongated displacement -/
  coords : (ℕ → ℝ) → ℕ → ℝ
  gap : ℕ → (ℕ → ℝ) → ℕ → ℝ
  slope : ℕ → (ℕ → ℝ) → ℕ → ℕ → ℝ
  force : ℕ → (ℕ → ℝ) → (ℕ → ℝ) → ℕ → ℝ

/-- `ContactData` with what Tribol holds: the interactions, `current_coords_` and the response of every interaction. -/
structure Live where
  data : Data
  coords : ℕ → ℝ
  response : List (ℕ → ℝ)

/-- `update` (contact_data.cpp:44-56): gaps, Jacobians and responses from the present coordinates and pressures. -/
def Live.update (T : Tribol) (s : Live) : Live :=
  let xs := s.data.inters.mapIdx fun i x => { x with g := T.gap i s.coords, B := T.slope i s.coords }
  { s with data := { s.data with inters := xs }, response := xs.mapIdx fun i x => T.force i s.coords x.p }

/-- `forces` (contact_data.cpp:58-65). -/
def Live.forces (s : Live) (k : ℕ) : ℝ := s.response.foldl (fun f g => f + g k) 0

/-- `setDisplacements` (contact_data.cpp:299-303). -/
def Live.setDisplacements (T : Tribol) (s : Live) (u : ℕ → ℝ) : Live := { s with coords := T.coords u }

/-- `setPressures` (contact_data.cpp:275-297). -/
def Live.setPressures (s : Live) (p : ℕ → ℝ) : Option Live := (Contact.setPressures s.data p).map fun d => { s with data := d }

/-- The view `Vector(u, 0, n)`. -/
def head (n : ℕ) (u : ℕ → ℝ) : ℕ → ℝ := fun k => if k < n then u k else 0

/-- The view `Vector(u, n, …)`. -/
def tail (n : ℕ) (u : ℕ → ℝ) : ℕ → ℝ := fun k => u (n + k)

/-- `ContactData::residualFunction` (contact_data.cpp:229-255). -/
def residualFunction (T : Tribol) (n : ℕ) (junk u r : ℕ → ℝ) (s : Live) : Option (Live × (ℕ → ℝ)) :=
  (((s.setDisplacements T (head n u)).update T).setPressures (tail n u)).bind fun s1 =>
    let s2 := s1.update T
    (mergedGaps s2.data true junk).map fun g =>
      (s2, fun k => if k < n then r k + s2.forces k else if k < n + s2.data.numDofs then g (k - n) else r k)

/-- The module without contact: number of displacement dofs, residual of the body, its derivative, essential true dofs. -/
structure Host where
  n : ℕ
  R : (ℕ → ℝ) → ℕ → ℝ
  K : (ℕ → ℝ) → ℕ → ℕ → ℝ
  ess : List ℕ

/-- `residual_fn` (solid_mechanics_contact.hpp:113-126). -/
def residualFn (T : Tribol) (H : Host) (junk u : ℕ → ℝ) (s : Live) : Option (Live × (ℕ → ℝ)) :=
  (residualFunction T H.n junk u (fun k => if k < H.n then H.R (head H.n u) k else junk k) s).map fun out =>
    (out.1, fun k => if k < H.n ∧ k ∈ H.ess then 0 else out.2 k)

/-- The blocks of the gradient (contact_data.cpp:257-273, solid_mechanics_contact.hpp:134-166): contact blocks plus the tangent of the body,
then essential rows and columns eliminated. -/
def gradient (H : Host) (u : ℕ → ℝ) (s : Data) : Option Blocks :=
  (mergedJacobian s).map fun b =>
    { J00 := fun i j => if i ∈ H.ess ∨ j ∈ H.ess then (if i = j then 1 else 0) else H.K (head H.n u) i j + b.J00 i j
      J01 := fun i l => if i ∈ H.ess then 0 else b.J01 i l
      J10 := fun k j => if j ∈ H.ess then 0 else b.J10 k j
      J11 := b.J11 }

/-- The evaluations of a nonlinear solver before its last one. -/
def evaluate (T : Tribol) (H : Host) (junk : ℕ → ℝ) : List (ℕ → ℝ) → Live → Option Live
  | [], s => some s
  | u :: us, s => (residualFn T H junk u s).bind fun out => evaluate T H junk us out.1

/-- What a step leaves: the displacement, the contact state, `forces_`; and, for the statements, the last residual the solver saw and the
contact state it was computed with. -/
structure Solved where
  u : ℕ → ℝ
  live : Live
  forces : ℕ → ℝ
  residual : ℕ → ℝ
  seen : Live

/-- The part of `quasiStaticSolve` from `nonlin_solver_->solve` on, with multipliers (solid_mechanics_contact.hpp:247-253). -/
def solveMultipliers (T : Tribol) (H : Host) (junk : ℕ → ℝ) (points : List (ℕ → ℝ)) (x : ℕ → ℝ) (s : Live) : Option Solved :=
  (evaluate T H junk points s).bind fun s1 => (residualFn T H junk x s1).bind fun out =>
    (out.1.setPressures (tail H.n x)).map fun s2 =>
      let s3 := s2.update T
      ⟨head H.n x, s3, s3.forces, out.2, out.1⟩

/-- The same with penalty enforcement only (solid_mechanics_contact.hpp:221-226). -/
def solvePenalty (T : Tribol) (H : Host) (junk : ℕ → ℝ) (points : List (ℕ → ℝ)) (x : ℕ → ℝ) (s : Live) : Option Solved :=
  (evaluate T H junk points s).bind fun s1 => (residualFn T H junk x s1).map fun out =>
    let s3 := out.1.update T
    ⟨head H.n x, s3, s3.forces, out.2, out.1⟩

/-! ## Constructor of tied interactions -/

/-- The pressure space of an interaction: elements of the surface mesh, their attributes, their local dofs (with sign encoding), true dofs and the
local dof each true dof is read from. -/
structure PressureSpace where
  elements : ℕ
  attr : ℕ → ℕ
  vdofs : ℕ → List ℤ
  trueSize : ℕ
  localOf : ℕ → ℕ

/-- `if (k < 0) k = -1 - k` (contact_interaction.cpp:24-26). -/
def decode (k : ℤ) : ℕ := (if k < 0 then -1 - k else k).toNat

/-- `mark_dofs` (contact_interaction.cpp:20-29). -/
def markDofs : List ℤ → (ℕ → ℤ) → ℕ → ℤ
  | [], v => v
  | k :: l, v => markDofs l (Function.update v (decode k) 0)

/-- Body of the loop over elements (contact_interaction.cpp:54-59). -/
def markElement (S : PressureSpace) (markers : ℕ → ℤ) (v : ℕ → ℤ) (e : ℕ) : ℕ → ℤ :=
  if markers (S.attr e - 1) ≠ 0 then markDofs (S.vdofs e) v else v

/-- `inactive_tdofs_` of a tied interaction (contact_interaction.cpp:43-63).  `mfem::Array<int>(n)` does not initialise its entries: `memory` is what
`surf2_markers` contains before the loop over attributes.  `BooleanMult` with the restriction matrix reads the one local dof of each true dof. -/
def tiedInactive (S : PressureSpace) (surf2 : List ℕ) (memory : ℕ → ℤ) : List ℕ :=
  let markers := surf2.foldl (fun (m : ℕ → ℤ) a => Function.update m (a - 1) 1) memory
  let dofMarkers := (List.range S.elements).foldl (markElement S markers) fun _ => -1
  (List.range S.trueSize).filter fun t => decide (dofMarkers (S.localOf t) ≠ 0)

end Serac.Contact
