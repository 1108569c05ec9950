import Mathlib.Data.List.Range
import Mathlib.Data.List.Basic
import Mathlib.Logic.Function.Basic
import Mathlib.Tactic.Ring
/-!
# Dofs chosen by the attribute of elements, on several processors

Model of `GetEssentialTrueDofsFromElementAttribute`, `mark_dofs` and `GetEssentialVDofsFromElementAttribute`
(src/serac/physics/boundary_conditions/boundary_condition_helper.cpp:11-68) and, for comparison, of the selection in the constructor of a tied `ContactInteraction`
(src/serac/physics/contact/contact_interaction.cpp:20-63), on every processor at once.

mfem is external.  Assumed: `GetElementVDofs` lists, component by component, `DofToVDof` of the element's dofs; `DofToVDof` keeps the sign encoding `-1-k`; `Synchronize` gives
every local dof the bitwise or of the marks of all local dofs, on all processors, that belong to the same true dof; a row of `GetRestrictionMatrix` has one entry, the
local dof of the owner (conforming meshes); `BooleanMult` and `MarkerToList` read marks as zero or not zero.  The markers of contact are taken as zero before they are
set (C95 is about their not being initialised).
-/

namespace Serac.ElementDofs

/-- What one processor knows of a space: its elements (`GetNE`, `GetAttribute`, `GetElementDofs`), the number of its scalar dofs, of its true dofs (`GetTrueVSize`) and the local
dof of each true dof. -/
structure Patch where
  ne : ℕ
  attr : ℕ → ℕ
  dofs : ℕ → List ℤ
  nd : ℕ
  trueSize : ℕ
  ldof : ℕ → ℕ

/-- A space on `ranks` processors; `tdof r l` is the processor and the number of the true dof of local dof `l` of processor `r`. -/
structure Space where
  ranks : ℕ
  vdim : ℕ
  byNodes : Bool
  part : ℕ → Patch
  tdof : ℕ → ℕ → ℕ × ℕ

/-- `GetVSize`. -/
def Space.vsize (S : Space) (r : ℕ) : ℕ := (S.part r).nd * S.vdim

/-- `mfem::FiniteElementSpace::DofToVDof` with `Ordering::Map` (external, assumed). -/
def Space.dofToVDof (S : Space) (r : ℕ) (k : ℤ) (c : ℕ) : ℤ :=
  if S.vdim = 1 then k
  else if S.byNodes then (if 0 ≤ k then k + (S.part r).nd * c else k - (S.part r).nd * c)
  else (if 0 ≤ k then k * S.vdim + c else -1 - ((-1 - k) * S.vdim + c))

/-- `GetElementVDofs` (external, assumed). -/
def Space.elementVDofs (S : Space) (r e : ℕ) : List ℤ := (List.range S.vdim).flatMap fun c => ((S.part r).dofs e).map fun k => S.dofToVDof r k c

/-- `if (k < 0) { k = -1 - k; }` (boundary_condition_helper.cpp:26-29). -/
def decode (k : ℤ) : ℕ := (if k < 0 then -1 - k else k).toNat

/-- `mark_dofs` (boundary_condition_helper.cpp:23-32) with the mark `x`: `-1` here, `0` in contact_interaction.cpp:20-29. -/
def markDofs (x : ℤ) (dofs : List ℤ) (m : ℕ → ℤ) : ℕ → ℤ := dofs.foldl (fun m k => Function.update m (decode k) x) m

/-- The vdofs of one element (boundary_condition_helper.cpp:48-59). -/
def Space.chosenVDofs (S : Space) (component : ℤ) (r e : ℕ) : List ℤ :=
  if component < 0 then S.elementVDofs r e
  else ((S.part r).dofs e).map fun k => S.dofToVDof r k component.toNat

/-- One turn of the loop over the elements (boundary_condition_helper.cpp:46-61); `none`: the array of attributes is read beyond its end. -/
def Space.markElement (S : Space) (isEss : List Bool) (component : ℤ) (r : ℕ) (m : ℕ → ℤ) (e : ℕ) : Option (ℕ → ℤ) :=
  match isEss[(S.part r).attr e - 1]? with
  | none => none
  | some true => some (markDofs (-1) (S.chosenVDofs component r e) m)
  | some false => some m

/-- The loop over the elements (boundary_condition_helper.cpp:43-62). -/
def Space.markElements (S : Space) (isEss : List Bool) (component : ℤ) (r : ℕ) : Option (ℕ → ℤ) :=
  (List.range (S.part r).ne).foldlM (S.markElement isEss component r) fun _ => 0

/-- `Synchronize` (external, assumed): the or of all marks of the same true dof. -/
def Space.synchronize (S : Space) (m : ℕ → ℕ → ℤ) (r l : ℕ) : ℤ :=
  ((List.range S.ranks).flatMap fun r' => (List.range (S.vsize r')).map fun l' => if S.tdof r' l' = S.tdof r l then m r' l' else 0).foldl
    (fun a x => if a = 0 ∧ x = 0 then 0 else -1) 0

/-- `BooleanMult` with the restriction matrix and `MarkerToList`. -/
def Space.trueList (S : Space) (m : ℕ → ℤ) (r : ℕ) : List ℕ := (List.range (S.part r).trueSize).filter fun i => m ((S.part r).ldof i) != 0

/-- `GetEssentialTrueDofsFromElementAttribute` (boundary_condition_helper.cpp:11-20) on every processor; `none` if some processor reads beyond the array. -/
def Space.essentialTrueDofs (S : Space) (isEss : List Bool) (component : ℤ) : Option (ℕ → List ℕ) :=
  if (List.range S.ranks).all fun r => (S.markElements isEss component r).isSome then
    let m : ℕ → ℕ → ℤ := fun r => (S.markElements isEss component r).getD fun _ => 0
    some fun r => S.trueList (S.synchronize m r) r
  else none

/-- `inactive_tdofs_` of a tied interaction (contact_interaction.cpp:43-63): the marks are `-1` and become `0` on the second surface; they are not synchronised. -/
def Space.tiedInactive (S : Space) (surf2 : List ℕ) (r : ℕ) : List ℕ :=
  S.trueList ((List.range (S.part r).ne).foldl (fun m e => if (S.part r).attr e ∈ surf2 then markDofs 0 (S.elementVDofs r e) m else m) fun _ => -1) r

/-- The local dofs of a list of true dofs in `BoundaryCondition::setTrueDofList` (src/serac/physics/boundary_conditions/boundary_condition.cpp:41-54): `ListToMarker`,
`BooleanMultTranspose` with the restriction matrix, `MarkerToList`. -/
def Space.localOfTrue (S : Space) (r : ℕ) (dofs : List ℕ) : List ℕ :=
  (List.range (S.vsize r)).filter fun l => (List.range (S.part r).trueSize).any fun i => (S.part r).ldof i == l && dofs.contains i

end Serac.ElementDofs
