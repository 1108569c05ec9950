import Verif.Model.Csr
/-!
# `Gradient::assemble` on whole meshes

`/repo/src/serac/numerics/functional/functional.hpp` 569-650 (`assemble`), 406-432 (`ActionOfGradient`), `integral.hpp` 94-124 (`GradientMult`,
`ComputeElementGradients`), `dof_numbering.hpp` 290-320 (`init`, all geometries).

Several integrals over elements and boundary elements of a mesh with several element geometries (numbers below 8, `mfem::Geometry`).  Conversion to a
parallel matrix and the products with the prolongation matrices are not part of the model: the result is the local CSR matrix `J_local`.
-/

namespace Serac.Assemble
open Csr

variable {R : Type}

/-- What an integral brings to the gradient with respect to one argument: whether it is over the boundary, whether it depends on the argument, the
geometries that have kernels, and the element matrices of each (element, trial vdof, test vdof). -/
structure Integral (R : Type) where
  boundary : Bool
  depends : Bool
  geoms : List Nat
  K : Nat → Nat → Nat → Nat → R

/-- The restrictions of a space: on elements, on boundary elements. -/
structure Space where
  elements : BlockRestriction
  boundary : BlockRestriction

/-- `G_test_[type]`, `G_trial_[type][which]`. -/
def Space.get (s : Space) (boundary : Bool) : BlockRestriction := if boundary then s.boundary else s.elements

/-- The emission loops of `init` over all geometries of the trial space; `restrictions.at(geometry)` throws when the test space has none. -/
def emit (test trial : BlockRestriction) : Option (List Entry) :=
  (List.range numGeometries).foldlM (fun acc g =>
    match trial g with
    | none => some acc
    | some rt => match test g with
      | none => none
      | some rs => some (acc ++ emitGeom rs rt)) []

/-- `std::map<Geometry, Array>`: the element matrices of one domain type. -/
abbrev KMap (R : Type) := Nat → Option (Nat → Nat → Nat → R)

/-- `K_elem.empty()`. -/
def isEmpty (k : KMap R) : Bool := (List.range numGeometries).all fun g => (k g).isNone

/-- Allocation: zeros for every geometry of the test space. -/
def allocate [Zero R] (test : BlockRestriction) : KMap R := fun g => (test g).map fun _ => fun _ _ _ => 0

/-- `ComputeElementGradients`: the kernels add to the arrays; a geometry without array is an access out of range. -/
def addGeoms [Add R] (I : Integral R) (k : KMap R) : Option (KMap R) :=
  I.geoms.foldlM (fun k g =>
    match k g with
    | none => none
    | some M => some fun g' => if g' = g then some fun e i j => M e i j + I.K g e i j else k g') k

/-- One round of the first loop of `assemble`, on the two maps. -/
def elementStep [Add R] [Zero R] (test : Space) (ks : Bool → KMap R) (I : Integral R) : Option (Bool → KMap R) :=
  let k := if isEmpty (ks I.boundary) then allocate (test.get I.boundary) else ks I.boundary
  match (if I.depends then addGeoms I k else some k) with
  | none => none
  | some k' => some fun b => if b = I.boundary then k' else ks b

/-- The contributions of one domain type in the order of the second loop; the number of elements is that of the arrays, i.e. of the test space. -/
def typeContribs [Mul R] (sgn : Int → R) (test trial : BlockRestriction) (k : KMap R) : Option (List (Entry × R)) :=
  (List.range numGeometries).foldlM (fun acc g =>
    match k g with
    | none => some acc
    | some M => match test g, trial g with
      | some rs, some rt => some (acc ++ elemContribs rs { rt with numElements := rs.numElements } sgn M)
      | _, _ => none) []

/-- `assemble`: the tables and the values of `J_local`. -/
def assemble [Add R] [Zero R] [Mul R] (sgn : Int → R) (lsize : Nat) (test trial : Space) (Is : List (Integral R)) : Option (Tables × Vec R) := do
  let touched ← emit test.elements trial.elements
  let t ← init lsize touched
  let ks ← Is.foldlM (elementStep test) (fun _ => fun _ => none)
  let c1 ← typeContribs sgn test.elements trial.elements (ks false)
  let c2 ← typeContribs sgn test.boundary trial.boundary (ks true)
  let v ← Csr.assemble t (c1 ++ c2)
  return (t, v)

/-! ### The matrix-free action -/

/-- Position of the first entry of a block (`bOffsets`). -/
def off (b : BlockRestriction) (g : Nat) : Nat := b.bOffsets.getD g 0

/-- Number of values per element of a block. -/
def perElem (b : BlockRestriction) (g : Nat) : Nat := match b g with | some r => r.components * r.nodesPerElem | none => 0

/-- `GradientMult` on the element vector: zero, then one kernel per geometry adding the products with the element matrices (that the kernels do this is
C51). -/
def gradientMult [AddCommMonoid R] [Mul R] (test trial : BlockRestriction) (I : Integral R) (x : Nat → R) : Nat → R := fun p =>
  if I.depends then
    (I.geoms.map fun g =>
      if off test g ≤ p ∧ p < off test g + test.blockSize g then
        let e := (p - off test g) / perElem test g
        let j := (p - off test g) % perElem test g
        ((List.range (perElem trial g)).map fun i => I.K g e i j * x (off trial g + e * perElem trial g + i)).sum
      else 0).sum
  else 0

/-- One round of the loop of `ActionOfGradient`: gather, multiply, scatter-add.  (The gather is done once per domain type; doing it every time gives the
same values, C52.) -/
def actionStep [AddCommMonoid R] [Mul R] (test trial : Space) (x : Vec R) (L : Vec R) (I : Integral R) : Option (Vec R) := do
  let E ← (trial.get I.boundary).gather x (fun _ => 0)
  (test.get I.boundary).scatterAdd (gradientMult (test.get I.boundary) (trial.get I.boundary) I E) L

/-- `ActionOfGradient` between local vectors. -/
def action [AddCommMonoid R] [Mul R] (lsize : Nat) (test trial : Space) (Is : List (Integral R)) (x : Vec R) : Option (Vec R) :=
  Is.foldlM (actionStep test trial x) ⟨lsize, fun _ => 0⟩

end Serac.Assemble
