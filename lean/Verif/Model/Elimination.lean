import Verif.Model.Newton
import Mathlib.Algebra.BigOperators.Fin
/-!
# Elimination of essential dofs

Model of `BoundaryCondition::apply` (`src/serac/physics/boundary_conditions/boundary_condition.cpp:115-119`),
`eliminateAllEssentialDofsFromMatrix` (`boundary_condition_manager.hpp:89-92`), the residual and gradient of
`buildQuasistaticOperator` (`src/serac/physics/solid_mechanics.hpp:1112-1141`) and `warmStartDisplacement` (`solid_mechanics.hpp:1727-1770`).

Matrices are dense functions.  mfem's `EliminateRowsCols` and `EliminateBC` are external; their documented effect is transcribed below and is
part of the trusted base: `EliminateRowsCols(rows)` turns the rows and columns into those of the identity and returns what it removed, so
that the two sum to the old matrix; `EliminateBC(A, Ae, dofs, X, B)` subtracts `Ae X` from `B` and then sets `B(r) = A(r,r) X(r)` for each
listed `r`.
-/

noncomputable section
namespace Serac.Elim

abbrev Vec (n : ℕ) := Fin n → ℝ
abbrev Mat (n : ℕ) := Fin n → Fin n → ℝ

/-- `K * x`. -/
def mulVec {n : ℕ} (A : Mat n) (x : Vec n) : Vec n := fun i => ∑ j, A i j * x j

/-- `HypreParMatrix::EliminateRowsCols(dofs)`: the modified matrix. -/
def elim {n : ℕ} (A : Mat n) (dofs : List (Fin n)) : Mat n := fun i j =>
  if i ∈ dofs ∨ j ∈ dofs then (if i = j then 1 else 0) else A i j

/-- `HypreParMatrix::EliminateRowsCols(dofs)`: the returned matrix of eliminated entries. -/
def elimRest {n : ℕ} (A : Mat n) (dofs : List (Fin n)) : Mat n := fun i j => A i j - elim A dofs i j

/-- `mfem::EliminateBC(A, Ae, dofs, X, B)`: the new `B`. -/
def eliminateBC {n : ℕ} (A Ae : Mat n) (dofs : List (Fin n)) (X B : Vec n) : Vec n :=
  dofs.foldl (fun b r => Function.update b r (A r r * X r)) fun i => B i - mulVec Ae X i

/-- `BoundaryCondition::apply` (boundary_condition.cpp:115-119). -/
def apply {n : ℕ} (dofs : List (Fin n)) (X : Vec n) (s : Mat n × Vec n) : Mat n × Vec n :=
  (elim s.1 dofs, eliminateBC (elim s.1 dofs) (elimRest s.1 dofs) dofs X s.2)

/-- `apply` of one condition after another. -/
def applyAll {n : ℕ} (conds : List (List (Fin n))) (X : Vec n) (s : Mat n × Vec n) : Mat n × Vec n :=
  conds.foldl (fun s dofs => apply dofs X s) s

/-- `r.SetSubVector(dofs, 0.0)`. -/
def zeroSub {n : ℕ} (dofs : List (Fin n)) (r : Vec n) : Vec n := dofs.foldl (fun b i => Function.update b i 0) r

/-- The residual operator with boundary conditions (solid_mechanics.hpp:1119-1131, and 1176-1187 for dynamics).  When the evaluation of the
functional throws, the output vector has not been touched yet. -/
def residualOp {n : ℕ} (res : Vec n → Option (Vec n)) (dofs : List (Fin n)) (x r : Vec n) : Newton.Res (Vec n) :=
  match res x with
  | some r' => .ok (zeroSub dofs r')
  | none => .threw r

/-- `warmStartDisplacement` (solid_mechanics.hpp:1727-1770).  `g` is the result of the `setDofs` calls (the future boundary values, written
on the constrained dofs of a zero vector, 1731-1735); `K` the assembled Jacobian, `r` the residual at the new time, `solve` the linear
solver. -/
def warmStart {n : ℕ} (dofs : List (Fin n)) (g u : Vec n) (useWarmStart : Bool) (K : Mat n) (r : Vec n) (solve : Mat n → Vec n → Vec n) : Vec n :=
  let du := dofs.foldl (fun v j => Function.update v j (v j - u j)) g
  let du' :=
    if useWarmStart then
      let J := elim K dofs
      let r1 := eliminateBC J (elimRest K dofs) dofs du fun i => r i * (-1)
      let r2 := dofs.foldl (fun v j => Function.update v j (du j)) r1
      solve J r2
    else du
  fun i => u i + du' i

end Serac.Elim
