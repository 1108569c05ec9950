import Mathlib.Data.Real.Basic
import Mathlib.Algebra.BigOperators.Group.Finset.Basic
/-!
# Direct solvers and systems made of blocks

`src/serac/numerics/equation_solver.cpp` lines 707-818 and `equation_solver.hpp` lines 24-242.

Simplifications: one rank; matrices are functions on indices with their sizes.  Assumed of mfem: `BlockOperator` (its `Mult`, and the check of sizes in `SetBlock`),
`HypreParMatrixFromBlocks`, and that the factorisation of a regular matrix solves.
-/

noncomputable section
namespace Serac.Direct
open scoped BigOperators

/-- `mfem::HypreParMatrix`. -/
structure Mat where
  rows : ℕ
  cols : ℕ
  e : ℕ → ℕ → ℝ

/-- A block of an `mfem::BlockOperator`: a null pointer, an assembled matrix, or another operator. -/
inductive Block where
  | zero
  | hypre (A : Mat)
  | other (rows cols : ℕ) (act : (ℕ → ℝ) → ℕ → ℝ)

/-- `mfem::BlockOperator` with the offsets of its rows and columns. -/
structure BlockOp where
  nr : ℕ
  nc : ℕ
  ro : ℕ → ℕ
  co : ℕ → ℕ
  blk : ℕ → ℕ → Block

/-- What `dynamic_cast` tells apart. -/
inductive Op where
  | block (b : BlockOp)
  | hypre (A : Mat)
  | other

inductive Err where
  | nonSquare
  | notHypre
  | inconsistent
  | noOperator
  deriving DecidableEq

/-- `mfem::Array2D<const mfem::HypreParMatrix*>`. -/
abbrev Table := ℕ → ℕ → Option Mat

def Table.set (t : Table) (i j : ℕ) (a : Option Mat) : Table := fun i' j' => if i' = i ∧ j' = j then a else t i' j'

/-- The inner loop of `buildMonolithicMatrix` (equation_solver.cpp:747-759). -/
def collectRow (b : BlockOp) (i : ℕ) : List ℕ → Table → Except Err Table
  | [], t => .ok t
  | j :: js, t =>
    match b.blk i j with
    | .zero => collectRow b i js (t.set i j none)
    | .hypre A => collectRow b i js (t.set i j (some A))
    | .other _ _ _ => .error .notHypre

/-- The outer loop (equation_solver.cpp:746). -/
def collect (b : BlockOp) : List ℕ → Table → Except Err Table
  | [], t => .ok t
  | i :: is, t => (collectRow b i (List.range b.nc) t).bind fun t' => collect b is t'

/-- Rows of block row `i` as `mfem::HypreParMatrixFromBlocks` finds them: those of the first block that is there. -/
def rowSize (n : ℕ) (t : Table) (i : ℕ) : ℕ := ((List.range n).findSome? fun j => (t i j).map Mat.rows).getD 0

def colSize (n : ℕ) (t : Table) (j : ℕ) : ℕ := ((List.range n).findSome? fun i => (t i j).map Mat.cols).getD 0

/-- Running sums. -/
def offset (size : ℕ → ℕ) (i : ℕ) : ℕ := ∑ k ∈ Finset.range i, size k

open Classical in
/-- `mfem::HypreParMatrixFromBlocks`: blocks of one row have as many rows, blocks of one column as many columns; entries are copied to their places. -/
def fromBlocks (nr nc : ℕ) (t : Table) : Except Err Mat :=
  let R := rowSize nc t
  let C := colSize nr t
  if ∀ i, i < nr → ∀ j, j < nc → ∀ A, t i j = some A → A.rows = R i ∧ A.cols = C j then
    .ok
      { rows := offset R nr
        cols := offset C nc
        e := fun r c => ∑ i ∈ Finset.range nr, ∑ j ∈ Finset.range nc,
          if offset R i ≤ r ∧ r < offset R (i + 1) ∧ offset C j ≤ c ∧ c < offset C (j + 1) then (t i j).elim 0 fun A => A.e (r - offset R i) (c - offset C j) else 0 }
  else .error .inconsistent

/-- `buildMonolithicMatrix` (equation_solver.cpp:736-765); `junk` is what the new array of pointers holds. -/
def buildMonolithicMatrix (junk : Table) (b : BlockOp) : Except Err Mat :=
  if b.nr ≠ b.nc then .error .nonSquare
  else (collect b (List.range b.nr) junk).bind fun t => fromBlocks b.nr b.nc t

/-- `SuperLUSolver`, and `StrumpackSolver` with the same text: the matrix that the library holds. -/
structure Solver where
  mat : Option Mat := none

/-- `SetOperator` (equation_solver.cpp:767-788, 800-819). -/
def Solver.setOperator (junk : Table) (op : Op) (_ : Solver) : Except Err Solver :=
  match op with
  | .block b => (buildMonolithicMatrix junk b).map fun M => ⟨some M⟩
  | .hypre A => .ok ⟨some A⟩
  | .other => .error .notHypre

/-- `Mult` (equation_solver.cpp:728-734, 792-798); `lu` is the library. -/
def Solver.mult (lu : Mat → (ℕ → ℝ) → ℕ → ℝ) (s : Solver) (input : ℕ → ℝ) : Except Err (ℕ → ℝ) :=
  match s.mat with
  | none => .error .noOperator
  | some M => .ok (lu M input)

/-- Calls of `SetOperator` in a row. -/
def Solver.setOperators (junk : Table) : List Op → Solver → Except Err Solver
  | [], s => .ok s
  | op :: ops, s => (s.setOperator junk op).bind fun s' => Solver.setOperators junk ops s'

/-! ## The equation solver -/

/-- Calls that reach the nonlinear solver. -/
inductive Call (Oper Lin : Type) where
  | setOperator (op : Oper)
  | setSolver (lin : Lin)
  | mult (b x : ℕ → ℝ)

/-- `EquationSolver`: its linear solver, `nonlin_solver_set_solver_called_`, and the calls made so far. -/
structure Equation (Oper Lin : Type) where
  lin : Lin
  called : Bool := false
  calls : List (Call Oper Lin) := []

/-- `setOperator` (equation_solver.cpp:707-716). -/
def Equation.setOperator {Oper Lin : Type} (op : Oper) (s : Equation Oper Lin) : Equation Oper Lin :=
  let s : Equation Oper Lin := { s with calls := s.calls ++ [Call.setOperator op] }
  if s.called then s else { s with calls := s.calls ++ [Call.setSolver s.lin], called := true }

/-- `solve` (equation_solver.cpp:718-726). -/
def Equation.solve {Oper Lin : Type} (x : ℕ → ℝ) (s : Equation Oper Lin) : Equation Oper Lin := { s with calls := s.calls ++ [Call.mult (fun _ => 0) x] }

end Serac.Direct
