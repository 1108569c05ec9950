import Mathlib.Algebra.Module.Basic
import Mathlib.Data.Real.Basic
import Mathlib.Data.NNReal.Defs
/-!
# The Newton solver

Model of `NewtonSolver` in `src/serac/numerics/equation_solver.cpp:23-202`.

Norms are IEEE values reduced to what the control flow can see: NaN, +∞, or a real (`Num`).  Vectors are an abstract real vector space.
The residual operator may throw (then the norm is `DBL_MAX`, and the residual vector holds whatever the operator left in it).  The
Jacobian assembly and the linear solve together are a function from the iterate and the residual to the correction.  Output and
`MFEM_ASSERT`s (compiled out in release builds) are not modelled.
-/

noncomputable section
namespace Serac.Newton
open scoped NNReal Classical

/-- A nonnegative `double` as far as comparisons are concerned. -/
inductive Num | nan | inf | fin (x : ℝ)

namespace Num
/-- `a < b` of C++: false as soon as one side is NaN. -/
def lt : Num → Num → Prop
  | fin a, fin b => a < b
  | fin _, inf => True
  | _, _ => False

/-- `a <= b` of C++. -/
def le : Num → Num → Prop
  | fin a, fin b => a ≤ b
  | fin _, inf => True
  | inf, inf => True
  | _, _ => False

/-- `rel_tol * norm` for a nonnegative finite `rel_tol` (`0 * inf` is NaN). -/
def scale (c : ℝ≥0) : Num → Num
  | nan => nan
  | inf => if c = 0 then nan else inf
  | fin x => fin (c * x)

/-- `std::max(a, b)` is `(a < b) ? b : a`. -/
def max (a b : Num) : Num := if lt a b then b else a
end Num

/-- `std::numeric_limits<double>::max()` = (2 - 2^-52) 2^1023. -/
def dblMax : ℝ := (2 - 2⁻¹ ^ 52) * 2 ^ 1023

/-- Outcome of `oper->Mult(x, rOut)`: the residual, or an exception with whatever is left in `rOut`. -/
inductive Res (R : Type) | ok (r : R) | threw (r : R)

variable {X R : Type} [AddCommGroup X] [Module ℝ X]

/-- The external pieces: residual, norm, correction (`assembleJacobian`, `setPreconditioner`, `solveLinearSystem`). -/
structure Problem (X R : Type) where
  oper : X → R → Res R
  norm : R → Num
  correction : X → R → X

/-- Options: `rel_tol`, `abs_tol`, `max_iter` (mfem members), `min_iterations`, `max_line_search_iterations`. -/
structure Options where
  relTol : ℝ≥0
  absTol : ℝ≥0
  maxIter : ℕ
  minIter : ℕ
  maxLs : ℕ

/-- `evaluateNorm` (42-53): the norm and the new content of `rOut`. -/
def evaluateNorm (p : Problem X R) (x : X) (rOut : R) : Num × R :=
  match p.oper x rOut with
  | .ok r => (p.norm r, r)
  | .threw r => (.fin dblMax, r)

/-- Iterate, residual, its norm, and (not in the code) the list of all evaluations made, latest first. -/
structure Iter (X R : Type) where
  x : X
  r : R
  norm : Num
  trace : List (X × Num)

/-- Assign a new iterate and evaluate there: `add(x0, ±stepScale, c, x); norm = evaluateNorm(x, r);`. -/
def evalAt (p : Problem X R) (x : X) (s : Iter X R) : Iter X R :=
  let e := evaluateNorm p x s.r
  { x, r := e.2, norm := e.1, trace := (x, e.1) :: s.trace }

/-- One backtracking loop (150-154, 163-167) in direction `sgn` (−1 or +1); `rem = max_ls_iters - ls_iter`.  Returns the iterate, the step
scale, and whether the loop ended with `ls_iter == max_ls_iters`.  With `sufficientDecreaseParam = 0.0` the test `is_improved` is
`currentNorm < norm_nm1`. -/
def backtrack (p : Problem X R) (x0 c : X) (sgn : ℝ) (prev : Num) : (rem : ℕ) → ℝ → Iter X R → Iter X R × ℝ × Bool
  | 0, h, s => (s, h, true)
  | rem + 1, h, s =>
    if s.norm.lt prev then (s, h, false)
    else backtrack p x0 c sgn prev rem (h * (1 / 2)) (evalAt p (x0 + (sgn * (h * (1 / 2))) • c) s)

/-- The body of an iteration after the convergence test (120-178): full step, backtracking, opposite direction, last cut. -/
def iterate (p : Problem X R) (o : Options) (s : Iter X R) : Iter X R :=
  let prev := s.norm
  let c := p.correction s.x s.r
  let x0 := s.x
  let s1 := evalAt p (x0 + ((-1 : ℝ) * 1) • c) s
  let b1 := backtrack p x0 c (-1) prev o.maxLs 1 s1
  if 0 < o.maxLs ∧ b1.2.2 = true ∧ ¬ b1.1.norm.lt prev then
    let s2 := evalAt p (x0 + ((1 : ℝ) * 1) • c) b1.1
    let b2 := backtrack p x0 c 1 prev o.maxLs 1 s2
    if b2.2.2 = true ∧ ¬ b2.1.norm.lt prev then evalAt p (x0 + ((-1 : ℝ) * (b2.2.1 * (1 / 2))) • c) b2.1 else b2.1
  else b1.1

/-- The members mfem exposes as the report of the last call. -/
structure Report where
  initialNorm : Num
  converged : Bool
  finalIter : ℕ
  finalNorm : Num

/-- The main loop (100-184).  A NaN norm returns at once, leaving `converged`, `final_iter`, `final_norm` as they were. -/
def loop (p : Problem X R) (o : Options) (goal : Num) (rep : Report) (it : ℕ) (s : Iter X R) : Iter X R × Report :=
  match s.norm with
  | .nan => (s, rep)
  | _ =>
    if s.norm.le goal ∧ o.minIter ≤ it then (s, { rep with converged := true, finalIter := it, finalNorm := s.norm })
    else if o.maxIter ≤ it then (s, { rep with converged := false, finalIter := it, finalNorm := s.norm })
    else loop p o goal rep (it + 1) (iterate p o s)
termination_by o.maxIter - it

/-- `NewtonSolver::Mult` (81-201): the iterate, residual scratch vector and members before the call, to those after it. -/
def mult (p : Problem X R) (o : Options) (x : X) (r : R) (rep : Report) : Iter X R × Report :=
  let s0 := evalAt p x { x, r, norm := .nan, trace := [] }
  let goal := Num.max (Num.scale o.relTol s0.norm) (.fin o.absTol)
  loop p o goal { rep with initialNorm := s0.norm } 0 s0

end Serac.Newton
