import Mathlib.Data.Real.Basic
import Mathlib.Algebra.Order.Group.Unbundled.Abs
/-!
# The bracketed scalar equation solver

Model of `solve_scalar_equation` (src/serac/numerics/functional/tuple_tensor_dual_functions.hpp:571-677).  `f` is the function with its
parameters fixed, `f'` is what `get_gradient(f(make_dual(x), ...))` returns: any function.  `double` is ℝ, so NaN inputs and rounding are
not modelled.  The Newton step divides by `df_dx` without a test; a division by zero is the outcome `undefined` (NaN in C++).
-/

noncomputable section
namespace Serac.ScalarSolver

/-- `ScalarSolverOptions` (535-539). -/
structure Options where
  xtol : ℝ
  rtol : ℝ
  maxIter : ℕ

/-- The local variables of the `while` loop (601-617). -/
structure St where
  x : ℝ
  xl : ℝ
  xh : ℝ
  deltaXOld : ℝ
  deltaX : ℝ
  fval : ℝ
  dfdx : ℝ
  iterations : ℕ
  converged : Bool

variable (f f' : ℝ → ℝ) (opt : Options)

/-- The condition for bisection (626-627). -/
def useBisection (s : St) : Prop :=
  (s.x - s.xh) * s.dfdx - s.fval > 0 ∨ (s.x - s.xl) * s.dfdx - s.fval < 0 ∨ |2 * s.fval| > |s.deltaXOld * s.dfdx|

/-- The rest of the loop body after the new point is chosen (640-655): evaluate, test, update the bracket, count. -/
def finish (s : St) (deltaX x : ℝ) (moved : Bool) : St :=
  { x := x, xl := if f x < 0 then x else s.xl, xh := if f x < 0 then s.xh else x
    deltaXOld := s.deltaX, deltaX := deltaX, fval := f x, dfdx := f' x, iterations := s.iterations + 1
    converged := moved || decide (|deltaX| < opt.xtol) || decide (|f x| < opt.rtol) }

open Classical in
/-- The loop body (625-655). -/
def body (s : St) : Option St :=
  if useBisection s then
    let dx := (1 / 2) * (s.xh - s.xl)
    let x := s.xl + dx
    some (finish f f' opt s dx x (decide (x = s.xl)))
  else if s.dfdx = 0 then none
  else
    let dx := s.fval / s.dfdx
    let x := s.x - dx
    some (finish f f' opt s dx x (decide (x = s.x)))

/-- `while (!converged) { if (iterations == options.max_iter) break; ... }` (619-656); the first argument is
`max_iter - iterations`. -/
def loop : ℕ → St → Option St
  | 0, s => some s
  | k + 1, s => if s.converged then some s else (body f f' opt s).bind (loop k)

/-- State before the loop (601-617): orientation, initial guess, first evaluation. -/
def start (x0 lo hi : ℝ) : St :=
  let x := if x0 < lo ∨ x0 > hi then (1 / 2) * (lo + hi) else x0
  { x := x, xl := if f lo > 0 then hi else lo, xh := if f lo > 0 then lo else hi
    deltaXOld := |hi - lo|, deltaX := |hi - lo|, fval := f x, dfdx := f' x, iterations := 0, converged := false }

/-- What the caller gets: root, derivative at the root, and the `SolverStatus` fields. -/
structure Result where
  x : ℝ
  dfdx : ℝ
  converged : Bool
  iterations : ℕ
  residual : ℝ

inductive Outcome where
  | notBracketed
  | undefined
  | ok (r : Result)

/-- `solve_scalar_equation` (571-677) for plain parameters. -/
def solve (x0 lo hi : ℝ) : Outcome :=
  if f lo * f hi > 0 then .notBracketed
  else if f lo = 0 then .ok ⟨lo, f' lo, true, 0, f lo⟩
  else if f hi = 0 then .ok ⟨hi, f' hi, true, 0, f hi⟩
  else
    match loop f f' opt opt.maxIter (start f f' x0 lo hi) with
    | none => .undefined
    | some s => .ok ⟨s.x, s.dfdx, s.converged, s.iterations, f s.x⟩

/-- The derivative returned when parameters are dual (667-669): `dx = -df / df_dx`. -/
def rootGradient (r : Result) (df : ℝ) : ℝ := -df / r.dfdx

end Serac.ScalarSolver
