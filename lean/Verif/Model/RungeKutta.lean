import Verif.Model.Ode
import Mathlib.Algebra.BigOperators.Group.Finset.Basic
import Mathlib.Analysis.Real.Sqrt
import Mathlib.Analysis.SpecialFunctions.Trigonometric.Basic
/-!
# One-step methods of the first-order transient solver

Model of `FirstOrderODE::SetTimestepper` (src/serac/numerics/odes.cpp:262-300), `Step` (odes.hpp:341-348) and of the calls `Mult` and `ImplicitSolve` (odes.hpp:308, 317) that
the selected integrator makes.

The integrators are mfem's (`linalg/ode.cpp`, not in /repo): each is a diagonally implicit Runge–Kutta method and is written here by its coefficients.  That mfem's
classes have these coefficients, with one call of `ImplicitSolve` (`Mult` for a zero diagonal entry) per stage at time `t + c dt`, is an assumption, recorded in DESIGN.md.
mfem updates the solution vector stage by stage; here the updates are collected in one sum, the same in exact arithmetic.  `GeneralizedAlphaSolver` is not of this form
and is in `FirstAlpha.lean`.
-/

noncomputable section
namespace Serac.Ode
open Finset

/-- Coefficients of a method with `s` stages; `a i j` is read for `j ≤ i` only. -/
structure Tableau where
  s : ℕ
  a : ℕ → ℕ → ℝ
  b : ℕ → ℝ
  c : ℕ → ℝ

/-- The vector a stage passes to `ImplicitSolve` / `Mult`. -/
def Tableau.predictor (T : Tableau) {n : ℕ} (dt : ℝ) (x : Vec n) (k : ℕ → Vec n) (i : ℕ) : Vec n := fun m => x m + dt * ∑ j ∈ range i, T.a i j * k j m

/-- The state of the solver and the rates after `i` stages: stage `i` is `f->SetTime(t + c_i dt); f->ImplicitSolve(a_ii dt, y_i, k_i)`, that is
`Solve(t + c_i dt, a_ii dt, y_i, k_i)`; for `a_ii = 0` it is `f->Mult(y_i, k_i)`, that is `Solve(t + c_i dt, 0, y_i, k_i)` (odes.hpp:308, 317). -/
def Tableau.stages (T : Tableau) {n : ℕ} (b : BCs n) (m : Enforce) (solve : State1 n → Vec n → Vec n) (dt : ℝ) (r : Run1 n) : ℕ → State1 n × (ℕ → Vec n)
  | 0 => (r.st, fun _ _ => 0)
  | i + 1 =>
    let p := T.stages b m solve dt r i
    let q := solve1 b m solve p.1 (r.t + T.c i * dt) (T.a i i * dt) (T.predictor dt r.x p.2 i)
    (q.1, Function.update p.2 i q.2)

/-- `FirstOrderODE::Step` (odes.hpp:341-348). -/
def Tableau.step (T : Tableau) {n : ℕ} (b : BCs n) (m : Enforce) (solve : State1 n → Vec n → Vec n) (dt : ℝ) (r : Run1 n) : Run1 n :=
  let p := T.stages b m solve dt r T.s
  { st := p.1, x := fun n => r.x n + dt * ∑ i ∈ range T.s, T.b i * p.2 i n, t := r.t + dt }

/-- A sequence of steps. -/
def Tableau.run (T : Tableau) {n : ℕ} (b : BCs n) (m : Enforce) (solve : State1 n → Vec n → Vec n) (dts : List ℝ) (r : Run1 n) : Run1 n :=
  dts.foldl (fun r dt => T.step b m solve dt r) r

/-- The entry `l[i]` of a list of numbers, zero beyond its end. -/
def entry (l : List ℝ) (i : ℕ) : ℝ := l.getD i 0

/-- A method from its rows. -/
def Tableau.ofRows (a : List (List ℝ)) (b c : List ℝ) : Tableau := ⟨b.length, fun i j => entry (a.getD i []) j, entry b, entry c⟩

/-- `gamma` of `mfem::SDIRK23Solver` with its default option. -/
def gamma23 : ℝ := (3 + √3) / 6
/-- The constants of `mfem::SDIRK34Solver`. -/
def gamma34 : ℝ := 1 / √3 * Real.cos (Real.pi / 18) + 1 / 2
def delta34 : ℝ := 1 / (6 * (2 * gamma34 - 1) ^ 2)
/-- The constants of `mfem::SDIRK33Solver`. -/
def a33 : ℝ := 0.435866521508458999416019
def b33 : ℝ := 1.20849664917601007033648
def c33 : ℝ := 0.717933260754229499708010

/-- The integrator `FirstOrderODE::SetTimestepper` creates (odes.cpp:262-300); `none` for methods it rejects with `SLIC_ERROR_ROOT`, and for generalized-α, which is not
modelled. -/
def tableau1 : Method → Option Tableau
  | .BackwardEuler => some (.ofRows [[1]] [1] [1])
  | .SDIRK33 => some (.ofRows [[a33], [c33 - a33, a33], [b33, 1 - a33 - b33, a33]] [b33, 1 - a33 - b33, a33] [a33, c33, 1])
  | .ForwardEuler => some (.ofRows [[0]] [1] [0])
  | .RK2 => some (.ofRows [[0], [1 / 2, 0]] [0, 1] [0, 1 / 2])
  | .RK3SSP => some (.ofRows [[0], [1, 0], [1 / 4, 1 / 4, 0]] [1 / 6, 1 / 6, 2 / 3] [0, 1, 1 / 2])
  | .RK4 => some (.ofRows [[0], [1 / 2, 0], [0, 1 / 2, 0], [0, 0, 1, 0]] [1 / 6, 1 / 3, 1 / 3, 1 / 6] [0, 1 / 2, 1 / 2, 1])
  | .ImplicitMidpoint => some (.ofRows [[1 / 2]] [1] [1 / 2])
  | .SDIRK23 => some (.ofRows [[gamma23], [1 - 2 * gamma23, gamma23]] [1 / 2, 1 / 2] [gamma23, 1 - gamma23])
  | .SDIRK34 => some (.ofRows [[gamma34], [1 / 2 - gamma34, gamma34], [2 * gamma34, 1 - 4 * gamma34, gamma34]] [delta34, 1 - 2 * delta34, delta34]
      [gamma34, 1 / 2, 1 - gamma34])
  | _ => none

end Serac.Ode
