import Verif.Model.Quadrature
import Mathlib.Algebra.BigOperators.Fin
/-!
# Fitting a field to a user-defined function

Model of `serac::fit` (src/serac/physics/fit.hpp:17-70).

A quadrature rule over the whole mesh is a list of points with weights (reference weight times Jacobian determinant) and the values of the
global basis functions there.  `fit` uses two of them: that of the functional `output_space(output_space)` for the mass term and that of
`output_space(trial spaces...)` for the right-hand side; the numbers of points per direction are `functional.hpp:193` (`functionalQ`).  The
assembled gradient of a functional is its derivative (C51, C53), for the mass term the matrix below.  `mfem::CGSolver` is a parameter: it is
asked to reduce the residual by `1e-12` within 500 iterations.
-/

noncomputable section
namespace Serac.Fit

/-- Quadrature points of a mesh for a space with `n` scalar basis functions: weight and basis values of each point. -/
structure Rule (n : ℕ) where
  m : ℕ
  w : Fin m → ℝ
  φ : Fin m → Fin n → ℝ

/-- A rule given as a list of points. -/
def Rule.ofList {n : ℕ} (l : List (ℝ × (Fin n → ℝ))) : Rule n := ⟨l.length, fun q => (l.get q).1, fun q => (l.get q).2⟩

/-- Coefficients of a field with `c` components. -/
abbrev Coeffs (n c : ℕ) := Fin n → Fin c → ℝ

/-- The field at a point. -/
def Rule.value {n c : ℕ} (R : Rule n) (x : Coeffs n c) (q : Fin R.m) (a : Fin c) : ℝ := ∑ i, x i a * R.φ q i

/-- The mass matrix: gradient of the functional with q-function `{u, zero}` (fit.hpp:28-36). -/
def mass {n : ℕ} (R : Rule n) (i j : Fin n) : ℝ := ∑ q, R.w q * (R.φ q i * R.φ q j)

/-- The right-hand side: the functional with the user's function, which returns `{f, zero}` (fit.hpp:38-42). -/
def load {n c : ℕ} (R : Rule n) (f : Fin R.m → Fin c → ℝ) : Coeffs n c := fun i a => ∑ q, R.w q * (R.φ q i * f q a)

/-- The product of the mass matrix with a field's coefficients. -/
def massMul {n c : ℕ} (R : Rule n) (x : Coeffs n c) : Coeffs n c := fun i a => ∑ j, mass R i j * x j a

/-- `fit` (fit.hpp:17-53): `cg` is the solver, applied to the mass operator and the right-hand side. -/
def fit {n c : ℕ} (cg : (Coeffs n c → Coeffs n c) → Coeffs n c → Coeffs n c) (A B : Rule n) (f : Fin B.m → Fin c → ℝ) : Coeffs n c :=
  cg (massMul A) (load B f)

end Serac.Fit
