import Verif.Model.Tensor
import Mathlib.Analysis.SpecialFunctions.Trigonometric.Inverse
import Mathlib.Analysis.SpecialFunctions.Pow.Real
/-!
# Eigenvalues of symmetric 3x3 matrices and functions of such matrices

`/repo/src/serac/numerics/functional/tuple_tensor_dual_functions.hpp` 763-769 (`sgn`), 777-790 (`argsort`), 802-912 (`eig_symm`), 962-977
(`symmetric_mat3_function`), 980-999 (`symmetric_mat3_function_with_derivative`), 1007-1055 (`log_symm`, `exp_symm`, `sqrt_symm`); `tensor.hpp` 1044-1065
(`norm`, `normalize`).

`double` is ℝ.  Normalising a zero vector divides by zero: outcome `none`.  `imax = -1` is `none`; using it as an index is out of range.
-/

noncomputable section
namespace Serac.Eigen
open Serac.Tensor

/-- `norm` of a vector. -/
def norm (v : Vec ℝ 3) : ℝ := Real.sqrt (sqNormV v)

/-- `normalize` of a vector. -/
def normalize (v : Vec ℝ 3) : Option (Vec ℝ 3) := if norm v = 0 then none else some fun i => v i / norm v

/-- `sgn`. -/
def sgn (x : ℝ) : ℝ := (if 0 < x then 1 else 0) - (if x < 0 then 1 else 0)

/-- `argsort`: the three entries of `order` after the three conditional exchanges. -/
def argsort (v : Vec ℝ 3) : Vec (Fin 3) 3 :=
  let o : Fin 3 × Fin 3 × Fin 3 := (0, 1, 2)
  let o := if v 0 > v 1 then (o.2.1, o.1, o.2.2) else o
  let o := if v o.2.1 > v o.2.2 then (o.1, o.2.2, o.2.1) else o
  let o := if v o.1 > v o.2.1 then (o.2.1, o.1, o.2.2) else o
  ![o.1, o.2.1, o.2.2]

/-- Lines 810-812: `J2`, `J3`. -/
def invJ2 (D : Mat ℝ 3 3) : ℝ := (1 / 2) * inner D D
def invJ3 (D : Mat ℝ 3 3) : ℝ := det3 D

/-- Lines 816-824: the most distinct eigenvalue of the deviator. -/
def firstEigenvalue (D : Mat ℝ 3 3) : ℝ :=
  let J2 := invJ2 D
  let tmp := (1 / 2 * invJ3 D) * (3 / J2) ^ (1.5 : ℝ)
  let alpha := Real.arccos (min (max tmp (-1)) 1) / 3
  if 6 * alpha < Real.pi then 2 * Real.sqrt (J2 / 3) * Real.cos alpha
  else 2 * Real.sqrt (J2 / 3) * Real.cos (alpha + 2 * Real.pi / 3)

/-- Line 834: `r[i][j] = A_dev(j, i) - (i == j) * eta(0)`. -/
def rowsOf (D : Mat ℝ 3 3) (e : ℝ) : Mat ℝ 3 3 := fun i j => D j i - (if i = j then 1 else 0) * e

/-- Lines 829-842: the row of largest norm, the first one if there are several. -/
def largest (r : Mat ℝ 3 3) : Option (Fin 3) :=
  (Fin.foldl 3 (fun (s : Option (Fin 3) × ℝ) i => if s.2 < norm (r i) then (some i, norm (r i)) else s) (none, -1)).1

/-- `(norm(a) > norm(b)) ? a : b` -/
def longer (a b : Vec ℝ 3) : Vec ℝ 3 := if norm a > norm b then a else b

/-- `v - dot(v, s) * s` -/
def reject (v s : Vec ℝ 3) : Vec ℝ 3 := fun i => v i - dotVV v s * s i

/-- Lines 844-849: `s0`, `s1`. -/
def plane (r : Mat ℝ 3 3) : Option (Vec ℝ 3 × Vec ℝ 3) := do
  let imax ← largest r
  let s0 ← normalize (r imax)
  let t1 := reject (r (imax + 1)) s0
  let t2 := reject (r (imax + 2)) s0
  let s1 ← normalize (longer t1 t2)
  return (s0, s1)

/-- Lines 859-868: `A11`, `A12`, `A21`, `A22` and `delta`. -/
structure Block where
  A11 : ℝ
  A12 : ℝ
  A21 : ℝ
  A22 : ℝ

def block (D : Mat ℝ 3 3) (s0 s1 : Vec ℝ 3) : Block :=
  ⟨dotVV s0 (dotMV D s0), dotVV s0 (dotMV D s1), dotVV s1 (dotMV D s0), dotVV s1 (dotMV D s1)⟩

def Block.delta (b : Block) : ℝ := 1 / 2 * sgn (b.A11 - b.A22) * Real.sqrt ((b.A11 - b.A22) * (b.A11 - b.A22) + 4 * b.A12 * b.A21)

/-- The matrix with the given columns. -/
def columns (a b c : Vec ℝ 3) : Mat ℝ 3 3 := fun i j => ![a i, b i, c i] j

/-- Lines 807-897: eigenvalues and eigenvectors of the deviator, unsorted. -/
def deviator (D : Mat ℝ 3 3) : Option (Vec ℝ 3 × Mat ℝ 3 3) :=
  if invJ2 D > 0 then do
    let eta0 := firstEigenvalue D
    let (s0, s1) ← plane (rowsOf D eta0)
    let v0 := cross s0 s1
    let b := block D s0 s1
    let delta := b.delta
    let eta1 := 1 / 2 * (b.A11 + b.A22) - delta
    let eta2 := 1 / 2 * (b.A11 + b.A22) + delta
    if |delta| ≤ 1e-15 then return (![eta0, eta1, eta2], columns v0 s0 s1)
    else
      let t1 : Vec ℝ 3 := fun i => dotMV D s0 i - eta1 * s0 i
      let t2 : Vec ℝ 3 := fun i => dotMV D s1 i - eta1 * s1 i
      let w ← normalize (longer t1 t2)
      let v1 ← normalize (cross w v0)
      let v2 ← normalize (cross v0 v1)
      return (![eta0, eta1, eta2], columns v0 v1 v2)
  else some (![0, 0, 0], identity 3)

/-- `eig_symm`. -/
def eigSymm (A : Mat ℝ 3 3) : Option (Vec ℝ 3 × Mat ℝ 3 3) := do
  let (eta, Q) ← deviator (dev A)
  let eta : Vec ℝ 3 := fun i => eta i + tr A / 3
  let order := argsort eta
  return (fun k => eta (order k), fun i k => Q i (order k))

/-- `symmetric_mat3_function` on a matrix of `double`. -/
def matFunction (f : ℝ → ℝ) (A : Mat ℝ 3 3) : Option (Mat ℝ 3 3) :=
  (eigSymm A).map fun q => dot q.2 (dot (diag fun i => f (q.1 i)) (transpose q.2))

/-- `symmetric_mat3_function_with_derivative` for dual numbers with a scalar gradient: `dA` are the gradients of the entries. -/
def matDerivative (g : ℝ → ℝ → ℝ) (A dA : Mat ℝ 3 3) : Option (Mat ℝ 3 3) :=
  (eigSymm A).map fun q => fun i j =>
    Fin.foldl 3 (fun s k => Fin.foldl 3 (fun s l => Fin.foldl 3 (fun s a => Fin.foldl 3 (fun s b =>
      s + g (q.1 a) (q.1 b) * q.2 k a * q.2 l b * q.2 i a * q.2 j b * dA k l) s) s) s) 0

/-- `log_symm`; the logarithm of a non-positive number is not modelled here (`Real.log` extends it), theorems assume positive definite matrices. -/
def logSymm (A : Mat ℝ 3 3) : Option (Mat ℝ 3 3) := matFunction Real.log A
def expSymm (A : Mat ℝ 3 3) : Option (Mat ℝ 3 3) := matFunction Real.exp A
def sqrtSymm (A : Mat ℝ 3 3) : Option (Mat ℝ 3 3) := matFunction Real.sqrt A

/-- The secant functions `g`. -/
def logSecant (x y : ℝ) : ℝ := if x = y then 1 / x else (Real.log (x / y) / (x / y - 1)) / y
def expSecant (x y : ℝ) : ℝ := if x = y then Real.exp x else Real.exp y * (Real.exp (x - y) - 1) / (x - y)
def sqrtSecant (x y : ℝ) : ℝ := 1 / (Real.sqrt x + Real.sqrt y)

end Serac.Eigen
