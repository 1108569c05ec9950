import Mathlib.Algebra.Order.Field.Basic
import Mathlib.Algebra.Module.Pi
import Mathlib.Data.Matrix.Basic
/-!
# LU factorisation and triangular solves

Model of `factorize_lu` and `linear_solve` (src/serac/numerics/functional/tuple_tensor_dual_functions.hpp:359-444) and of the triangular
solves (tensor.hpp:1508-1572).  `double` is an ordered field `R`.  A division by a zero pivot (infinities and NaN in C++) is the outcome
`none`.  The right-hand side has rows in any `R`-module `V`: numbers for a vector, rows of numbers for a matrix.
-/

namespace Serac.LU

/-- `for (int j = lo; j < n; j++)` around a body that may fail. -/
def forFrom {S : Type} (n : ℕ) (body : Fin n → S → Option S) (lo : ℕ) (s : S) : Option S :=
  if h : lo < n then (body ⟨lo, h⟩ s).bind (forFrom n body (lo + 1)) else some s
termination_by n - lo

/-- `for (int i = n - 1; i >= 0; i--)` around a body that may fail. -/
def forDown {S : Type} (n : ℕ) (body : Fin n → S → Option S) (s : S) : Option S := forFrom n (fun k => body k.rev) 0 s

variable {R V : Type} [Field R] [LinearOrder R] [AddCommGroup V] [Module R V] {n : ℕ}

/-- The `swap` lambda applied to `x[a]`, `x[b]` (tuple_tensor_dual_functions.hpp:362-366). -/
def swapAt {X : Type} (x : Fin n → X) (a b : Fin n) : Fin n → X :=
  let tmp := x a
  let x := Function.update x a (x b)
  Function.update x b tmp

/-- The `abs` lambda (361). -/
def abs' (x : R) : R := if x < 0 then -x else x

/-- The search for the row with the largest entry in column `i`, from row `i` down (384-393): the pair is `(max_val, max_row)`. -/
def findPivot (U : Fin n → Fin n → R) (i : Fin n) : Option (R × Fin n) :=
  forFrom n (fun j (s : R × Fin n) => some (if s.1 < abs' (U j i) then (abs' (U j i), j) else s)) (i.val + 1) (abs' (U i i), i)

/-- The first outer loop (382-397): for every column search and swap.  No elimination happens in this loop. -/
def pivotRows (A : Fin n → Fin n → R) : Option ((Fin n → Fin n) × (Fin n → Fin n → R)) :=
  forFrom n (fun i (s : (Fin n → Fin n) × (Fin n → Fin n → R)) =>
    (findPivot s.2 i).map fun r => (swapAt s.1 r.2 i, swapAt s.2 r.2 i)) 0 (id, A)

/-- Body of the inner elimination loop (403-406): `c = U[j][i] / U[i][i]; L[j][i] = c; U[j] -= c * U[i]; U[j][i] = 0`. -/
def elimRow (i j : Fin n) (s : (Fin n → Fin n → R) × (Fin n → Fin n → R)) :
    Option ((Fin n → Fin n → R) × (Fin n → Fin n → R)) :=
  if s.2 i i = 0 then none
  else
    let c := s.2 j i / s.2 i i
    let L := Function.update s.1 j (Function.update (s.1 j) i c)
    let U := Function.update s.2 j (fun k => s.2 j k - c * s.2 i k)
    let U := Function.update U j (Function.update (U j) i 0)
    some (L, U)

/-- The second outer loop (399-408). -/
def eliminate (L U : Fin n → Fin n → R) : Option ((Fin n → Fin n → R) × (Fin n → Fin n → R)) :=
  forFrom n (fun i s => forFrom n (elimRow i) (i.val + 1) s) 0 (L, U)

/-- `LuFactorization` (tensor.hpp:1487-1492). -/
structure Factors (R : Type) (n : ℕ) where
  P : Fin n → Fin n
  L : Fin n → Fin n → R
  U : Fin n → Fin n → R

/-- `factorize_lu` (359-411). -/
def factorizeLu (A : Fin n → Fin n → R) : Option (Factors R n) :=
  (pivotRows A).bind fun s =>
    (eliminate (fun i j => if i = j then 1 else 0) s.2).map fun t => ⟨s.1, t.1, t.2⟩

/-- `solve_lower_triangular` (tensor.hpp:1508-1520). -/
def solveLower (L : Fin n → Fin n → R) (b : Fin n → V) (P : Fin n → Fin n) : Option (Fin n → V) :=
  forFrom n (fun i (y : Fin n → V) =>
    let c := Fin.foldl i.val (fun c (j : Fin i.val) => c - L i (j.castLE i.isLt.le) • y (j.castLE i.isLt.le)) (b (P i))
    if L i i = 0 then none else some (Function.update y i ((L i i)⁻¹ • c))) 0 (fun _ => 0)

/-- Body of `solve_upper_triangular`'s outer loop (tensor.hpp:1551-1556). -/
def upperStep (U : Fin n → Fin n → R) (y : Fin n → V) (i : Fin n) (x : Fin n → V) : Option (Fin n → V) :=
  (forFrom n (fun j c => some (c - U i j • x j)) (i.val + 1) (y i)).bind fun c =>
    if U i i = 0 then none else some (Function.update x i ((U i i)⁻¹ • c))

/-- `solve_upper_triangular` (tensor.hpp:1548-1559): `i` runs from `n - 1` down to `0`. -/
def solveUpper (U : Fin n → Fin n → R) (y : Fin n → V) : Option (Fin n → V) :=
  forDown n (upperStep U y) (fun _ => 0)

/-- `linear_solve` with given factors (tensor.hpp:1566-1575). -/
def solveFactors (f : Factors R n) (b : Fin n → V) : Option (Fin n → V) :=
  (solveLower f.L b f.P).bind (solveUpper f.U)

/-- `linear_solve` (420-444) on values. -/
def linearSolve (A : Fin n → Fin n → R) (b : Fin n → V) : Option (Fin n → V) :=
  (factorizeLu A).bind fun f => solveFactors f b

/-- `linear_solve` (420-444) on dual numbers: values `A`, `b` and gradients `dA`, `db` (zero where the operand is not dual). -/
def linearSolveDual (A dA : Fin n → Fin n → R) (b db : Fin n → R) : Option ((Fin n → R) × (Fin n → R)) :=
  (factorizeLu A).bind fun f =>
    (solveFactors f b).bind fun x =>
      let r := fun i => db i - Fin.foldl n (fun s j => s + dA i j * x j) 0
      (solveFactors f r).map fun dx => (x, dx)

end Serac.LU
