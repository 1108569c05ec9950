import Verif.Model.Loop
import Mathlib.Algebra.Field.Basic
import Mathlib.Logic.Function.Basic
/-!
# One-dimensional polynomial families

Model of src/serac/numerics/functional/polynomials.hpp:374-486.  A `tensor<T, n>` is a function of the index, zero initially
(`tensor<T, n> values{}`), written entry by entry; entries at or beyond `n` are never written.  `T` is a field `R`.
-/

namespace Serac.Poly

variable {R : Type} [Field R]

/-- `factorial` (374-381) on 32-bit `int`: the running product is checked, overflow (undefined in C++) is `none`. -/
def factorial (n : ℕ) : Option ℕ :=
  forRange 2 (n + 1) (fun i s => s.bind fun v => if v * i < 2 ^ 31 then some (v * i) else none) (some 1)

/-- `powers` (388-397). -/
def powers (n : ℕ) (x : R) : ℕ → R :=
  let values := Function.update (fun _ => 0) 0 1
  forRange 1 n (fun i (values : ℕ → R) => Function.update values i (values (i - 1) * x)) values

/-- `ChebyshevT` (406-418). -/
def chebyshevT (n : ℕ) (x : R) : ℕ → R :=
  let T : ℕ → R := fun _ => 0
  let T := if 0 < n then Function.update T 0 1 else T
  let T := if 1 < n then Function.update T 1 x else T
  forRange 2 n (fun i (T : ℕ → R) => Function.update T i (2 * x * T (i - 1) - T (i - 2))) T

/-- `ChebyshevU` (427-439). -/
def chebyshevU (n : ℕ) (x : R) : ℕ → R :=
  let U : ℕ → R := fun _ => 0
  let U := if 0 < n then Function.update U 0 1 else U
  let U := if 1 < n then Function.update U 1 (2 * x) else U
  forRange 2 n (fun i (U : ℕ → R) => Function.update U i (2 * x * U (i - 1) - U (i - 2))) U

/-- `Legendre` (447-459). -/
def legendre (n : ℕ) (x : R) : ℕ → R :=
  let P : ℕ → R := fun _ => 0
  let P := if 0 < n then Function.update P 0 1 else P
  let P := if 1 < n then Function.update P 1 x else P
  forRange 2 n (fun i (P : ℕ → R) =>
    Function.update P i (((2 * i - 1 : ℤ) * x * P (i - 1) - (i - 1 : ℤ) * P (i - 2)) / (i : R))) P

/-- `Bernstein` (466-486).  The state of both loops is the array and the running factor `f`. -/
def bernstein (n : ℕ) (s : R) : Option (ℕ → R) :=
  let t := 1 - s
  let st : (ℕ → R) × R := forRange 0 n (fun i (st : (ℕ → R) × R) => (Function.update st.1 i st.2, st.2 * (s / ((i + 1 : ℕ) : R))))
    (fun _ => 0, 1)
  (factorial (n - 1)).map fun f =>
    (forRange 0 n (fun i (st : (ℕ → R) × R) =>
      (Function.update st.1 (n - i - 1) (st.1 (n - i - 1) * st.2), st.2 * (t / ((i + 1 : ℕ) : R)))) (st.1, (f : R))).1

end Serac.Poly
