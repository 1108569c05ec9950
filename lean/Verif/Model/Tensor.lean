import Verif.Model.Dual
import Mathlib.LinearAlgebra.Matrix.Defs
/-!
# Small tensors

Model of the loops in `src/serac/numerics/functional/tensor.hpp`.  A `tensor<T, m, n>` is a function of two bounded indices (Mathlib's
`Matrix (Fin m) (Fin n) R`, used here only as a type of arrays); every operation below is the C++ loop, accumulating in the same order.
`double` is a field `R` (ℝ where square roots occur).
-/

noncomputable section
namespace Serac.Tensor

/-- `for (int i = 0; i < n; i++) sum = sum + f(i);` starting from a given value. -/
def accum {S : Type} [Add S] (n : ℕ) (s : S) (f : Fin n → S) : S := Fin.foldl n (fun s i => s + f i) s

section ring
variable {R : Type} [Field R] {l m n p q : ℕ}

abbrev Vec (R : Type) (n : ℕ) := Fin n → R
abbrev Mat (R : Type) (m n : ℕ) := Matrix (Fin m) (Fin n) R

/-- `outer` (tensor.hpp:647-657). -/
def outer (A : Vec R m) (B : Vec R n) : Mat R m n := fun i j => A i * B j

/-- `inner` for matrices (tensor.hpp:668-678); `double_dot` (985-996) is the same loop. -/
def inner (A B : Mat R m n) : R := Fin.foldl m (fun s i => accum n s fun j => A i j * B i j) 0

/-- `dot(vec, vec)` (tensor.hpp:746-754); `inner` for vectors (684-692) is the same loop. -/
def dotVV (A B : Vec R m) : R := accum m 0 fun i => A i * B i

/-- `dot(mat, mat)` (tensor.hpp:708-720). -/
def dot (A : Mat R m n) (B : Mat R n p) : Mat R m p := fun i j => accum n 0 fun k => A i k * B k j

/-- `dot(vec, mat)` (tensor.hpp:760-770). -/
def dotVM (A : Vec R m) (B : Mat R m n) : Vec R n := fun i => accum m 0 fun j => A j * B j i

/-- `dot(mat, vec)` (tensor.hpp:810-820). -/
def dotMV (A : Mat R m n) (B : Vec R n) : Vec R m := fun i => accum n 0 fun j => A i j * B j

/-- `dot(vec, mat, vec)` (tensor.hpp:876-886). -/
def dotVMV (u : Vec R m) (A : Mat R m n) (v : Vec R n) : R :=
  Fin.foldl m (fun s i => accum n s fun j => u i * A i j * v j) 0

/-- `cross` of the two columns of a 3x2 matrix (tensor.hpp:906-910). -/
def crossCols (A : Mat R 3 2) : Vec R 3 :=
  ![A 1 0 * A 2 1 - A 2 0 * A 1 1, A 2 0 * A 0 1 - A 0 0 * A 2 1, A 0 0 * A 1 1 - A 1 0 * A 0 1]

/-- `cross` of a 2x1 matrix (tensor.hpp:914-917). -/
def crossCol2 (v : Mat R 2 1) : Vec R 2 := ![v 1 0, -v 0 0]

/-- `cross` of two 3-vectors (tensor.hpp:928-932). -/
def cross (u v : Vec R 3) : Vec R 3 := ![u 1 * v 2 - u 2 * v 1, u 2 * v 0 - u 0 * v 2, u 0 * v 1 - u 1 * v 0]

/-- `double_dot` of a rank-4 and a rank-2 tensor (tensor.hpp:946-959). -/
def doubleDot4 (A : Fin m → Fin n → Fin p → Fin q → R) (B : Mat R p q) : Mat R m n :=
  fun i j => Fin.foldl p (fun s k => accum q s fun l => A i j k l * B k l) 0

/-- `squared_norm` of a vector (tensor.hpp:1009-1016). -/
def sqNormV (A : Vec R m) : R := accum m 0 fun i => A i * A i

/-- `squared_norm` of a matrix (tensor.hpp:1020-1029). -/
def sqNorm (A : Mat R m n) : R := Fin.foldl m (fun s i => accum n s fun j => A i j * A i j) 0

/-- `tr` (tensor.hpp:1089-1096). -/
def tr (A : Mat R n n) : R := accum n 0 fun i => A i i

/-- `sym` (tensor.hpp:1104-1113); `0.5` is `1/2`. -/
def sym (A : Mat R n n) : Mat R n n := fun i j => (1 / 2) * (A i j + A j i)

/-- `antisym` (tensor.hpp:1121-1130). -/
def antisym (A : Mat R n n) : Mat R n n := fun i j => (1 / 2) * (A i j - A j i)

/-- `dev` (tensor.hpp:1140-1148): a copy of `A`, then a loop that subtracts `trA / n` from the diagonal entries in place. -/
def dev (A : Mat R n n) : Mat R n n :=
  Fin.foldl n (fun (D : Mat R n n) i => Function.update D i (Function.update (D i) i (D i i - tr A / (n : R)))) A

/-- `diag` of a vector (tensor.hpp:1171-1178). -/
def diag (d : Vec R n) : Mat R n n :=
  Fin.foldl n (fun (D : Mat R n n) i => Function.update D i (Function.update (D i) i (d i))) (fun _ _ => 0)

/-- `diagonal_matrix` (tensor.hpp:1157-1164). -/
def diagonalMatrix (A : Mat R n n) : Mat R n n := diag fun i => A i i

/-- `DenseIdentity` (tensor.hpp:1199-1208): `I[i][j] = (i == j)`. -/
def identity (n : ℕ) : Mat R n n := fun i j => if i = j then 1 else 0

/-- `transpose` (tensor.hpp:1215-1224). -/
def transpose (A : Mat R m n) : Mat R n m := fun i j => A j i

/-- `I2` (tensor.hpp:1231-1235). -/
def I2 (A : Mat R 3 3) : R :=
  A 0 0 * A 1 1 + A 1 1 * A 2 2 + A 2 2 * A 0 0 - A 0 1 * A 1 0 - A 1 2 * A 2 1 - A 2 0 * A 0 2

/-- `det`, 2x2 (tensor.hpp:1242-1245). -/
def det2 (A : Mat R 2 2) : R := A 0 0 * A 1 1 - A 0 1 * A 1 0

/-- `det`, 3x3 (tensor.hpp:1249-1253). -/
def det3 (A : Mat R 3 3) : R :=
  A 0 0 * A 1 1 * A 2 2 + A 0 1 * A 1 2 * A 2 0 + A 0 2 * A 1 0 * A 2 1 -
    A 0 0 * A 1 2 * A 2 1 - A 0 1 * A 1 0 * A 2 2 - A 0 2 * A 1 1 * A 2 0

/-- `detApIm1`, 2x2 (tensor.hpp:1266-1275). -/
def detApIm1_2 (A : Mat R 2 2) : R := A 0 0 - A 0 1 * A 1 0 + A 1 1 + A 0 0 * A 1 1

/-- `detApIm1`, 3x3 (tensor.hpp:1279-1295). -/
def detApIm1_3 (A : Mat R 3 3) : R :=
  A 0 0 + A 1 1 + A 2 2
    - A 0 1 * A 1 0 * (1 + A 2 2)
    + A 0 0 * A 1 1 * (1 + A 2 2)
    - A 0 2 * A 2 0 * (1 + A 1 1)
    - A 1 2 * A 2 1 * (1 + A 0 0)
    + A 0 0 * A 2 2
    + A 1 1 * A 2 2
    + A 0 1 * A 1 2 * A 2 0
    + A 0 2 * A 1 0 * A 2 1

/-- `inv`, 2x2 (tensor.hpp:1592-1604).  A zero determinant divides by zero in C++ (infinities / NaN): outcome `none`. -/
def inv2 [DecidableEq R] (A : Mat R 2 2) : Option (Mat R 2 2) :=
  if det2 A = 0 then none
  else
    let d := 1 / det2 A
    some (Matrix.of ![![A 1 1 * d, -A 0 1 * d], ![-A 1 0 * d, A 0 0 * d]])

/-- `inv`, 3x3 (tensor.hpp:1610-1627). -/
def inv3 [DecidableEq R] (A : Mat R 3 3) : Option (Mat R 3 3) :=
  if det3 A = 0 then none
  else
    let d := 1 / det3 A
    some (Matrix.of
      ![![(A 1 1 * A 2 2 - A 1 2 * A 2 1) * d, (A 0 2 * A 2 1 - A 0 1 * A 2 2) * d, (A 0 1 * A 1 2 - A 0 2 * A 1 1) * d],
        ![(A 1 2 * A 2 0 - A 1 0 * A 2 2) * d, (A 0 0 * A 2 2 - A 0 2 * A 2 0) * d, (A 0 2 * A 1 0 - A 0 0 * A 1 2) * d],
        ![(A 1 0 * A 2 1 - A 1 1 * A 2 0) * d, (A 0 1 * A 2 0 - A 0 0 * A 2 1) * d, (A 0 0 * A 1 1 - A 0 1 * A 1 0) * d]])

end ring

/-- `inv` of a matrix of dual numbers (tuple_tensor_dual_functions.hpp:474-487), given the plain inverse `inv` of the values used there.
The gradient starts at zero and the two loops subtract `invA[i][k] * A[k][l].gradient * invA[l][j]`. -/
def invDual {G : Type} [AddCommGroup G] [Module ℝ G] {n : ℕ} (inv : Mat ℝ n n → Option (Mat ℝ n n))
    (A : Fin n → Fin n → Dual G) : Option (Fin n → Fin n → Dual G) :=
  (inv fun i j => (A i j).value).map fun invA i j =>
    ⟨invA i j, Fin.foldl n (fun s k => Fin.foldl n (fun s l => s - invA l j • (invA i k • (A k l).gradient)) s) 0⟩

end Serac.Tensor
