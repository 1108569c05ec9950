import Verif.Model.Tensor
import Mathlib.Analysis.Real.Sqrt
/-!
# Compressed isotropic tensors

`/repo/src/serac/numerics/functional/isotropic_tensor.hpp`.  Line numbers below refer to this file.  Comparisons such as `(i == j)` are the integers 0 and 1
(`b2`).  The value type is a field `R`; `norm` and `inv` of a zero value are treated in the properties file.
-/

noncomputable section
namespace Serac.Iso
open Serac.Tensor

variable {R : Type} [Field R]

/-- A comparison used as a number. -/
def b2 {n : ℕ} (i j : Fin n) : R := if i = j then 1 else 0

/-- `isotropic_tensor<T, m, m>`, lines 48-54. -/
structure Iso2 (R : Type) (m : ℕ) where
  value : R

namespace Iso2
variable {m : ℕ}

/-- `operator()`, line 51. -/
def entry (I : Iso2 R m) (i j : Fin m) : R := b2 i j * I.value
/-- `Identity`, lines 60-64. -/
def identity : Iso2 R m := ⟨1⟩
/-- scaling, lines 76-87. -/
def scaleLeft (s : R) (I : Iso2 R m) : Iso2 R m := ⟨I.value * s⟩
def scaleRight (I : Iso2 R m) (s : R) : Iso2 R m := ⟨I.value * s⟩
/-- lines 99-103, 115-119. -/
def add (I J : Iso2 R m) : Iso2 R m := ⟨I.value + J.value⟩
def sub (I J : Iso2 R m) : Iso2 R m := ⟨I.value - J.value⟩
/-- lines 131-153. -/
def addFull (I : Iso2 R m) (A : Mat R m m) : Mat R m m := fun i j => I.value * b2 i j + A i j
def fullAdd (A : Mat R m m) (I : Iso2 R m) : Mat R m m := fun i j => A i j + I.value * b2 i j
/-- lines 166-188. -/
def subFull (I : Iso2 R m) (A : Mat R m m) : Mat R m m := fun i j => I.value * b2 i j - A i j
def fullSub (A : Mat R m m) (I : Iso2 R m) : Mat R m m := fun i j => A i j - I.value * b2 i j
/-- `dot`, lines 202-206; trailing indices `ι`. -/
def dotLeft {ι : Type} (I : Iso2 R m) (A : Fin m → ι → R) : Fin m → ι → R := fun i a => I.value * A i a
/-- lines 209-215; leading indices `ι`. -/
def dotRight {ι : Type} (A : ι → Fin m → R) (I : Iso2 R m) : ι → Fin m → R := fun a i => A a i * I.value
/-- `double_dot`, lines 228-232. -/
def doubleDot (I : Iso2 R m) (A : Mat R m m) : R := I.value * tr A
/-- `sym`, `antisym`, `tr`, `transpose`, lines 242-287. -/
def sym (I : Iso2 R m) : Iso2 R m := I
def antisym (_ : Iso2 R m) : Mat R m m := fun _ _ => 0
def tr (I : Iso2 R m) : R := I.value * m
def transpose (I : Iso2 R m) : Iso2 R m := I
/-- `inv`, lines 297-301. -/
def inv (I : Iso2 R m) : Iso2 R m := ⟨1 / I.value⟩
/-- `det`, lines 310-314. -/
def det (I : Iso2 R m) : R := I.value ^ m
/-- `squared_norm`, lines 336-340. -/
def squaredNorm (I : Iso2 R m) : R := I.value * I.value * m
/-- `norm`, lines 323-327. -/
def norm (I : Iso2 ℝ m) : ℝ := Real.sqrt (I.value * I.value * m)

end Iso2

/-- `isotropic_tensor<T, 3, 3, 3>`, lines 346-354. -/
structure Iso3 (R : Type) where
  value : R

/-- `operator()`: integer differences of the indices. -/
def Iso3.entry (I : Iso3 R) (i j k : Fin 3) : R :=
  1 / 2 * (((i : ℤ) - (j : ℤ) : ℤ) : R) * (((j : ℤ) - (k : ℤ) : ℤ) : R) * (((k : ℤ) - (i : ℤ) : ℤ) : R) * I.value

/-- `isotropic_tensor<T, m, m, m, m>`, lines 363-375. -/
structure Iso4 (R : Type) (m : ℕ) where
  c1 : R
  c2 : R
  c3 : R

namespace Iso4
variable {m : ℕ}

def entry (I : Iso4 R m) (i j k l : Fin m) : R :=
  I.c1 * b2 i j * b2 k l + I.c2 * (b2 i k * b2 j l + b2 i l * b2 j k) * (1 / 2) + I.c3 * (b2 i k * b2 j l - b2 i l * b2 j k) * (1 / 2)
/-- lines 382-397. -/
def symmetricIdentity : Iso4 R m := ⟨0, 1, 0⟩
def antisymmetricIdentity : Iso4 R m := ⟨0, 0, 1⟩
/-- lines 409-452. -/
def scale (s : R) (I : Iso4 R m) : Iso4 R m := ⟨I.c1 * s, I.c2 * s, I.c3 * s⟩
def add (I J : Iso4 R m) : Iso4 R m := ⟨I.c1 + J.c1, I.c2 + J.c2, I.c3 + J.c3⟩
def sub (I J : Iso4 R m) : Iso4 R m := ⟨I.c1 - J.c1, I.c2 - J.c2, I.c3 - J.c3⟩
/-- `double_dot`, lines 465-469; the sums are those of lines 131-142 and of full tensors. -/
def doubleDot (I : Iso4 R m) (A : Mat R m m) : Mat R m m := fun i j =>
  (Iso2.scaleLeft (I.c1 * Tensor.tr A) (Iso2.identity : Iso2 R m)).addFull (fun i j => I.c2 * Tensor.sym A i j) i j + I.c3 * Tensor.antisym A i j

end Iso4
end Serac.Iso
