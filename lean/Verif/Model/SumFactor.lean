import Mathlib.Algebra.Ring.Defs
/-!
# Evaluation on quadrilaterals and hexahedra by tensor contraction

`/repo/src/serac/numerics/functional/detail/quadrilateral_H1.inl` 77-110 (shape functions), 123-160 (tables), 162-193 (`batch_apply_shape_fn`), 210-250
(`interpolate`), 255-303 (`integrate`); `detail/hexahedron_H1.inl` 39-83, 96-132, 134-170, 172-234, 236-291; `tensor.hpp` 1344-1399 (`contract`).

Arrays are functions of natural-number indices; all loops carry their bounds.  `n` nodes and `q` points per direction.  `N j` is the `j`-th 1D
interpolation function, `dN j` its derivative function, `pt` and `wt` the 1D points and weights: any of them.  `zero` sources and fluxes are zero arrays.
One component `i` of the test space and one trial component `j` are treated at a time, as in the loops of the code; `flat…` give the position at which the
code reads them.
-/

namespace Serac.SF

variable {R : Type} [CommRing R]

/-- `U sum{}; for (int k = 0; k < d; k++) sum += f(k);` -/
def sumTo (d : ℕ) (f : ℕ → R) : R := (List.range d).foldl (fun s k => s + f k) 0

/-- `contract<i1, i2>(A, B)` for a matrix `A`; `d` is the extent of the contracted index. -/
def contract2 (i1 i2 : ℕ) (d : ℕ) (A : ℕ → ℕ → R) (B : ℕ → ℕ → R) : ℕ → ℕ → R := fun i j => sumTo d fun k =>
  match i1, i2 with
  | 0, 0 => A k j * B k i
  | 1, 0 => A i k * B k j
  | 0, 1 => A k j * B i k
  | _, _ => A i k * B j k

/-- `contract<i1, i2>(A, B)` for a rank-3 tensor `A`. -/
def contract3 (i1 i2 : ℕ) (d : ℕ) (A : ℕ → ℕ → ℕ → R) (B : ℕ → ℕ → R) : ℕ → ℕ → ℕ → R := fun i j k => sumTo d fun l =>
  match i1, i2 with
  | 0, 0 => A l j k * B l i
  | 1, 0 => A i l k * B l j
  | 2, 0 => A i j l * B l k
  | 0, 1 => A l j k * B i l
  | 1, 1 => A i l k * B j l
  | _, _ => A i j l * B k l

/-- 1D data of an element and a rule. -/
structure Rule (R : Type) where
  n : ℕ
  q : ℕ
  N : ℕ → R → R
  dN : ℕ → R → R
  pt : ℕ → R
  wt : ℕ → R

/-- `calculate_B`, `calculate_G` without weights. -/
def Rule.B (r : Rule R) (i j : ℕ) : R := r.N j (r.pt i)
def Rule.G (r : Rule R) (i j : ℕ) : R := r.dN j (r.pt i)
/-- and with weights. -/
def Rule.Bw (r : Rule R) (i j : ℕ) : R := r.N j (r.pt i) * r.wt i
def Rule.Gw (r : Rule R) (i j : ℕ) : R := r.dN j (r.pt i) * r.wt i

/-- Values and derivatives at the points, or sources and fluxes: a value and `dim` components at each (flat) point. -/
structure PointData (R : Type) where
  value : ℕ → R
  grad : ℕ → ℕ → R

namespace Quad

/-- `shape_functions`: entry `count` is written in iteration `j = count / n`, `i = count % n`. -/
def shape (r : Rule R) (x y : R) (count : ℕ) : R := r.N (count % r.n) x * r.N (count / r.n) y
/-- `shape_function_gradients`. -/
def shapeGrad (r : Rule R) (x y : R) (count : ℕ) : ℕ → R
  | 0 => r.dN (count % r.n) x * r.N (count / r.n) y
  | _ => r.N (count % r.n) x * r.dN (count / r.n) y

/-- `interpolate`; `X` is the flat array of nodal values. -/
def interpolate (r : Rule R) (X : ℕ → R) : PointData R :=
  let X2 : ℕ → ℕ → R := fun dy dx => X (dy * r.n + dx)
  let A0 := contract2 1 1 r.n X2 r.B
  let A1 := contract2 1 1 r.n X2 r.G
  let value := contract2 0 1 r.n A0 r.B
  let g0 := contract2 0 1 r.n A1 r.B
  let g1 := contract2 0 1 r.n A0 r.G
  { value := fun Q => value (Q / r.q) (Q % r.q)
    grad := fun Q k => match k with
      | 0 => g0 (Q / r.q) (Q % r.q)
      | _ => g1 (Q / r.q) (Q % r.q) }

/-- `integrate`: the increments of the flat array of nodal residuals. -/
def integrate (r : Rule R) (f : PointData R) : ℕ → R :=
  let source : ℕ → ℕ → R := fun qy qx => f.value (qy * r.q + qx)
  let flux : ℕ → ℕ → ℕ → R := fun k qy qx => f.grad (qy * r.q + qx) k
  let A0 := fun i j => contract2 1 0 r.q source r.Bw i j + contract2 1 0 r.q (flux 0) r.Gw i j
  let A1 := contract2 1 0 r.q (flux 1) r.Bw
  fun a => contract2 0 0 r.q A0 r.Bw (a / r.n) (a % r.n) + contract2 0 0 r.q A1 r.Gw (a / r.n) (a % r.n)

/-- `batch_apply_shape_fn`: `D` holds the four derivative blocks at each point. -/
def applyShape (r : Rule R) (j : ℕ) (d00 : ℕ → R) (d01 : ℕ → ℕ → R) (d10 : ℕ → ℕ → R) (d11 : ℕ → ℕ → ℕ → R) : PointData R :=
  let jx := j % r.n
  let jy := j / r.n
  let phi := fun Q => r.B (Q % r.q) jx * r.B (Q / r.q) jy
  let dphi := fun Q k => match k with
    | 0 => r.G (Q % r.q) jx * r.B (Q / r.q) jy
    | _ => r.B (Q % r.q) jx * r.G (Q / r.q) jy
  { value := fun Q => d00 Q * phi Q + sumTo 2 fun k => d01 Q k * dphi Q k
    grad := fun Q m => d10 Q m * phi Q + sumTo 2 fun k => d11 Q m k * dphi Q k }

end Quad

namespace Hex

def shape (r : Rule R) (x y z : R) (count : ℕ) : R := r.N (count % r.n) x * r.N (count / r.n % r.n) y * r.N (count / r.n / r.n) z
def shapeGrad (r : Rule R) (x y z : R) (count : ℕ) : ℕ → R
  | 0 => r.dN (count % r.n) x * r.N (count / r.n % r.n) y * r.N (count / r.n / r.n) z
  | 1 => r.N (count % r.n) x * r.dN (count / r.n % r.n) y * r.N (count / r.n / r.n) z
  | _ => r.N (count % r.n) x * r.N (count / r.n % r.n) y * r.dN (count / r.n / r.n) z

def interpolate (r : Rule R) (X : ℕ → R) : PointData R :=
  let X3 : ℕ → ℕ → ℕ → R := fun dz dy dx => X ((dz * r.n + dy) * r.n + dx)
  let A10 := contract3 2 1 r.n X3 r.B
  let A11 := contract3 2 1 r.n X3 r.G
  let A20 := contract3 1 1 r.n A10 r.B
  let A21 := contract3 1 1 r.n A11 r.B
  let A22 := contract3 1 1 r.n A10 r.G
  let value := contract3 0 1 r.n A20 r.B
  let g0 := contract3 0 1 r.n A21 r.B
  let g1 := contract3 0 1 r.n A22 r.B
  let g2 := contract3 0 1 r.n A20 r.G
  { value := fun Q => value (Q / r.q / r.q) (Q / r.q % r.q) (Q % r.q)
    grad := fun Q k => match k with
      | 0 => g0 (Q / r.q / r.q) (Q / r.q % r.q) (Q % r.q)
      | 1 => g1 (Q / r.q / r.q) (Q / r.q % r.q) (Q % r.q)
      | _ => g2 (Q / r.q / r.q) (Q / r.q % r.q) (Q % r.q) }

def integrate (r : Rule R) (f : PointData R) : ℕ → R :=
  let source : ℕ → ℕ → ℕ → R := fun qz qy qx => f.value ((qz * r.q + qy) * r.q + qx)
  let flux : ℕ → ℕ → ℕ → ℕ → R := fun k qz qy qx => f.grad ((qz * r.q + qy) * r.q + qx) k
  let A20 := fun i j k => contract3 2 0 r.q source r.Bw i j k + contract3 2 0 r.q (flux 0) r.Gw i j k
  let A21 := contract3 2 0 r.q (flux 1) r.Bw
  let A22 := contract3 2 0 r.q (flux 2) r.Bw
  let A10 := fun i j k => contract3 1 0 r.q A20 r.Bw i j k + contract3 1 0 r.q A21 r.Gw i j k
  let A11 := contract3 1 0 r.q A22 r.Bw
  fun a => contract3 0 0 r.q A10 r.Bw (a / r.n / r.n) (a / r.n % r.n) (a % r.n) +
    contract3 0 0 r.q A11 r.Gw (a / r.n / r.n) (a / r.n % r.n) (a % r.n)

/-- The node indices are computed as `j % n`, `(j % (n * n)) / n`, `j / (n * n)`. -/
def applyShape (r : Rule R) (j : ℕ) (d00 : ℕ → R) (d01 : ℕ → ℕ → R) (d10 : ℕ → ℕ → R) (d11 : ℕ → ℕ → ℕ → R) : PointData R :=
  let jx := j % r.n
  let jy := j % (r.n * r.n) / r.n
  let jz := j / (r.n * r.n)
  let phi := fun Q => r.B (Q % r.q) jx * r.B (Q / r.q % r.q) jy * r.B (Q / r.q / r.q) jz
  let dphi := fun Q k => match k with
    | 0 => r.G (Q % r.q) jx * r.B (Q / r.q % r.q) jy * r.B (Q / r.q / r.q) jz
    | 1 => r.B (Q % r.q) jx * r.G (Q / r.q % r.q) jy * r.B (Q / r.q / r.q) jz
    | _ => r.B (Q % r.q) jx * r.B (Q / r.q % r.q) jy * r.G (Q / r.q / r.q) jz
  { value := fun Q => d00 Q * phi Q + sumTo 3 fun k => d01 Q k * dphi Q k
    grad := fun Q m => d10 Q m * phi Q + sumTo 3 fun k => d11 Q m k * dphi Q k }

end Hex

/-- Position of component `(i, j)` in a source, `[i * ntrial + j]`, and of component `(i, k, j)` in a flux, `[(i * dim + k) * ntrial + j]`. -/
def flatSource (ntrial i j : ℕ) : ℕ := i * ntrial + j
def flatFlux (dim ntrial i k j : ℕ) : ℕ := (i * dim + k) * ntrial + j
/-- `ntrial`, from the numbers of entries of source and flux. -/
def ntrial (dim c sourceSize fluxSize : ℕ) : ℕ := max sourceSize (fluxSize / dim) / c

end Serac.SF
