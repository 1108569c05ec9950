import Verif.Model.SumFactor
/-!
# Hcurl elements on quadrilaterals and hexahedra

`/repo/src/serac/numerics/functional/detail/quadrilateral_Hcurl.inl` 54-82 (`directions`, `nodes`), 94-149 (tables), 189-240 (`shape_functions`,
`shape_function_curl`), 242-284 (`batch_apply_shape_fn`), 286-323 (`interpolate`), 325-357 (`integrate`); `detail/hexahedron_Hcurl.inl` 50-87, 99-157, 159-245,
247-320, 322-379, 381-450.  The parts between `#if 0` and `#endif` are not compiled.

Arrays are functions of natural-number indices as in `SumFactor.lean`; `p` is the order, `q` the number of points per direction, `f j` the `j`-th open (Gauss-Legendre)
and `g j` the `j`-th closed (Gauss-Lobatto) interpolation function, `dg j` what the derivative routine returns, `pt` and `wt` the 1D rule: any of them.

`dof_type` is read from and written to the flat element vector: the members `x`, `y`, `z` follow each other and each is stored row by row.  The counters of the
nested loops are resolved: entry `count` is written in the iteration whose indices are the quotients and remainders.  In the quadrilateral `interpolate` and
`integrate` one variable `A` holds first a `(p + 1) × q` and then a `q × (p + 1)` array, so that these compile only for `q = p + 1`; the model has two variables and any `q`.
-/

namespace Serac.Hcurl
open SF

variable {R : Type} [CommRing R]

structure Rule (R : Type) where
  p : ℕ
  q : ℕ
  f : ℕ → R → R
  g : ℕ → R → R
  dg : ℕ → R → R
  pt : ℕ → R
  wt : ℕ → R

/-- `calculate_B1`, `calculate_B2`, `calculate_G2` without weights. -/
def Rule.B1 (r : Rule R) (i j : ℕ) : R := r.f j (r.pt i)
def Rule.B2 (r : Rule R) (i j : ℕ) : R := r.g j (r.pt i)
def Rule.G2 (r : Rule R) (i j : ℕ) : R := r.dg j (r.pt i)
/-- and with weights. -/
def Rule.B1w (r : Rule R) (i j : ℕ) : R := r.f j (r.pt i) * r.wt i
def Rule.B2w (r : Rule R) (i j : ℕ) : R := r.g j (r.pt i) * r.wt i
def Rule.G2w (r : Rule R) (i j : ℕ) : R := r.dg j (r.pt i) * r.wt i

namespace Quad

/-- Number of dofs of one direction. -/
def per (r : Rule R) : ℕ := r.p * (r.p + 1)

/-- `shape_functions` (189-214): component `k` of the function of dof `count`. -/
def shape (r : Rule R) (x y : R) (count k : ℕ) : R :=
  if count < per r then
    match k with
    | 0 => r.f (count % r.p) x * r.g (count / r.p) y
    | _ => 0
  else
    let c := count - per r
    match k with
    | 0 => 0
    | _ => r.g (c % (r.p + 1)) x * r.f (c / (r.p + 1)) y

/-- `shape_function_curl` (217-240). -/
def shapeCurl (r : Rule R) (x y : R) (count : ℕ) : R :=
  if count < per r then -r.f (count % r.p) x * r.dg (count / r.p) y
  else
    let c := count - per r
    r.dg (c % (r.p + 1)) x * r.f (c / (r.p + 1)) y

/-- `directions` (52-62) -/
def direction (r : Rule R) (count k : ℕ) : R := if count < per r then (if k = 0 then 1 else 0) else if k = 1 then 1 else 0

/-- `nodes` (66-82), with the 1D nodes given. -/
def node (r : Rule R) (open' closed : ℕ → R) (count : ℕ) : R × R :=
  if count < per r then (open' (count % r.p), closed (count / r.p))
  else
    let c := count - per r
    (closed (c % (r.p + 1)), open' (c / (r.p + 1)))

/-- Values (two components) and curls at the points, or sources and fluxes. -/
structure Data (R : Type) where
  value : ℕ → ℕ → R
  curl : ℕ → R

/-- `interpolate` (286-323) -/
def interpolate (r : Rule R) (X : ℕ → R) : Data R :=
  let ex : ℕ → ℕ → R := fun dy dx => X (dy * r.p + dx)
  let ey : ℕ → ℕ → R := fun dy dx => X (per r + (dy * (r.p + 1) + dx))
  let A := contract2 1 1 r.p ex r.B1
  let v0 := contract2 0 1 (r.p + 1) A r.B2
  let c1 := fun i j => 0 - contract2 0 1 (r.p + 1) A r.G2 i j
  let A' := contract2 0 1 r.p ey r.B1
  let v1 := contract2 1 1 (r.p + 1) A' r.B2
  let c2 := fun i j => c1 i j + contract2 1 1 (r.p + 1) A' r.G2 i j
  { value := fun Q k => match k with
      | 0 => v0 (Q / r.q) (Q % r.q)
      | _ => v1 (Q / r.q) (Q % r.q)
    curl := fun Q => c2 (Q / r.q) (Q % r.q) }

/-- `integrate` (325-357): the increments of the flat element residual. -/
def integrate (r : Rule R) (d : Data R) : ℕ → R :=
  let source : ℕ → ℕ → ℕ → R := fun i qy qx => d.value (qy * r.q + qx) i
  let flux : ℕ → ℕ → R := fun qy qx => d.curl (qy * r.q + qx)
  let A := fun i j => contract2 0 0 r.q (source 0) r.B2w i j - contract2 0 0 r.q flux r.G2w i j
  let A' := fun i j => contract2 1 0 r.q (source 1) r.B2w i j + contract2 1 0 r.q flux r.G2w i j
  fun a =>
    if a < per r then contract2 1 0 r.q A r.B1w (a / r.p) (a % r.p)
    else
      let c := a - per r
      contract2 0 0 r.q A' r.B1w (c / (r.p + 1)) (c % (r.p + 1))

/-- `B1(i, j)` as `batch_apply_shape_fn` reads it: for the dofs of one direction `j` reaches `p`, beyond the row.  `junk` is what is found there. -/
def readB1 (r : Rule R) (junk : ℕ → ℕ → R) (i j : ℕ) : R := if j < r.p then r.B1 i j else junk i j

/-- `batch_apply_shape_fn` (242-284); `d00`, `d01`, `d10`, `d11` are the derivative blocks at each point (derivatives of the source with respect to value and curl,
    and of the flux), with one row per component of the source. -/
def applyShape (r : Rule R) (junk : ℕ → ℕ → R) (j : ℕ) (d00 : ℕ → ℕ → ℕ → R) (d01 : ℕ → ℕ → R) (d10 : ℕ → ℕ → R) (d11 : ℕ → R) : Data R :=
  let dir := j / ((r.p + 1) * r.p)
  let jx := if dir = 0 then j % r.p else j % ((r.p + 1) * r.p) % (r.p + 1)
  let jy := if dir = 0 then j / r.p else j % ((r.p + 1) * r.p) / (r.p + 1)
  let b : ℕ → R := fun k => if dir = k then 1 else 0
  let phi : ℕ → ℕ → R := fun Q k => match k with
    | 0 => b 0 * readB1 r junk (Q % r.q) jx * r.B2 (Q / r.q) jy
    | _ => b 1 * readB1 r junk (Q / r.q) jy * r.B2 (Q % r.q) jx
  let curl : ℕ → R := fun Q => b 0 * -readB1 r junk (Q % r.q) jx * r.G2 (Q / r.q) jy + b 1 * readB1 r junk (Q / r.q) jy * r.G2 (Q % r.q) jx
  { value := fun Q m => (sumTo 2 fun k => d00 Q m k * phi Q k) + d01 Q m * curl Q
    curl := fun Q => (sumTo 2 fun k => d10 Q k * phi Q k) + d11 Q * curl Q }

/-- Positions (row, column) of `B1` that `batch_apply_shape_fn` reads for dof `j` at point `Q`. -/
def reads (r : Rule R) (j Q : ℕ) : List (ℕ × ℕ) :=
  let dir := j / ((r.p + 1) * r.p)
  let jx := if dir = 0 then j % r.p else j % ((r.p + 1) * r.p) % (r.p + 1)
  let jy := if dir = 0 then j / r.p else j % ((r.p + 1) * r.p) / (r.p + 1)
  [(Q % r.q, jx), (Q / r.q, jy)]

end Quad

namespace Hex

def per (r : Rule R) : ℕ := (r.p + 1) * (r.p + 1) * r.p

/-- `shape_functions` (159-199) -/
def shape (r : Rule R) (x y z : R) (count k : ℕ) : R :=
  let n := r.p + 1
  if count < per r then
    match k with
    | 0 => r.f (count % r.p) x * r.g (count / r.p % n) y * r.g (count / r.p / n) z
    | _ => 0
  else if count < 2 * per r then
    let c := count - per r
    match k with
    | 1 => r.g (c % n) x * r.f (c / n % r.p) y * r.g (c / n / r.p) z
    | _ => 0
  else
    let c := count - 2 * per r
    match k with
    | 2 => r.g (c % n) x * r.g (c / n % n) y * r.f (c / n / n) z
    | _ => 0

/-- `shape_function_curl` (201-245) -/
def shapeCurl (r : Rule R) (x y z : R) (count k : ℕ) : R :=
  let n := r.p + 1
  if count < per r then
    match k with
    | 0 => 0
    | 1 => r.f (count % r.p) x * r.g (count / r.p % n) y * r.dg (count / r.p / n) z
    | _ => -r.f (count % r.p) x * r.dg (count / r.p % n) y * r.g (count / r.p / n) z
  else if count < 2 * per r then
    let c := count - per r
    match k with
    | 0 => -r.g (c % n) x * r.f (c / n % r.p) y * r.dg (c / n / r.p) z
    | 1 => 0
    | _ => r.dg (c % n) x * r.f (c / n % r.p) y * r.g (c / n / r.p) z
  else
    let c := count - 2 * per r
    match k with
    | 0 => r.g (c % n) x * r.dg (c / n % n) y * r.f (c / n / n) z
    | 1 => -r.dg (c % n) x * r.g (c / n % n) y * r.f (c / n / n) z
    | _ => 0

/-- `directions` (51-61) -/
def direction (r : Rule R) (count k : ℕ) : R :=
  if count < per r then (if k = 0 then 1 else 0) else if count < 2 * per r then (if k = 1 then 1 else 0) else if k = 2 then 1 else 0

/-- `nodes` (63-93) -/
def node (r : Rule R) (open' closed : ℕ → R) (count : ℕ) : R × R × R :=
  let n := r.p + 1
  if count < per r then (open' (count % r.p), closed (count / r.p % n), closed (count / r.p / n))
  else if count < 2 * per r then
    let c := count - per r
    (closed (c % n), open' (c / n % r.p), closed (c / n / r.p))
  else
    let c := count - 2 * per r
    (closed (c % n), closed (c / n % n), open' (c / n / n))

structure Data (R : Type) where
  value : ℕ → ℕ → R
  curl : ℕ → ℕ → R

/-- `interpolate` (322-379) -/
def interpolate (r : Rule R) (X : ℕ → R) : Data R :=
  let n := r.p + 1
  let ex : ℕ → ℕ → ℕ → R := fun dz dy dx => X ((dz * n + dy) * r.p + dx)
  let ey : ℕ → ℕ → ℕ → R := fun dz dy dx => X (per r + ((dz * r.p + dy) * n + dx))
  let ez : ℕ → ℕ → ℕ → R := fun dz dy dx => X (2 * per r + ((dz * n + dy) * n + dx))
  let A1 := contract3 2 1 r.p ex r.B1
  let A20 := contract3 1 1 n A1 r.B2
  let A21 := contract3 1 1 n A1 r.G2
  let v0 := contract3 0 1 n A20 r.B2
  let c1 := fun i j k => 0 + contract3 0 1 n A20 r.G2 i j k
  let c2 := fun i j k => 0 - contract3 0 1 n A21 r.B2 i j k
  let A1' := contract3 1 1 r.p ey r.B1
  let A20' := contract3 0 1 n A1' r.B2
  let A21' := contract3 0 1 n A1' r.G2
  let v1 := contract3 2 1 n A20' r.B2
  let c2' := fun i j k => c2 i j k + contract3 2 1 n A20' r.G2 i j k
  let c0 := fun i j k => 0 - contract3 2 1 n A21' r.B2 i j k
  let A1'' := contract3 0 1 r.p ez r.B1
  let A20'' := contract3 2 1 n A1'' r.B2
  let A21'' := contract3 2 1 n A1'' r.G2
  let v2 := contract3 1 1 n A20'' r.B2
  let c0' := fun i j k => c0 i j k + contract3 1 1 n A20'' r.G2 i j k
  let c1' := fun i j k => c1 i j k - contract3 1 1 n A21'' r.B2 i j k
  { value := fun Q k => match k with
      | 0 => v0 (Q / r.q / r.q) (Q / r.q % r.q) (Q % r.q)
      | 1 => v1 (Q / r.q / r.q) (Q / r.q % r.q) (Q % r.q)
      | _ => v2 (Q / r.q / r.q) (Q / r.q % r.q) (Q % r.q)
    curl := fun Q k => match k with
      | 0 => c0' (Q / r.q / r.q) (Q / r.q % r.q) (Q % r.q)
      | 1 => c1' (Q / r.q / r.q) (Q / r.q % r.q) (Q % r.q)
      | _ => c2' (Q / r.q / r.q) (Q / r.q % r.q) (Q % r.q) }

/-- `integrate` (381-450) -/
def integrate (r : Rule R) (d : Data R) : ℕ → R :=
  let n := r.p + 1
  let source : ℕ → ℕ → ℕ → ℕ → R := fun i qz qy qx => d.value ((qz * r.q + qy) * r.q + qx) i
  let flux : ℕ → ℕ → ℕ → ℕ → R := fun i qz qy qx => d.curl ((qz * r.q + qy) * r.q + qx) i
  let A20 := fun i j k => contract3 0 0 r.q (source 0) r.B2w i j k + contract3 0 0 r.q (flux 1) r.G2w i j k
  let A21 := contract3 0 0 r.q (flux 2) r.B2w
  let A1 := fun i j k => contract3 1 0 r.q A20 r.B2w i j k - contract3 1 0 r.q A21 r.G2w i j k
  let B20 := fun i j k => contract3 2 0 r.q (source 1) r.B2w i j k + contract3 2 0 r.q (flux 2) r.G2w i j k
  let B21 := contract3 2 0 r.q (flux 0) r.B2w
  let B1 := fun i j k => contract3 0 0 r.q B20 r.B2w i j k - contract3 0 0 r.q B21 r.G2w i j k
  let C20 := fun i j k => contract3 1 0 r.q (source 2) r.B2w i j k + contract3 1 0 r.q (flux 0) r.G2w i j k
  let C21 := contract3 1 0 r.q (flux 1) r.B2w
  let C1 := fun i j k => contract3 2 0 r.q C20 r.B2w i j k - contract3 2 0 r.q C21 r.G2w i j k
  fun a =>
    if a < per r then contract3 2 0 r.q A1 r.B1w (a / r.p / n) (a / r.p % n) (a % r.p)
    else if a < 2 * per r then
      let c := a - per r
      contract3 1 0 r.q B1 r.B1w (c / n / r.p) (c / n % r.p) (c % n)
    else
      let c := a - 2 * per r
      contract3 0 0 r.q C1 r.B1w (c / n / n) (c / n % n) (c % n)

/-- `batch_apply_shape_fn` (247-320) -/
def applyShape (r : Rule R) (j : ℕ) (d00 d01 d10 d11 : ℕ → ℕ → ℕ → R) : Data R :=
  let n := r.p + 1
  let dir := j / (r.p * n * n)
  let rem := j % (r.p * n * n)
  let jx := match dir with
    | 0 => rem % r.p
    | _ => rem % n
  let jy := match dir with
    | 0 => rem % (r.p * n) / r.p
    | 1 => rem % (r.p * n) / n
    | _ => rem % (n * n) / n
  let jz := match dir with
    | 0 => rem / (r.p * n)
    | 1 => rem / (r.p * n)
    | _ => rem / (n * n)
  let phi : ℕ → ℕ → R := fun Q k => match dir, k with
    | 0, 0 => r.B1 (Q % r.q) jx * r.B2 (Q / r.q % r.q) jy * r.B2 (Q / r.q / r.q) jz
    | 1, 1 => r.B2 (Q % r.q) jx * r.B1 (Q / r.q % r.q) jy * r.B2 (Q / r.q / r.q) jz
    | 2, 2 => r.B2 (Q % r.q) jx * r.B2 (Q / r.q % r.q) jy * r.B1 (Q / r.q / r.q) jz
    | _, _ => 0
  let curl : ℕ → ℕ → R := fun Q k => match dir, k with
    | 0, 1 => r.B1 (Q % r.q) jx * r.B2 (Q / r.q % r.q) jy * r.G2 (Q / r.q / r.q) jz
    | 0, 2 => -r.B1 (Q % r.q) jx * r.G2 (Q / r.q % r.q) jy * r.B2 (Q / r.q / r.q) jz
    | 1, 0 => -r.B2 (Q % r.q) jx * r.B1 (Q / r.q % r.q) jy * r.G2 (Q / r.q / r.q) jz
    | 1, 2 => r.G2 (Q % r.q) jx * r.B1 (Q / r.q % r.q) jy * r.B2 (Q / r.q / r.q) jz
    | 2, 0 => r.B2 (Q % r.q) jx * r.G2 (Q / r.q % r.q) jy * r.B1 (Q / r.q / r.q) jz
    | 2, 1 => -r.G2 (Q % r.q) jx * r.B2 (Q / r.q % r.q) jy * r.B1 (Q / r.q / r.q) jz
    | _, _ => 0
  { value := fun Q m => (sumTo 3 fun k => d00 Q m k * phi Q k) + sumTo 3 fun k => d01 Q m k * curl Q k
    curl := fun Q m => (sumTo 3 fun k => d10 Q m k * phi Q k) + sumTo 3 fun k => d11 Q m k * curl Q k }

end Hex
end Serac.Hcurl
