import Verif.Model.SumFactor
/-!
# Element kernels

`/repo/src/serac/numerics/functional/domain_integral_kernels.hpp` 153-213 (`evaluation_kernel_impl`), 217-245 (chain rule), 273-300
(`action_of_gradient_kernel`), 322-358 (`element_gradient_kernel`); `boundary_integral_kernels.hpp` (the same kernels without flux);
`tensor.hpp` 1791-1869 (`chain_rule`), 1879-1891 (`size`); `detail/segment_H1.inl` 96-192, `detail/triangle_H1.inl` 225-334, `detail/tetrahedron_H1.inl`
338-428, the L2 files (same functions), `detail/qoi.inl` 26-131.

Memory blocks are functions of natural-number positions; a pointer is a position.  `zero` values (the compile-time zero type) are `none`.  Tensors of a
quadrature point are read with all their indices, also when the number of components is one and the C++ type drops the index: the memory layout is the same.
The loops of the simplex files add point by point what is added here in one go per node: equal in exact arithmetic.
Coordinate transformations between parent and physical element are part of the point function `qf` here (see C18 for them).
-/

namespace Serac.Kernels
open Serac.SF

variable {R : Type} [CommRing R]

/-! ### Elements: what `finite_element<g, space>` does for one component -/

structure Elem (R : Type) where
  /-- nodes -/
  ndof : ℕ
  /-- quadrature points -/
  npts : ℕ
  dim : ℕ
  /-- `interpolate` -/
  interp : (ℕ → R) → PointData R
  /-- `integrate`: the increments of the nodal residuals -/
  integ : PointData R → ℕ → R
  /-- `batch_apply_shape_fn` -/
  apply : ℕ → (ℕ → R) → (ℕ → ℕ → R) → (ℕ → ℕ → R) → (ℕ → ℕ → ℕ → R) → PointData R

/-- Quadrilaterals and hexahedra, H1 and L2. -/
def quad (r : Rule R) : Elem R := ⟨r.n * r.n, r.q * r.q, 2, Quad.interpolate r, Quad.integrate r, Quad.applyShape r⟩
def hex (r : Rule R) : Elem R := ⟨r.n * r.n * r.n, r.q * r.q * r.q, 3, Hex.interpolate r, Hex.integrate r, Hex.applyShape r⟩

/-- Segments: `dot(B, X)`, `dot(source, B) + dot(flux, G)`. -/
def segmentElem (r : Rule R) : Elem R where
  ndof := r.n
  npts := r.q
  dim := 1
  interp X := { value := fun Q => sumTo r.n fun a => r.B Q a * X a, grad := fun Q _ => sumTo r.n fun a => r.G Q a * X a }
  integ f a := (sumTo r.q fun Q => f.value Q * r.Bw Q a) + sumTo r.q fun Q => f.grad Q 0 * r.Gw Q a
  apply j d00 d01 d10 d11 :=
    { value := fun Q => d00 Q * r.B Q j + d01 Q 0 * r.G Q j
      grad := fun Q m => d10 Q m * r.B Q j + d11 Q m 0 * r.G Q j }

/-- A simplex (`dim` 2: triangle, 3: tetrahedron): `phi`, `dphi` are `shape_function`, `shape_function_gradient`, `xi`, `wt` the tables of the rule. -/
structure Simplex (R : Type) (P : Type) where
  dim : ℕ
  ndof : ℕ
  npts : ℕ
  phi : P → ℕ → R
  dphi : P → ℕ → ℕ → R
  xi : ℕ → P
  wt : ℕ → R

def simplex {P : Type} (s : Simplex R P) : Elem R where
  ndof := s.ndof
  npts := s.npts
  dim := s.dim
  interp X :=
    { value := fun Q => sumTo s.ndof fun k => X k * s.phi (s.xi Q) k
      grad := fun Q d => sumTo s.ndof fun k => X k * s.dphi (s.xi Q) k d }
  integ f k := sumTo s.npts fun Q => (f.value Q * s.phi (s.xi Q) k + sumTo s.dim fun d => f.grad Q d * s.dphi (s.xi Q) k d) * s.wt Q
  apply j d00 d01 d10 d11 :=
    { value := fun Q => d00 Q * s.phi (s.xi Q) j + sumTo s.dim fun d => d01 Q d * s.dphi (s.xi Q) j d
      grad := fun Q m => d10 Q m * s.phi (s.xi Q) j + sumTo s.dim fun d => d11 Q m d * s.dphi (s.xi Q) j d }

/-- The test "element" of a quantity of interest on the three kinds of rules; it is only integrated, and never has a flux. -/
def qoiSum (q : ℕ) (wts : ℕ → R) (f : PointData R) : R := sumTo q fun k => f.value k * wts k
def qoiSquare (q : ℕ) (wts : ℕ → R) (f : PointData R) : R := sumTo q fun qy => sumTo q fun qx => f.value (qy * q + qx) * wts qx * wts qy
def qoiCube (q : ℕ) (wts : ℕ → R) (f : PointData R) : R :=
  sumTo q fun qz => sumTo q fun qy => sumTo q fun qx => f.value ((qz * q + qy) * q + qx) * wts qx * wts qy * wts qz

def noData : PointData R := ⟨fun _ => 0, fun _ _ => 0⟩
def qoi (npts : ℕ) (total : PointData R → R) : Elem R := ⟨1, npts, 1, fun _ => noData, fun f _ => total f, fun _ _ _ _ _ => noData⟩

/-! ### Components -/

/-- Values and derivatives at the points of a field with several components: `value Q i`, `grad Q i k`. -/
structure Fields (R : Type) where
  value : ℕ → ℕ → R
  grad : ℕ → ℕ → ℕ → R

/-- `interpolate` of all components; `X` points to the element's block of nodal values, `X(i, k)` is entry `i * ndof + k`. -/
def interpolate (E : Elem R) (X : ℕ → R) : Fields R :=
  { value := fun Q i => (E.interp fun k => X (i * E.ndof + k)).value Q
    grad := fun Q i d => (E.interp fun k => X (i * E.ndof + k)).grad Q d }

/-- A source or flux at the points: `none` for `zero`, else the flat memory of each point. -/
abbrev Flat (R : Type) := Option (ℕ → ℕ → R)

/-- `reinterpret_cast<const double*>(&...)[i]`, where a `zero` counts as zero. -/
def Flat.read (f : Flat R) (Q i : ℕ) : R := match f with
  | none => 0
  | some v => v Q i

/-- One residual component: source `(i, j)` and flux `(i, ·, j)`. -/
def component (E : Elem R) (m : ℕ) (s f : Flat R) (i j : ℕ) : PointData R :=
  { value := fun Q => Flat.read s Q (flatSource m i j), grad := fun Q k => Flat.read f Q (flatFlux E.dim m i k j) }

/-- `mem[p] += x` -/
def addTo (mem : ℕ → R) (p : ℕ) (x : R) : ℕ → R := fun i => if i = p then mem i + x else mem i

/-- `for (int i = 0; i < n; i++) ...` -/
def loop {S : Type} (n : ℕ) (body : S → ℕ → S) (s : S) : S := (List.range n).foldl body s

/-- `integrate(qf_output, rule, element_residual, step)`: `out` and `step` count elements' blocks of `c * ndof` numbers.  `sizeS`, `sizeF` are the sizes of the
source and flux types. -/
def integrateInto (E : Elem R) (c sizeS sizeF : ℕ) (s f : Flat R) (out step : ℕ) (mem : ℕ → R) : ℕ → R :=
  match s, f with
  | none, none => mem
  | s, f =>
    let m := ntrial E.dim c (if s.isNone then 0 else sizeS) (if f.isNone then 0 else sizeF)
    loop m (fun mem j => loop c (fun mem i => loop E.ndof (fun mem k =>
      addTo mem ((out + j * step) * (c * E.ndof) + i * E.ndof + k) (E.integ (component E m s f i j) k)) mem) mem) mem

/-! ### Derivatives at a point -/

/-- Addition with `zero`. -/
def oadd {A : Type} (add : A → A → A) : Option A → Option A → Option A
  | none, b => b
  | a, none => a
  | some a, some b => some (add a b)

/-- Which blocks are `zero` is a property of the types, so the same at all points. -/
structure Shape where
  z00 : Bool
  z01 : Bool
  z10 : Bool
  z11 : Bool

/-- The derivative of (source, flux) with respect to (value, gradient) at one point: test components `i`, trial components `j`.  Which blocks are of type
`zero` is given by `Shape`; those are not read. -/
structure Deriv (R : Type) where
  d00 : ℕ → ℕ → R
  d01 : ℕ → ℕ → ℕ → R
  d10 : ℕ → ℕ → ℕ → R
  d11 : ℕ → ℕ → ℕ → ℕ → R

/-- The buffer of q-function derivatives, one entry per point. -/
abbrev Buffer (R : Type) := ℕ → Deriv R

/-- `qf_derivatives + p` -/
def offset (D : Buffer R) (p : ℕ) : Buffer R := fun Q => D (p + Q)

/-- `zero` or the array. -/
def nonzero {A : Type} (z : Bool) (a : A) : Option A := if z then none else some a

/-- `chain_rule(df_dx, dx)` for a value `dx` with `m` components and its sum with the one for a gradient; entries `(i, k)` of a flux in row-major order. -/
def chainSource (z : Shape) (D : Buffer R) (m dim : ℕ) (u : Fields R) : Flat R :=
  oadd (fun a b Q i => a Q i + b Q i)
    (nonzero z.z00 fun Q i => sumTo m fun j => (D Q).d00 i j * u.value Q j)
    (nonzero z.z01 fun Q i => sumTo m fun j => sumTo dim fun k => (D Q).d01 i j k * u.grad Q j k)

def chainFlux (z : Shape) (D : Buffer R) (m dim : ℕ) (u : Fields R) : Flat R :=
  oadd (fun a b Q i => a Q i + b Q i)
    (nonzero z.z10 fun Q p => sumTo m fun j => (D Q).d10 (p / dim) (p % dim) j * u.value Q j)
    (nonzero z.z11 fun Q p => sumTo m fun j => sumTo dim fun k => (D Q).d11 (p / dim) (p % dim) j k * u.grad Q j k)

/-! ### Kernels -/

/-- `action_of_gradient_kernel`: `c` test components, `m` trial components. -/
def actionKernel (test trial : Elem R) (c m : ℕ) (z : Shape) (D : Buffer R) (elements : List ℕ) (dU dR : ℕ → R) : ℕ → R :=
  elements.zipIdx.foldl (fun dR ee =>
    let u := interpolate trial fun p => dU (ee.1 * (m * trial.ndof) + p)
    let De := offset D (ee.2 * test.npts)
    integrateInto test c c (c * test.dim) (chainSource z De m trial.dim u) (chainFlux z De m trial.dim u) ee.1 1 dR) dR

/-- `batch_apply_shape_fn(J, derivatives, rule)`: all test and trial components; a source is `c x m`, a flux `c x dim x m`.  A sum of `zero`s is `zero`; if one
summand is `zero` it contributes nothing. -/
def shapeBlock (trial : Elem R) (z : Shape) (D : Buffer R) (J i j : ℕ) : PointData R :=
  trial.apply J (fun Q => if z.z00 then 0 else (D Q).d00 i j) (fun Q k => if z.z01 then 0 else (D Q).d01 i j k)
    (fun Q k => if z.z10 then 0 else (D Q).d10 i k j) (fun Q k k' => if z.z11 then 0 else (D Q).d11 i k j k')

def shapeSource (trial : Elem R) (m : ℕ) (z : Shape) (D : Buffer R) (J : ℕ) : Flat R :=
  nonzero (z.z00 && z.z01) fun Q p => (shapeBlock trial z D J (p / m) (p % m)).value Q

def shapeFlux (trial : Elem R) (m dim : ℕ) (z : Shape) (D : Buffer R) (J : ℕ) : Flat R :=
  nonzero (z.z10 && z.z11) fun Q p => (shapeBlock trial z D J (p / m / dim) (p % m)).grad Q (p / m % dim)

/-- `element_gradient_kernel`: `dK` has shape (elements, trial dofs, test dofs); `output_ptr` counts rows of `c * test.ndof` numbers. -/
def gradientKernel (test trial : Elem R) (c m : ℕ) (z : Shape) (D : Buffer R) (elements : List ℕ) (dK : ℕ → R) : ℕ → R :=
  elements.zipIdx.foldl (fun dK ee =>
    let De := offset D (ee.2 * test.npts)
    loop trial.ndof (fun dK J =>
      integrateInto test c (c * m) (c * test.dim * m) (shapeSource trial m z De J) (shapeFlux trial m test.dim z De J)
        (ee.1 * (m * trial.ndof) + J) trial.ndof dK) dK) dK

/-- What the q-function does at point `Q` of the `e`-th element of the domain, as a function of value and gradient of the differentiated argument (all other
arguments, time, position, Jacobian and history are fixed): source and flux on the parent element. -/
abbrev PointFn (R : Type) := ℕ → (ℕ → R) → (ℕ → ℕ → R) → (ℕ → R) × (ℕ → ℕ → R)

/-- `evaluation_kernel_impl`: the residual.  `zs`, `zf` say whether the source or flux returned by the q-function is `zero`. -/
def evalKernel (test trial : Elem R) (c m : ℕ) (zs zf : Bool) (qf : PointFn R) (elements : List ℕ) (U r : ℕ → R) : ℕ → R :=
  elements.zipIdx.foldl (fun r ee =>
    let u := interpolate trial fun p => U (ee.1 * (m * trial.ndof) + p)
    let out := fun Q => qf (ee.2 * test.npts + Q) (u.value Q) (u.grad Q)
    integrateInto test c c (c * test.dim) (nonzero zs fun Q i => (out Q).1 i) (nonzero zf fun Q p => (out Q).2 (p / test.dim) (p % test.dim)) ee.1 1 r) r

/-- and the derivatives it stores, `grad` being what dual numbers compute: entry `e * qpts_per_elem + q`.  (Written element by element; the entries of
different elements do not overlap.) -/
def evalDerivs (npts : ℕ) (trial : Elem R) (m : ℕ) (grad : ℕ → (ℕ → R) → (ℕ → ℕ → R) → Deriv R) (elements : List ℕ) (U : ℕ → R)
    (old : Buffer R) : Buffer R :=
  elements.zipIdx.foldl (fun D ee =>
    let u := interpolate trial fun p => U (ee.1 * (m * trial.ndof) + p)
    loop npts (fun D Q p => if p = ee.2 * npts + Q then grad p (u.value Q) (u.grad Q) else D p) D) old

end Serac.Kernels
