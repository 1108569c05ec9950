import Verif.Model.ElementKernels
import Verif.Model.Tensor
/-!
# The geometry integrals are computed with

`GeometricFactors` (`src/serac/numerics/functional/geometric_factors.cpp`) and the treatment of a mesh by `StateManager::setMesh`
(`src/serac/physics/state/state_manager.cpp` 225-268; the same call in `newDataCollection`, 74).

`mfem::Vector(n)` does not initialise its entries: what the vectors contain before a kernel runs is a parameter.  `finite_element<GEOM, H1<P>>` with
the rule of `Q` points is a parameter too (`Verif.Model.ElementKernels`).  The order of the mesh is read from its first element
(geometric_factors.cpp:72, 150); all elements are taken to have it.
-/

noncomputable section
namespace Serac.Geometry
open Serac.Kernels Serac.Tensor

inductive Geom
  | segment | triangle | square | tetrahedron | cube
  deriving DecidableEq

/-- `dimension_of` (geometry.hpp:49-66). -/
def Geom.dim : Geom → ℕ
  | .segment => 1
  | .triangle | .square => 2
  | .tetrahedron | .cube => 3

/-- `num_quadrature_points` (geometry.hpp:25-43). -/
def Geom.points (q : ℕ) : Geom → ℕ
  | .segment => q
  | .triangle => q * (q + 1) / 2
  | .square => q * q
  | .tetrahedron => q * (q + 1) * (q + 2) / 6
  | .cube => q * q * q

/-- The kernels of the first constructor (geometric_factors.cpp:97-132). -/
def domainKernels : List (Geom × ℕ × ℕ) :=
  [(.triangle, 1, 1), (.triangle, 1, 2), (.triangle, 1, 3), (.triangle, 1, 4),
   (.square, 1, 1), (.square, 1, 2), (.square, 1, 3), (.square, 1, 4),
   (.square, 2, 1), (.square, 2, 2), (.square, 2, 3), (.square, 2, 4),
   (.square, 3, 1), (.square, 3, 2), (.square, 3, 3), (.square, 3, 4),
   (.tetrahedron, 1, 1), (.tetrahedron, 1, 2), (.tetrahedron, 1, 3), (.tetrahedron, 1, 4),
   (.cube, 1, 1), (.cube, 1, 2), (.cube, 1, 3), (.cube, 1, 4),
   (.cube, 2, 1), (.cube, 2, 2), (.cube, 2, 3), (.cube, 2, 4),
   (.cube, 3, 1), (.cube, 3, 2), (.cube, 3, 3), (.cube, 3, 4)]

/-- The kernels of the constructor for faces (geometric_factors.cpp:172-216). -/
def faceKernels : List (Geom × ℕ × ℕ) :=
  [(.segment, 1, 1), (.segment, 1, 2), (.segment, 1, 3), (.segment, 1, 4),
   (.segment, 2, 1), (.segment, 2, 2), (.segment, 2, 3), (.segment, 2, 4),
   (.segment, 3, 1), (.segment, 3, 2), (.segment, 3, 3), (.segment, 3, 4),
   (.triangle, 1, 1), (.triangle, 1, 2), (.triangle, 1, 3), (.triangle, 1, 4),
   (.triangle, 2, 1), (.triangle, 2, 2), (.triangle, 2, 3), (.triangle, 2, 4),
   (.triangle, 3, 1), (.triangle, 3, 2), (.triangle, 3, 3), (.triangle, 3, 4),
   (.square, 1, 1), (.square, 1, 2), (.square, 1, 3), (.square, 1, 4),
   (.square, 2, 1), (.square, 2, 2), (.square, 2, 3), (.square, 2, 4),
   (.square, 3, 1), (.square, 3, 2), (.square, 3, 3), (.square, 3, 4)]

/-- The vectors `X` and `J`. -/
abbrev Factors := (ℕ → ℝ) × (ℕ → ℝ)

/-- `X_q[e](i, q) = value[i]` (geometric_factors.cpp:47), memory of a `tensor<double, spatial_dim, qpts_per_elem>` per element. -/
def putX (npts sdim : ℕ) (e i q : ℕ) (x : ℝ) (m : Factors) : Factors := (Function.update m.1 ((e * sdim + i) * npts + q) x, m.2)

/-- `J_q[e](j, i, q) = gradient(i, j)` (geometric_factors.cpp:48-55), memory of a `tensor<double, geometry_dim, spatial_dim, qpts_per_elem>` per
element.  For segments `j` is 0. -/
def putJ (npts sdim gdim : ℕ) (e i j q : ℕ) (x : ℝ) (m : Factors) : Factors :=
  (m.1, Function.update m.2 (((e * gdim + j) * sdim + i) * npts + q) x)

/-- `compute_geometric_factors` (geometric_factors.cpp:18-60). -/
def compute (E : Elem ℝ) (sdim gdim : ℕ) (Xe : ℕ → ℝ) (elements : List ℕ) (m : Factors) : Factors :=
  loop elements.length (fun m e =>
    let v := interpolate E fun t => Xe (elements.getD e 0 * (sdim * E.ndof) + t)
    loop E.npts (fun m q => loop sdim (fun m i =>
      loop gdim (fun m j => putJ E.npts sdim gdim e i j q (v.grad q i j) m) (putX E.npts sdim e i q (v.value q i) m)) m) m) m

/-- The elements of a domain by geometry, and the first constructor's choice (geometric_factors.cpp:78-81): nothing is assigned for segments. -/
def domainElements (ids : Geom → List ℕ) : Geom → List ℕ
  | .segment => []
  | g => ids g

/-- `GeometricFactors(d, q, g)` (geometric_factors.cpp:62-137): `E` is `finite_element<GEOM, H1<P>>` with the rule of `Q` points; `Xe` the gathered
nodes; `mem` the memory of the new vectors. -/
def domainFactors (E : Geom → ℕ → ℕ → Elem ℝ) (sdim : ℕ) (Xe : Geom → ℕ → ℝ) (ids : Geom → List ℕ) (g : Geom) (p q : ℕ) (mem : Factors) : Factors :=
  match domainKernels.find? (fun k => decide (g = k.1 ∧ p = k.2.1 ∧ q = k.2.2)) with
  | some k => compute (E k.1 k.2.1 k.2.2) sdim k.1.dim (Xe g) (domainElements ids g) mem
  | none => mem

/-- `GeometricFactors(d, q, g, type)` (geometric_factors.cpp:140-221). -/
def faceFactors (E : Geom → ℕ → ℕ → Elem ℝ) (sdim : ℕ) (Xe : Geom → ℕ → ℝ) (ids : Geom → List ℕ) (g : Geom) (p q : ℕ) (mem : Factors) : Factors :=
  match faceKernels.find? (fun k => decide (g = k.1 ∧ p = k.2.1 ∧ q = k.2.2)) with
  | some k => compute (E k.1 k.2.1 k.2.2) sdim k.1.dim (Xe g) (ids g) mem
  | none => mem

/-- What the kernels read: `x[e](i, q)` and `J[e](j, i, q)` (domain_integral_kernels.hpp:165-166, boundary_integral_kernels.hpp:170-171). -/
def readX (npts sdim : ℕ) (m : Factors) (e i q : ℕ) : ℝ := m.1 (e * (sdim * npts) + i * npts + q)
def readJ (npts sdim gdim : ℕ) (m : Factors) (e j i q : ℕ) : ℝ := m.2 (e * (gdim * sdim * npts) + j * (sdim * npts) + i * npts + q)

/-! ## The mesh of a physics module -/

/-- Shape functions of all orders on a reference element of dimension `d`, and its vertices. -/
structure Reference (d : ℕ) where
  ndof : ℕ → ℕ
  phi : ℕ → (Fin d → ℝ) → ℕ → ℝ
  vertex : ℕ → Fin d → ℝ

/-- A mesh: its order and, per element, the positions of its nodes. -/
structure Nodes (s : ℕ) where
  order : ℕ
  pos : ℕ → ℕ → Fin s → ℝ

/-- Where a point of the reference element lies. -/
def Nodes.map {d s : ℕ} (B : Reference d) (M : Nodes s) (e : ℕ) (x : Fin d → ℝ) : Fin s → ℝ :=
  fun i => ∑ k ∈ Finset.range (B.ndof M.order), B.phi M.order x k * M.pos e k i

/-- `pmesh->SetCurvature(1, …)` (state_manager.cpp:248): nodes of order 1 get the positions the old nodes give at them. -/
def setMesh {d s : ℕ} (B : Reference d) (M : Nodes s) : Nodes s := ⟨1, fun e v => M.map B e (B.vertex v)⟩

end Serac.Geometry
