import Verif.Model.ElementKernels
import Verif.Model.NodalBasis
/-!
# Elements of discontinuous fields of order zero

`/repo/src/serac/numerics/functional/detail/triangle_L2.inl` 76-155, `tetrahedron_L2.inl` 43-50 and 158-163, `segment_L2.inl` 40-97, `quadrilateral_L2.inl` and
`hexahedron_L2.inl` with `polynomials.hpp` 493-526 (`GaussLobattoInterpolation<1>` and its derivative).

The L2 files repeat the H1 files, with `interpolate`, `integrate` and `batch_apply_shape_fn` word for word; what they add is the order zero, which the simplices treat as a case of
its own.  The numbers of nodes are `(p + 1)(p + 2) / 2`, `(p + 1)(p + 2)(p + 3) / 6` and powers of `p + 1`: one for order zero.
-/

noncomputable section
namespace Serac.Kernels
open Serac.SF Serac.Nodal

/-- Triangles and tetrahedra: `shape_function` is one, `shape_function_gradient` zero, whatever the point and the index. -/
def simplexL2 {P : Type} (dim npts : ℕ) (xi : ℕ → P) (wt : ℕ → ℝ) : Simplex ℝ P := ⟨dim, 1, npts, fun _ _ => 1.0, fun _ _ _ => 0.0, xi, wt⟩

/-- Segments, quadrilaterals and hexahedra: the one-dimensional basis `GaussLobattoInterpolation<1>`. -/
def ruleL2 (s5 : ℝ) (q : ℕ) (pt wt : ℕ → ℝ) : Rule ℝ := ⟨1, q, fun j x => Nodal.at' (lobatto s5 1 x) j, fun j x => Nodal.at' (lobattoDerivative s5 1 x) j, pt, wt⟩

end Serac.Kernels
