import Verif.Model.ElementKernels
import Verif.Model.Transforms
import Verif.Model.Piola
/-!
# The domain residual of solid mechanics, assembled

`SolidMechanics` adds `MaterialStressFunctor` (`/repo/src/serac/physics/solid_mechanics.hpp` 806-853) as a domain integral (783-802).  Evaluating the residual
gathers nodal values into the element vector, runs `evaluation_kernel_impl` (`domain_integral_kernels.hpp` 153-213, `Verif.Model.ElementKernels`) with the
coordinate transformations of `finite_element.hpp` 240-320 (`Verif.Model.Transforms`) and the Jacobians of `geometric_factors.cpp` 18-60, and adds the element
vector back to the nodes (`element_restriction.cpp`, `functional.hpp` 433-470).

Simplifications: H1 spaces have no orientation signs; gather and scatter are written with the node numbers of the elements (C07 has the restriction operators
themselves); one geometry; the shape displacement is zero, so the shape correction is the identity (C19); parameters and internal variables are constants of the
material at the point.  A singular Jacobian, a singular deformation gradient or an undefined stress is a point without result; the theorems that use the value
there say so.
-/

noncomputable section
namespace Serac.Solid
open Serac.Tensor Serac.Transform Serac.Kernels Serac.Piola

/-- `det` and `inv` for the dimension. -/
def ops : (d : Dim) → Ops d.n
  | .two => ops2
  | .three => ops3

/-- `MaterialStressFunctor::operator()` (solid_mechanics.hpp:833-852): source and flux from the gradient of displacement and the acceleration. -/
def stressFunctor (d : Dim) (on : GeomNonlin) (density : ℝ) (material : Mat ℝ d.n d.n → Option (Mat ℝ d.n d.n)) (du_dX : Mat ℝ d.n d.n)
    (d2u_dt2 : Vec ℝ d.n) : Option (Vec ℝ d.n × Mat ℝ d.n d.n) :=
  (materialFlux (ops d) on material du_dX).map fun flux => (fun i => density * d2u_dt2 i, flux)

/-- One quadrature point of the kernel (domain_integral_kernels.hpp:190-208): both arguments to the physical element, the functor, its result to the parent
element. -/
def solidPoint (d : Dim) (on : GeomNonlin) (density : ℝ) (material : Mat ℝ d.n d.n → Option (Mat ℝ d.n d.n)) (J : Mat ℝ d.n d.n)
    (u a : Vec ℝ d.n × Mat ℝ d.n d.n) : Option (Vec ℝ d.n × Mat ℝ d.n d.n) :=
  (parentToPhysicalH1 d (storeJacobian fun _ : Fin 1 => J) (fun _ => u) 0).bind fun u' =>
    (parentToPhysicalH1 d (storeJacobian fun _ : Fin 1 => J) (fun _ => a) 0).bind fun a' =>
      (stressFunctor d on density material u'.2 a'.1).bind fun r => physicalToParentH1 d (storeJacobian fun _ : Fin 1 => J) (fun _ => r) 0

/-- Entries of a tensor in memory. -/
def flatV {n : ℕ} (v : Vec ℝ n) : ℕ → ℝ := fun i => if h : i < n then v ⟨i, h⟩ else 0
def flatM {m n : ℕ} (v : Mat ℝ m n) : ℕ → ℕ → ℝ := fun i j => if h : i < m ∧ j < n then v ⟨i, h.1⟩ ⟨j, h.2⟩ else 0

/-- `Gather`: the element vector of a nodal field with `c` components, entry `(e, i, k)` at position `e * (c * ndof) + i * ndof + k`. -/
def gatherE {nn c : ℕ} (ndof : ℕ) (conn : ℕ → ℕ → Fin nn) (u : Fin nn → Vec ℝ c) : ℕ → ℝ := fun p =>
  flatV (u (conn (p / (c * ndof)) (p % (c * ndof) % ndof))) (p % (c * ndof) / ndof)

/-- `ScatterAdd` to zero. -/
def scatterE {nn c : ℕ} (ndof ne : ℕ) (conn : ℕ → ℕ → Fin nn) (r : ℕ → ℝ) : Fin nn → Vec ℝ c := fun n i =>
  ∑ e ∈ Finset.range ne, ∑ k ∈ Finset.range ndof, if conn e k = n then r (e * (c * ndof) + (i * ndof + k)) else 0

/-- A mesh of one geometry with nodal positions (element `G`, `ng` nodes), a vector H1 space (element `E`, `nn` nodes) on it, and the integral: a list of
elements, the material at each of its quadrature points, the density and the switch. -/
structure Setup (d : Dim) where
  E : Elem ℝ
  G : Elem ℝ
  nn : ℕ
  ng : ℕ
  conn : ℕ → ℕ → Fin nn
  connG : ℕ → ℕ → Fin ng
  pos : Fin ng → Vec ℝ d.n
  ne : ℕ
  elements : List ℕ
  on : GeomNonlin
  density : ℝ
  material : ℕ → Mat ℝ d.n d.n → Option (Mat ℝ d.n d.n)

namespace Setup
variable {d : Dim} (S : Setup d)

abbrev Nodal := Fin S.nn → Vec ℝ d.n

/-- `interpolate` on an element's block, with tensors as results. -/
def interp (E : Elem ℝ) (X : ℕ → ℝ) (Q : ℕ) : Vec ℝ d.n × Mat ℝ d.n d.n :=
  (fun i => (interpolate E X).value Q i, fun i j => (interpolate E X).grad Q i j)

/-- `J_q[e]` (geometric_factors.cpp:38-57): `e` counts the elements of the domain. -/
def jacobian (idx Q : ℕ) : Mat ℝ d.n d.n :=
  (interp (d := d) S.G (fun t => gatherE S.G.ndof S.connG S.pos (S.elements.getD idx 0 * (d.n * S.G.ndof) + t)) Q).2

/-- The q-function of the integral as the kernel sees it, for given accelerations. -/
def pointFn (a : S.Nodal) : PointFn ℝ := fun p v g =>
  let idx := p / S.E.npts
  let Q := p % S.E.npts
  let acc := interp (d := d) S.E (fun t => gatherE S.E.ndof S.conn a (S.elements.getD idx 0 * (d.n * S.E.ndof) + t)) Q
  let r := (solidPoint d S.on S.density (S.material p) (S.jacobian idx Q) (fun i => v i, fun i j => g i j) acc).getD (0, 0)
  (flatV r.1, flatM r.2)

/-- The assembled residual of the domain integral for displacement `u` and acceleration `a`. -/
def residual (u a : S.Nodal) : S.Nodal :=
  scatterE S.E.ndof S.ne S.conn
    (evalKernel S.E S.E d.n d.n false false (S.pointFn a) S.elements (gatherE S.E.ndof S.conn u) fun _ => 0)

end Setup
end Serac.Solid
