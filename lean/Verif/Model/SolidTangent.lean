import Verif.Model.SurfaceLoads
import Verif.Model.Elimination
/-!
# The Jacobian of solid mechanics

What `SolidMechanics` hands to its nonlinear solver as gradient (`/repo/src/serac/physics/solid_mechanics.hpp` 1133-1141 for quasi-static, 1189-1210 for dynamic
problems): the residual is evaluated with `differentiate_wrt` on the displacement, or on the acceleration, which stores the derivatives of every q-function
(`domain_integral_kernels.hpp` 196-203, `boundary_integral_kernels.hpp` 190-205, `Verif.Model.ElementKernels`); the gradients are assembled from the element matrices
(`functional.hpp` 655-735, see C53 for the sparse matrix) and the essential dofs eliminated (`Verif.Model.Elimination`).

The derivatives are those that dual numbers carry through the steps of a quadrature point (C12 for the arithmetic): the coordinate transformations of
`Verif.Model.SolidResidual`, the functor and the material.  The derivative of the flux that the functor and the material return is the parameter `A`; the theorems say
when it is the true one.  Simplifications as in `Verif.Model.SolidResidual` and `Verif.Model.SurfaceLoads`; the sparse matrices are functions of two dofs.
-/

noncomputable section
namespace Serac.Solid
open Serac.Tensor Serac.Transform Serac.Kernels Serac.Piola Serac.Loads

/-- `A p H i m j n`: the derivative of component `(i, m)` of the flux at point `p` and displacement gradient `H` with respect to component `(j, n)`. -/
abbrev Moduli (d : Dim) := ℕ → Mat ℝ d.n d.n → Fin d.n → Fin d.n → Fin d.n → Fin d.n → ℝ

/-- Entries of derivatives in memory. -/
def flat4 {n : ℕ} (D : Fin n → Fin n → Fin n → Fin n → ℝ) : ℕ → ℕ → ℕ → ℕ → ℝ := fun i l j k =>
  if h : (i < n ∧ l < n) ∧ j < n ∧ k < n then D ⟨i, h.1.1⟩ ⟨l, h.1.2⟩ ⟨j, h.2.1⟩ ⟨k, h.2.2⟩ else 0
def flat3 {n m : ℕ} (D : Fin n → Fin n → Fin m → ℝ) : ℕ → ℕ → ℕ → ℝ := fun i j k =>
  if h : (i < n ∧ j < n) ∧ k < m then D ⟨i, h.1.1⟩ ⟨j, h.1.2⟩ ⟨k, h.2⟩ else 0

/-- With a dual displacement the source (density times acceleration) is not dual and the flux has no derivative with respect to the value. -/
def stiffShape : Shape := ⟨true, true, true, false⟩
/-- With a dual acceleration only the source is dual, and only through the value. -/
def massShape : Shape := ⟨false, true, true, true⟩
/-- A q-function that does not use the differentiated argument. -/
def zeroShape : Shape := ⟨true, true, true, true⟩
/-- A pressure: a source that depends on the derivative of the displacement. -/
def pressureShape : Shape := ⟨true, false, true, true⟩

/-- The entries of a matrix of element matrices that belong to a pair of dofs (`functional.hpp` 700-729): `dK` as written by the gradient kernel. -/
def assembleE {nn c : ℕ} (ndof ne : ℕ) (conn : ℕ → ℕ → Fin nn) (dK : ℕ → ℝ) (r q : Fin nn × Fin c) : ℝ :=
  ∑ e ∈ Finset.range ne, ∑ a ∈ Finset.range ndof, ∑ b ∈ Finset.range ndof,
    if conn e a = r.1 ∧ conn e b = q.1 then dK ((e * (c * ndof) + (q.2 * ndof + b)) * (c * ndof) + (r.2 * ndof + a)) else 0

namespace Setup
variable {d : Dim} (S : Setup d)

/-- Derivatives with respect to a dual displacement: its parent gradient times the inverse Jacobian (finite_element.hpp:259-262), through the functor, then times
the inverse transpose and the determinant (300-305). -/
def stiffGrad (A : Moduli d) : ℕ → (ℕ → ℝ) → (ℕ → ℕ → ℝ) → Deriv ℝ := fun p _ g =>
  let J := S.jacobian (p / S.E.npts) (p % S.E.npts)
  let Ji := (inv d J).getD 0
  let JTi := (inv d (transpose J)).getD 0
  let H := dot (fun i j => g i j) Ji
  ⟨fun _ _ => 0, fun _ _ _ => 0, fun _ _ _ => 0,
    flat4 fun i l j k => (∑ m, (∑ n, A p H i m j n * Ji k n) * JTi m l) * det d (transpose J)⟩

/-- Derivatives with respect to a dual acceleration. -/
def massGrad : ℕ → (ℕ → ℝ) → (ℕ → ℕ → ℝ) → Deriv ℝ := fun p _ _ =>
  let J := S.jacobian (p / S.E.npts) (p % S.E.npts)
  ⟨fun i j => if i = j then S.density * det d (transpose J) else 0, fun _ _ _ => 0, fun _ _ _ => 0, fun _ _ _ _ => 0⟩

/-- The buffers of derivatives after an evaluation; `old` is what they held before. -/
def stiffBuffer (A : Moduli d) (old : Buffer ℝ) (u : S.Nodal) : Buffer ℝ := evalDerivs S.E.npts S.E d.n (S.stiffGrad A) S.elements (gatherE S.E.ndof S.conn u) old
def massBuffer (old : Buffer ℝ) (a : S.Nodal) : Buffer ℝ := evalDerivs S.E.npts S.E d.n S.massGrad S.elements (gatherE S.E.ndof S.conn a) old

end Setup

/-- `cross` of the derivative of a position on a face (tensor.hpp). -/
def crossAt : (d : Dim) → Mat ℝ d.n (faceDim d) → Vec ℝ d.n
  | .two, X => crossFace2 fun i => X i 0
  | .three, X => crossCols X

/-- What dual numbers carry through `cross`: the product is linear in every column. -/
def crossGrad (d : Dim) (X : Mat ℝ d.n (faceDim d)) (i j : Fin d.n) (k : Fin (faceDim d)) : ℝ :=
  crossAt d (fun i' k' => if k' = k then (if i' = j then 1 else 0) else X i' k') i

/-- The derivative of `Load.at` with respect to the derivative of the displacement (solid_mechanics.hpp:1079-1099): `x = X + 0.0 * u` and, if the switch is on,
`x = x + u`. -/
def pressureGrad (d : Dim) (on : Bool) (f : Vec ℝ d.n → ℝ → ℝ) (t : ℝ) (X u : FacePoint d) (i j : Fin d.n) (k : Fin (faceDim d)) : ℝ :=
  let w := Transform.norm (crossAt d X.2)
  let x := addM (addM X.2 (smulM u.2 0)) (if on then u.2 else fun _ _ => 0)
  crossGrad d x i j k * (if on then 0 + 1 else 0) / w * f X.1 t * (w / w) * w

namespace Loaded
variable {d : Dim} (L : Loaded d)

def loadShape : Load d → Shape
  | .traction _ _ => zeroShape
  | .pressure _ _ => pressureShape

/-- Derivatives of a load with respect to a dual displacement. -/
def loadGrad (l : Load d) (t : ℝ) : ℕ → (ℕ → ℝ) → (ℕ → ℕ → ℝ) → Deriv ℝ := fun p v g =>
  let X := L.F.geometry L.B.S.pos l.elements (p / L.F.E.npts) (p % L.F.E.npts)
  match l with
  | .traction _ _ => ⟨fun _ _ => 0, fun _ _ _ => 0, fun _ _ _ => 0, fun _ _ _ _ => 0⟩
  | .pressure _ f => ⟨fun _ _ => 0, flat3 (pressureGrad d L.B.S.on f t X (fun i => v i, fun i j => g i j)), fun _ _ _ => 0, fun _ _ _ _ => 0⟩

def loadBuffer (l : Load d) (t : ℝ) (old : Buffer ℝ) (u : L.B.S.Nodal) : Buffer ℝ :=
  evalDerivs L.F.E.npts L.F.E d.n (L.loadGrad l t) l.elements (gatherE L.F.E.ndof L.F.conn u) old

/-- `dR/du` applied to a direction: the integrals in the order of their calls (functional.hpp:410-428 with the action kernels). -/
def stiffAction (A : Moduli d) (old : Buffer ℝ) (t : ℝ) (u du : Ode.Vec L.B.N) : Ode.Vec L.B.N :=
  let S := L.B.S
  L.loads.foldl (fun r l => r + L.B.vector (scatterE L.F.E.ndof L.F.ne L.F.conn
      (actionKernel L.F.E L.F.E d.n d.n (loadShape l) (L.loadBuffer l t old (L.B.nodal u)) l.elements (gatherE L.F.E.ndof L.F.conn (L.B.nodal du)) fun _ => 0)))
    (L.B.vector (scatterE S.E.ndof S.ne S.conn
      (L.B.forces.foldl (fun r f => actionKernel S.E S.E d.n d.n zeroShape (fun _ => ⟨fun _ _ => 0, fun _ _ _ => 0, fun _ _ _ => 0, fun _ _ _ _ => 0⟩) f.elements
          (gatherE S.E.ndof S.conn (L.B.nodal du)) r)
        (actionKernel S.E S.E d.n d.n stiffShape (S.stiffBuffer A old (L.B.nodal u)) S.elements (gatherE S.E.ndof S.conn (L.B.nodal du)) fun _ => 0))))

/-- `assemble(dR/du)`: the element matrices of all integrals. -/
def stiffMatrix (A : Moduli d) (old : Buffer ℝ) (t : ℝ) (u : Ode.Vec L.B.N) : Elim.Mat L.B.N := fun k m =>
  let S := L.B.S
  let r := L.B.num.symm k
  let q := L.B.num.symm m
  L.loads.foldl (fun x l => x + assembleE L.F.E.ndof L.F.ne L.F.conn
      (gradientKernel L.F.E L.F.E d.n d.n (loadShape l) (L.loadBuffer l t old (L.B.nodal u)) l.elements fun _ => 0) r q)
    (assembleE S.E.ndof S.ne S.conn
      (L.B.forces.foldl (fun K f => gradientKernel S.E S.E d.n d.n zeroShape (fun _ => ⟨fun _ _ => 0, fun _ _ _ => 0, fun _ _ _ => 0, fun _ _ _ _ => 0⟩) f.elements K)
        (gradientKernel S.E S.E d.n d.n stiffShape (S.stiffBuffer A old (L.B.nodal u)) S.elements fun _ => 0)) r q)

/-- `dR/da` applied to a direction and assembled; only the material integral uses the acceleration. -/
def massAction (old : Buffer ℝ) (a da : Ode.Vec L.B.N) : Ode.Vec L.B.N :=
  let S := L.B.S
  L.B.vector (scatterE S.E.ndof S.ne S.conn
    (actionKernel S.E S.E d.n d.n massShape (S.massBuffer old (L.B.nodal a)) S.elements (gatherE S.E.ndof S.conn (L.B.nodal da)) fun _ => 0))
def massMatrix (old : Buffer ℝ) (a : Ode.Vec L.B.N) : Elim.Mat L.B.N := fun k m =>
  assembleE L.B.S.E.ndof L.B.S.ne L.B.S.conn
    (gradientKernel L.B.S.E L.B.S.E d.n d.n massShape (L.B.S.massBuffer old (L.B.nodal a)) L.B.S.elements fun _ => 0) (L.B.num.symm k) (L.B.num.symm m)

/-- `J_` of a quasi-static problem (solid_mechanics.hpp:1134-1140) and what `stiffnessMatrix()` returns with it (1155-1160). -/
def staticJacobian (A : Moduli d) (old : Buffer ℝ) (fixed : List (Fin L.B.N)) (t : ℝ) (u : Ode.Vec L.B.N) : Elim.Mat L.B.N × Elim.Mat L.B.N :=
  (Elim.elim (L.stiffMatrix A old t u) fixed, Elim.elimRest (L.stiffMatrix A old t u) fixed)

/-- `J_ = M + c0 * K` of a dynamic problem (1189-1209), before the elimination. -/
def dynamicMatrix (A : Moduli d) (old old' : Buffer ℝ) (st : Ode.State2 L.B.N) (a : Ode.Vec L.B.N) : Elim.Mat L.B.N := fun k m =>
  1 * L.massMatrix old' a k m + st.c0 * L.stiffMatrix A old st.time (fun j => 1 * st.u j + st.c0 * a j) k m
def dynamicJacobian (A : Moduli d) (old old' : Buffer ℝ) (fixed : List (Fin L.B.N)) (st : Ode.State2 L.B.N) (a : Ode.Vec L.B.N) : Elim.Mat L.B.N × Elim.Mat L.B.N :=
  (Elim.elim (L.dynamicMatrix A old old' st a) fixed, Elim.elimRest (L.dynamicMatrix A old old' st a) fixed)

end Loaded
end Serac.Solid
