import Verif.Model.SolidTangent
import Verif.Model.StaticAdjoint
/-!
# Materials with a parameter field, and the derivative of the residual with respect to it

`SolidMechanics` hands the values of its parameter fields at a quadrature point to the material (`/repo/src/serac/physics/solid_mechanics.hpp` 783-802 and 833-852, where
`params...` are pairs of value and gradient; the materials of `parameterized_solid_material.hpp` use the values, `get<0>`).  `computeTimestepSensitivity` (1407-1417) evaluates
the residual with `differentiate_wrt` on the parameter (`d_residual_d_`, 1610-1617), which stores the derivatives of the q-function
(`domain_integral_kernels.hpp` 190-203), assembles the gradient from rectangular element matrices (`functional.hpp` 655-735) and multiplies its transpose with the adjoint.

Simplifications: as in `Verif.Model.SolidResidual`; one scalar parameter field is modelled, further fields are constants of the law at the point; only the material integral
depends on parameters (`addCustomDomainIntegral` and parameter dependent loads are not modelled).  The derivatives that dual numbers carry through the functor and the
material are the parameters `A` and `B`; the theorems say when they are the true ones.
-/

noncomputable section
namespace Serac.Solid
open Serac.Tensor Serac.Transform Serac.Kernels Serac.Piola Serac.Loads

/-- A loaded body whose material depends on the value of a scalar field with element `E` and `nn` nodes; the material of `L` is not used. -/
structure Variant (d : Dim) where
  L : Loaded d
  E : Elem ℝ
  nn : ℕ
  conn : ℕ → ℕ → Fin nn
  law : ℕ → ℝ → Mat ℝ d.n d.n → Option (Mat ℝ d.n d.n)

/-- `B p θ H i m`: the derivative of component `(i, m)` of the flux at point `p`, parameter value `θ` and displacement gradient `H` with respect to the parameter. -/
abbrev Slopes (d : Dim) := ℕ → ℝ → Mat ℝ d.n d.n → Fin d.n → Fin d.n → ℝ

/-- With a dual parameter only the flux is dual, and only through the value. -/
def paramShape : Shape := ⟨true, true, false, true⟩

/-- The entries of a matrix of rectangular element matrices that belong to a test dof and a node of a scalar trial space (`functional.hpp` 700-729). -/
def assembleP {nn nn' c : ℕ} (ndof ndof' ne : ℕ) (conn : ℕ → ℕ → Fin nn) (conn' : ℕ → ℕ → Fin nn') (dK : ℕ → ℝ) (r : Fin nn × Fin c) (q : Fin nn') : ℝ :=
  ∑ e ∈ Finset.range ne, ∑ a ∈ Finset.range ndof, ∑ b ∈ Finset.range ndof',
    if conn e a = r.1 ∧ conn' e b = q then dK ((e * (1 * ndof') + b) * (c * ndof) + (r.2 * ndof + a)) else 0

namespace Variant
variable {d : Dim} (V : Variant d)

/-- The parameter as a nodal field with one component. -/
def field (q : Ode.Vec V.nn) : Fin V.nn → Vec ℝ 1 := fun n _ => q n

/-- The value of the parameter at a point of the domain. -/
def value (q : Ode.Vec V.nn) (p : ℕ) : ℝ :=
  (interpolate V.E fun t => gatherE V.E.ndof V.conn (V.field q) (V.L.B.S.elements.getD (p / V.L.B.S.E.npts) 0 * (1 * V.E.ndof) + t)).value (p % V.L.B.S.E.npts) 0

/-- The body for given parameters. -/
def setup (q : Ode.Vec V.nn) : Setup d := { V.L.B.S with material := fun p => V.law p (V.value q p) }
def body (q : Ode.Vec V.nn) : Loaded d := ⟨⟨V.setup q, V.L.B.forces, V.L.B.N, V.L.B.num⟩, V.L.F, V.L.loads⟩

/-- `(*residual_)(time, shape, u, a, parameter)` -/
def residual (t : ℝ) (u : Ode.Vec V.L.B.N) (a : Ode.Vec V.L.B.N) (q : Ode.Vec V.nn) : Ode.Vec V.L.B.N := (V.body q).residual t u a

/-- Derivatives with respect to a dual parameter: the displacement gradient at the point is not dual, the derivative of the flux goes through `physical_to_parent`
(finite_element.hpp:300-305). -/
def paramGrad (B : Slopes d) (u : V.L.B.S.Nodal) : ℕ → (ℕ → ℝ) → (ℕ → ℕ → ℝ) → Deriv ℝ := fun p v _ =>
  let S := V.L.B.S
  let J := S.jacobian (p / S.E.npts) (p % S.E.npts)
  let Ji := (inv d J).getD 0
  let JTi := (inv d (transpose J)).getD 0
  let g := (Setup.interp (d := d) S.E (fun t => gatherE S.E.ndof S.conn u (S.elements.getD (p / S.E.npts) 0 * (d.n * S.E.ndof) + t)) (p % S.E.npts)).2
  let H := dot g Ji
  ⟨fun _ _ => 0, fun _ _ _ => 0, flat3 fun i l (_ : Fin 1) => (∑ m, B p (v 0) H i m * JTi m l) * det d (transpose J), fun _ _ _ _ => 0⟩

def paramBuffer (B : Slopes d) (old : Buffer ℝ) (u : V.L.B.S.Nodal) (q : Ode.Vec V.nn) : Buffer ℝ :=
  evalDerivs V.L.B.S.E.npts V.E 1 (V.paramGrad B u) V.L.B.S.elements (gatherE V.E.ndof V.conn (V.field q)) old

/-- `assemble(drdparam)` -/
def paramMatrix (B : Slopes d) (old : Buffer ℝ) (u : Ode.Vec V.L.B.N) (q : Ode.Vec V.nn) : Fin V.L.B.N → Fin V.nn → ℝ := fun k n =>
  assembleP V.L.B.S.E.ndof V.E.ndof V.L.B.S.ne V.L.B.S.conn V.conn
    (gradientKernel V.L.B.S.E V.E d.n 1 paramShape (V.paramBuffer B old (V.L.B.nodal u) q) V.L.B.S.elements fun _ => 0) (V.L.B.num.symm k) n

/-- The stiffness for given parameters. -/
def stiffMatrix (A : ℕ → ℝ → Mat ℝ d.n d.n → Fin d.n → Fin d.n → Fin d.n → Fin d.n → ℝ) (old : Buffer ℝ) (t : ℝ) (u : Ode.Vec V.L.B.N) (q : Ode.Vec V.nn) : Elim.Mat V.L.B.N :=
  (V.body q).stiffMatrix (fun p H => A p (V.value q p) H) old t u

/-- The quasi-static analysis and its sensitivities (`Verif.Model.StaticAdjoint`) with the assembled operators; `solve` is the warm start and nonlinear solve, `linear` the
linear solver. -/
def analysis (A : ℕ → ℝ → Mat ℝ d.n d.n → Fin d.n → Fin d.n → Fin d.n → Fin d.n → ℝ) (B : Slopes d) (old old' : Buffer ℝ) (a : Ode.Vec V.L.B.N) (conds : List (List (Fin V.L.B.N)))
    (solve : ℝ → Ode.Vec V.nn → Ode.Vec V.L.B.N → Ode.Vec V.L.B.N) (linear : Elim.Mat V.L.B.N → Ode.Vec V.L.B.N → Ode.Vec V.L.B.N) : StaticAdj.Problem V.L.B.N V.nn where
  conds := conds
  residual t u q := V.residual t u a q
  K t u q := V.stiffMatrix A old t u q
  P _ u q := V.paramMatrix B old' u q
  solve := solve
  linear := linear

end Variant
end Serac.Solid
