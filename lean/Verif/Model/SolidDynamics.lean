import Verif.Model.SolidResidual
import Verif.Model.Ode
/-!
# Solid dynamics: the residual of the acceleration

`SolidMechanics` with inertia (`/repo/src/serac/physics/solid_mechanics.hpp`): body forces are domain integrals with source `-1.0 * body_force` and flux `zero`
(938-992), the operator handed to the solver is a function of the acceleration (1170-1187), `SecondOrderODE` (`Verif.Model.Ode`) does the steps (1265).

The true dofs of the displacement are numbered in any way (`num`).  Simplifications as in `Verif.Model.SolidResidual`; tractions, pressure and contact are not
included (C65, C61).  A quadrature point without result contributes nothing here; the theorems exclude it.
-/

noncomputable section
namespace Serac.Solid
open Serac.Tensor Serac.Transform Serac.Kernels

/-- A body force: its domain and its value at a time and quadrature point (the position is a function of the point). -/
structure Force (d : Dim) where
  elements : List ℕ
  value : ℝ → ℕ → Vec ℝ d.n

/-- A solid with body forces and a numbering of its true dofs. -/
structure Body (d : Dim) where
  S : Setup d
  forces : List (Force d)
  N : ℕ
  num : Fin S.nn × Fin d.n ≃ Fin N

namespace Body
variable {d : Dim} (B : Body d)

/-- Forces use the elements of their own domain. -/
def over (elements : List ℕ) : Setup d := { B.S with elements }

/-- `BodyForceIntegrand::operator()` (solid_mechanics.hpp:953-962) followed by `physical_to_parent` for H1 (finite_element.hpp:288-306), which scales the source with
the determinant of the stored transpose; the flux is `zero`. -/
def forceFn (f : Force d) (t : ℝ) : PointFn ℝ := fun p _ _ =>
  (flatV fun i => det d (transpose ((B.over f.elements).jacobian (p / B.S.E.npts) (p % B.S.E.npts))) * (-1 * f.value t p i), fun _ _ => 0)

/-- A vector of true dofs as a nodal field and back. -/
def nodal (x : Ode.Vec B.N) : B.S.Nodal := fun n i => x (B.num (n, i))
def vector (r : B.S.Nodal) : Ode.Vec B.N := fun k => r (B.num.symm k).1 (B.num.symm k).2

/-- `(*residual_)(time, shape, u, a)`: the integrals in the order of their calls, material first. -/
def residual (time : ℝ) (u a : Ode.Vec B.N) : Ode.Vec B.N :=
  B.vector (scatterE B.S.E.ndof B.S.ne B.S.conn
    (B.forces.foldl (fun r f => evalKernel B.S.E B.S.E d.n d.n false true (B.forceFn f time) f.elements (gatherE B.S.E.ndof B.S.conn (B.nodal u)) r)
      (evalKernel B.S.E B.S.E d.n d.n false false (B.S.pointFn (B.nodal a)) B.S.elements (gatherE B.S.E.ndof B.S.conn (B.nodal u)) fun _ => 0)))

/-- `residual_with_bcs_` of a dynamic problem (solid_mechanics.hpp:1176-1187): a function of the acceleration. -/
def accResidual (constrained : List (Fin B.N)) (st : Ode.State2 B.N) (a : Ode.Vec B.N) : Ode.Vec B.N := fun k =>
  if k ∈ constrained then 0 else B.residual st.time (fun m => 1 * st.u m + st.c0 * a m) a k

end Body
end Serac.Solid
