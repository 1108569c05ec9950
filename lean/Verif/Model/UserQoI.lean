import Verif.Model.UserAssemble
import Verif.Model.QoI
/-!
# Quantities of interest of user-written integrands

`/repo/src/serac/numerics/functional/functional_qoi.inl` 156-236 (`AddDomainIntegral`, `AddBoundaryIntegral`) make integrals (`integral.hpp` 186-225, `generate_kernels`) whose
test space is `QOI`: one component, one shape function.  The loops over elements are those of `Verif.Model.QoI`; this file gives the bodies of these loops,
`domain_integral_kernels.hpp` 152-220 (evaluation), 277-304 (action), 327-361 (rows) and the same of `boundary_integral_kernels.hpp`, for the user's function.  The material
state `q` is constant.
-/

noncomputable section
namespace Serac.UserQoI
open Serac.Kernels Serac.UserFn Serac.UserAsm

variable {Tm Q : Type}

/-- The body of a kernel's loop: the `i`-th element of its list, with pointers to the blocks of the element. -/
def single {A : ℕ} (k : Kernel Tm Q A) (i : ℕ) : Kernel Tm Q A :=
  { k with elements := [0], point := fun w t q p u => k.point w t q (i * k.test.npts + p) u }

/-- The arguments' values on an element. -/
def argsOf {A : ℕ} (xs : List (ℕ → ℝ)) : Fin A → ℕ → ℝ := fun a => xs.getD a.1 fun _ => 0

/-- An integral of a user-written integrand as a part of a quantity of interest. -/
def toQoI (q : Q) (I : UserIntegral Tm Q) : QoI.Integral Tm (Buffer ℝ) where
  boundary := I.boundary
  active := I.active
  geoms := I.geoms
  elements g := match I.kernels g with
    | none => []
    | some k => k.elements
  value g i t xs := match I.kernels g with
    | none => 0
    | some k => (single k i).run none t q (argsOf xs) (fun _ => 0) 0
  derivative j g i t xs := match I.kernels g with
    | none => fun _ => AutoDiff.noDerivs
    | some k => if h : j < I.active.length then (single k i).store ⟨j, h⟩ t q (argsOf xs) fun _ => AutoDiff.noDerivs else fun _ => AutoDiff.noDerivs
  jvp j g D dx := match I.kernels g with
    | none => 0
    | some k => if h : j < I.active.length then
        actionKernel k.test (k.trial ⟨j, h⟩) k.c (k.m ⟨j, h⟩) (k.shape ⟨j, h⟩) D [0] dx (fun _ => 0) 0 else 0
  row j g D s := match I.kernels g with
    | none => 0
    | some k => if h : j < I.active.length then
        gradientKernel k.test (k.trial ⟨j, h⟩) k.c (k.m ⟨j, h⟩) (k.shape ⟨j, h⟩) D [0] (fun _ => 0) (s * (k.c * k.test.ndof)) else 0

end Serac.UserQoI
