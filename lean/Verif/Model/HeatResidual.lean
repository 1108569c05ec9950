import Verif.Model.SolidResidual
import Verif.Model.Conductors
import Verif.Model.Ode
/-!
# The residual of heat transfer, assembled, and its time steps

`HeatTransfer` adds `ThermalMaterialIntegrand` (`/repo/src/serac/physics/heat_transfer.hpp` 381-406) as a domain integral over the mesh (431-436) and every source as
a domain integral over its domain (487-507).  The residual is evaluated as in `Verif.Model.SolidResidual`: gather, `evaluation_kernel_impl`
(`domain_integral_kernels.hpp` 153-213), transformations, scatter.  A transient step solves `residual_with_bcs_` (heat_transfer.hpp:730-742) for the rate through
`FirstOrderODE` (`Verif.Model.Ode`).

Simplifications as in `SolidResidual`: gather and scatter with node numbers, one geometry, no shape displacement, parameters are constants of the functions at a
point.  A point without result (degenerate Jacobian, stop in the material) contributes nothing here; the theorems exclude it.  Fluxes through the boundary are not
included (C65).
-/

noncomputable section
namespace Serac.Heat
open Serac.Tensor Serac.Transform Serac.Kernels Serac.Solid

/-- `ThermalMaterialIntegrand::operator()` (heat_transfer.hpp:393-402). -/
def thermalIntegrand {n : ℕ} (m : Conductors.Material n) (u : ℝ) (du_dX : Vec ℝ n) (du_dt : ℝ) : Option (ℝ × Vec ℝ n) :=
  (m.flux u du_dX).map fun heat_flux => (m.capacity * du_dt, fun i => -1 * heat_flux i)

/-- The q-function of `setSource` (heat_transfer.hpp:495-505); the flux is `zero`. -/
def sourceIntegrand {n : ℕ} (source : ℝ → Vec ℝ n → ℝ) (u : ℝ) (du_dX : Vec ℝ n) (_du_dt : ℝ) : Option (ℝ × Vec ℝ n) :=
  some (-1 * source u du_dX, 0)

/-- One quadrature point of the kernel (domain_integral_kernels.hpp:190-208) for a scalar field. -/
def heatPoint (d : Dim) (qf : ℝ → Vec ℝ d.n → ℝ → Option (ℝ × Vec ℝ d.n)) (J : Mat ℝ d.n d.n) (u a : Vec ℝ 1 × Mat ℝ 1 d.n) :
    Option (Vec ℝ 1 × Mat ℝ 1 d.n) :=
  (parentToPhysicalH1 d (storeJacobian fun _ : Fin 1 => J) (fun _ => u) 0).bind fun u' =>
    (parentToPhysicalH1 d (storeJacobian fun _ : Fin 1 => J) (fun _ => a) 0).bind fun a' =>
      (qf (u'.1 0) (u'.2 0) (a'.1 0)).bind fun r =>
        physicalToParentH1 d (storeJacobian fun _ : Fin 1 => J) (fun _ => (fun _ => r.1, fun _ => r.2)) 0

/-- A source: its domain and its value at a time and point, for temperature and gradient. -/
structure Source (d : Dim) where
  elements : List ℕ
  value : ℝ → ℕ → ℝ → Vec ℝ d.n → ℝ

/-- A mesh of one geometry with nodal positions (element `G`), a scalar H1 space on it (element `E`), the material at each quadrature point and the sources. -/
structure Problem (d : Dim) where
  E : Elem ℝ
  G : Elem ℝ
  nn : ℕ
  ng : ℕ
  conn : ℕ → ℕ → Fin nn
  connG : ℕ → ℕ → Fin ng
  pos : Fin ng → Vec ℝ d.n
  ne : ℕ
  elements : List ℕ
  material : ℕ → Conductors.Material d.n
  sources : List (Source d)

namespace Problem
variable {d : Dim} (S : Problem d)

abbrev Nodal := Fin S.nn → ℝ

/-- The field as a vector field with one component. -/
def field (u : S.Nodal) : Fin S.nn → Vec ℝ 1 := fun n _ => u n

/-- `interpolate` on an element's block of a field with `c` components. -/
def interp (c : ℕ) (E : Elem ℝ) (X : ℕ → ℝ) (Q : ℕ) : Vec ℝ c × Mat ℝ c d.n :=
  (fun i => (interpolate E X).value Q i, fun i j => (interpolate E X).grad Q i j)

/-- `J_q[e]` (geometric_factors.cpp:38-57): `e` counts the elements of the domain. -/
def jacobian (elements : List ℕ) (idx Q : ℕ) : Mat ℝ d.n d.n :=
  (interp (d := d) d.n S.G (fun t => gatherE S.G.ndof S.connG S.pos (elements.getD idx 0 * (d.n * S.G.ndof) + t)) Q).2

/-- A q-function as the kernel sees it, for given rates. -/
def pointFn (elements : List ℕ) (qf : ℕ → ℝ → Vec ℝ d.n → ℝ → Option (ℝ × Vec ℝ d.n)) (a : S.Nodal) : PointFn ℝ := fun p v g =>
  let idx := p / S.E.npts
  let Q := p % S.E.npts
  let rate := interp (d := d) 1 S.E (fun t => gatherE S.E.ndof S.conn (S.field a) (elements.getD idx 0 * (1 * S.E.ndof) + t)) Q
  let r := (heatPoint d (qf p) (S.jacobian elements idx Q) (fun i => v i, fun i j => g i j) rate).getD (0, 0)
  (flatV r.1, flatM r.2)

/-- One domain integral, added to the element vector `r`; `zf` says whether the flux is `zero`. -/
def addIntegral (zf : Bool) (elements : List ℕ) (qf : ℕ → ℝ → Vec ℝ d.n → ℝ → Option (ℝ × Vec ℝ d.n)) (u a : S.Nodal) (r : ℕ → ℝ) : ℕ → ℝ :=
  evalKernel S.E S.E 1 1 false zf (S.pointFn elements qf a) elements (gatherE S.E.ndof S.conn (S.field u)) r

/-- `(*residual_)(time, shape, u, rate)`: the integrals in the order of their calls, material first. -/
def residual (time : ℝ) (u a : S.Nodal) : S.Nodal := fun n =>
  scatterE (c := 1) S.E.ndof S.ne S.conn
    (S.sources.foldl (fun r src => S.addIntegral true src.elements (fun p => sourceIntegrand (src.value time p)) u a r)
      (S.addIntegral false S.elements (fun p => thermalIntegrand (S.material p)) u a fun _ => 0)) n 0

/-- `residual_with_bcs_` of a transient problem (heat_transfer.hpp:733-742): a function of the rate. -/
def rateResidual (constrained : List (Fin S.nn)) (st : Ode.State1 S.nn) (k : S.Nodal) : S.Nodal := fun n =>
  if n ∈ constrained then 0 else S.residual st.time (fun m => 1 * st.u m + st.dt * k m) k n

/-- `residual_with_bcs_` of a quasi-static problem (heat_transfer.hpp:711-721), `rate` is `temperature_rate_`. -/
def staticResidual (constrained : List (Fin S.nn)) (time : ℝ) (rate u : S.Nodal) : S.Nodal := fun n =>
  if n ∈ constrained then 0 else S.residual time u rate n

end Problem
end Serac.Heat
