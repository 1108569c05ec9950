import Verif.Model.SolidDynamics
import Verif.Model.HeatResidual
import Verif.Model.Loads
/-!
# Loads on the boundary in the assembled residuals

`SolidMechanics::setTraction`, `setPressure` (`/repo/src/serac/physics/solid_mechanics.hpp` 1022-1102) and `HeatTransfer::setFluxBCs`
(`/repo/src/serac/physics/heat_transfer.hpp` 537-553) add boundary integrals.  Evaluating one of them (`functional.hpp` 455-475) gathers the nodal values of the
faces, runs the boundary kernel (`boundary_integral_kernels.hpp` 163-210: `interpolate`, q-function times the area factor of 114-160, `integrate` without flux)
with positions and derivatives of `geometric_factors.cpp` 18-60 and adds the vector of the faces, which starts from zero (`integral.hpp` 68), to the nodes.

The integrands at one point are those of `Verif.Model.Loads`.  Simplifications as in `SolidResidual`: one geometry for all faces, no shape displacement, parameters
are constants of the user's functions.  A degenerate face (a division by zero in the code) contributes nothing here; the theorems exclude it.
-/

noncomputable section
namespace Serac.Loads
open Serac.Tensor Serac.Transform

/-- heat_transfer.hpp:546-549 in two dimensions. -/
def flux2 (f : Vec ℝ 2 → Vec ℝ 2 → ℝ → ℝ → ℝ) (t temp : ℝ) (X : Face2) : Option (Vec ℝ 1) :=
  (divN (crossFace2 X.2) (Transform.norm (crossFace2 X.2))).map fun n => fun _ => f X.1 n t temp
def fluxAt2 (f : Vec ℝ 2 → Vec ℝ 2 → ℝ → ℝ → ℝ) (t temp : ℝ) (X p : Face2) : Option (Vec ℝ 1) := weigh2 (shaped2 (flux2 f t temp) p) X

/-- Coordinates of a face. -/
@[reducible] def faceDim : Dim → ℕ
  | .two => 1
  | .three => 2

/-- Value and derivative of a field at a point of a face. -/
abbrev FacePoint (d : Dim) := Vec ℝ d.n × Mat ℝ d.n (faceDim d)

/-- In two dimensions the derivative is passed as a vector (boundary_integral_kernels.hpp:124-130). -/
def line (X : FacePoint .two) : Face2 := (X.1, fun i => X.2 i 0)

def tractionAt : (d : Dim) → (Vec ℝ d.n → Vec ℝ d.n → ℝ → Vec ℝ d.n) → ℝ → FacePoint d → Option (Vec ℝ d.n)
  | .two, f, t, X => tractionAt2 f t (line X) (0, 0)
  | .three, f, t, X => tractionAt3 f t X (0, 0)

def pressureAt : (d : Dim) → Bool → (Vec ℝ d.n → ℝ → ℝ) → ℝ → FacePoint d → FacePoint d → Option (Vec ℝ d.n)
  | .two, on, f, t, X, u => pressureAt2 on f t (line X) (0, 0) (line u)
  | .three, on, f, t, X, u => pressureAt3 on f t X (0, 0) u

def fluxAt : (d : Dim) → (Vec ℝ d.n → Vec ℝ d.n → ℝ → ℝ → ℝ) → ℝ → ℝ → FacePoint d → Option (Vec ℝ 1)
  | .two, f, t, temp, X => fluxAt2 f t temp (line X) (0, 0)
  | .three, f, t, temp, X => fluxAt3 f t temp X (0, 0)

end Serac.Loads

namespace Serac.Solid
open Serac.Tensor Serac.Transform Serac.Kernels Serac.Loads

/-- The faces of the boundary: the element of the fields, that of the positions, and the nodes of every face. -/
structure Faces (nn ng : ℕ) where
  E : Elem ℝ
  G : Elem ℝ
  conn : ℕ → ℕ → Fin nn
  connG : ℕ → ℕ → Fin ng
  ne : ℕ

/-- A traction or pressure and its domain, a list of faces. -/
inductive Load (d : Dim)
  | traction (elements : List ℕ) (f : Vec ℝ d.n → Vec ℝ d.n → ℝ → Vec ℝ d.n)
  | pressure (elements : List ℕ) (f : Vec ℝ d.n → ℝ → ℝ)

def Load.elements {d : Dim} : Load d → List ℕ
  | .traction l _ => l
  | .pressure l _ => l

/-- The q-function of a load with the area factor. -/
def Load.at {d : Dim} (on : Bool) (t : ℝ) (X u : FacePoint d) : Load d → Option (Vec ℝ d.n)
  | .traction _ f => tractionAt d f t X
  | .pressure _ f => pressureAt d on f t X u

namespace Faces
variable {nn ng : ℕ} (F : Faces nn ng)

/-- `interpolate` on the block of a face. -/
def interp (d : Dim) (c : ℕ) (E : Elem ℝ) (X : ℕ → ℝ) (Q : ℕ) : Vec ℝ c × Mat ℝ c (faceDim d) :=
  (fun i => (interpolate E X).value Q i, fun i j => (interpolate E X).grad Q i j)

/-- Position and derivative of the position (geometric_factors.cpp:38-57); `idx` counts the faces of the domain. -/
def geometry {d : Dim} (pos : Fin ng → Vec ℝ d.n) (elements : List ℕ) (idx Q : ℕ) : FacePoint d :=
  interp d d.n F.G (fun t => gatherE F.G.ndof F.connG pos (elements.getD idx 0 * (d.n * F.G.ndof) + t)) Q

/-- One boundary integral with `c` components: the vector added to the nodes. -/
def integrate (c : ℕ) (fn : PointFn ℝ) (elements : List ℕ) (u : Fin nn → Vec ℝ c) : Fin nn → Vec ℝ c :=
  scatterE F.E.ndof F.ne F.conn (evalKernel F.E F.E c c false true fn elements (gatherE F.E.ndof F.conn u) fun _ => 0)

end Faces

/-- A body with loads on its boundary. -/
structure Loaded (d : Dim) where
  B : Body d
  F : Faces B.S.nn B.S.ng
  loads : List (Load d)

namespace Loaded
variable {d : Dim} (L : Loaded d)

/-- A load as the kernel sees it. -/
def loadFn (l : Load d) (t : ℝ) : PointFn ℝ := fun p v g =>
  let X := L.F.geometry L.B.S.pos l.elements (p / L.F.E.npts) (p % L.F.E.npts)
  (flatV ((l.at L.B.S.on t X (fun i => v i, fun i j => g i j)).getD 0), fun _ _ => 0)

/-- `(*residual_)(time, shape, u, a)` with the boundary integrals. -/
def residual (time : ℝ) (u a : Ode.Vec L.B.N) : Ode.Vec L.B.N :=
  L.loads.foldl (fun r l => r + L.B.vector (L.F.integrate d.n (L.loadFn l time) l.elements (L.B.nodal u))) (L.B.residual time u a)

/-- `residual_with_bcs_` of a dynamic problem (solid_mechanics.hpp:1176-1187) and of a quasi-static one (1120-1131). -/
def accResidual (constrained : List (Fin L.B.N)) (st : Ode.State2 L.B.N) (a : Ode.Vec L.B.N) : Ode.Vec L.B.N := fun k =>
  if k ∈ constrained then 0 else L.residual st.time (fun m => 1 * st.u m + st.c0 * a m) a k
def staticResidual (constrained : List (Fin L.B.N)) (time : ℝ) (acceleration u : Ode.Vec L.B.N) : Ode.Vec L.B.N := fun k =>
  if k ∈ constrained then 0 else L.residual time u acceleration k

end Loaded
end Serac.Solid

namespace Serac.Heat
open Serac.Tensor Serac.Transform Serac.Kernels Serac.Solid Serac.Loads

/-- A heat flux through the boundary and its domain. -/
structure Flux (d : Dim) where
  elements : List ℕ
  f : Vec ℝ d.n → Vec ℝ d.n → ℝ → ℝ → ℝ

/-- A heat transfer problem with fluxes through its boundary. -/
structure Exchange (d : Dim) where
  S : Problem d
  F : Faces S.nn S.ng
  fluxes : List (Flux d)

namespace Exchange
variable {d : Dim} (X : Exchange d)

/-- A flux as the kernel sees it: the temperature at the point is the value of the field. -/
def fluxFn (l : Flux d) (t : ℝ) : PointFn ℝ := fun p v _ =>
  (flatV ((fluxAt d l.f t (v 0) (X.F.geometry X.S.pos l.elements (p / X.F.E.npts) (p % X.F.E.npts))).getD 0), fun _ _ => 0)

/-- `(*residual_)(time, shape, u, rate)` with the boundary integrals. -/
def residual (time : ℝ) (u a : X.S.Nodal) : X.S.Nodal :=
  X.fluxes.foldl (fun r l => r + fun n => X.F.integrate 1 (X.fluxFn l time) l.elements (X.S.field u) n 0) (X.S.residual time u a)

/-- `residual_with_bcs_` of a transient problem (heat_transfer.hpp:733-742). -/
def rateResidual (constrained : List (Fin X.S.nn)) (st : Ode.State1 X.S.nn) (k : X.S.Nodal) : X.S.Nodal := fun n =>
  if n ∈ constrained then 0 else X.residual st.time (fun m => 1 * st.u m + st.dt * k m) k n

end Exchange
end Serac.Heat
