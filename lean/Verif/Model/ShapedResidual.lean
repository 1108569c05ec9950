import Verif.Model.SurfaceLoads
/-!
# The assembled residuals with a shape displacement

Both physics modules hold a `ShapeAwareFunctional` (`/repo/src/serac/numerics/functional/shape_aware_functional.hpp`), a functional whose first argument is the shape
displacement, an H1 vector field with its own nodes (258-288).  Domain integrands are wrapped by `ShapeAwareIntegrandWrapper` (336-375) and
`ShapeAwareIntegrandWrapperWithState` (382-438), boundary integrands by `ShapeAwareBoundaryIntegrandWrapper` (473-499).  The wrapped integrands are those of
`Verif.Model.SolidResidual`, `SolidDynamics`, `HeatResidual` and `SurfaceLoads`; here they get the shape displacement, and the functions of the user get positions.

Simplifications as in those files: one geometry, node numbers for gather and scatter, parameters are constants of the functions.  A point without result contributes
nothing.
-/

noncomputable section
namespace Serac.Shaped
open Serac.Tensor Serac.Transform Serac.Kernels Serac.Piola Serac.Solid Serac.Loads

/-- Value and derivative of a position or of a field of vectors at a point. -/
abbrev Point (d : Dim) := Vec ℝ d.n × Mat ℝ d.n d.n

/-- A mesh: elements and nodes of the positions, inside and on the faces. -/
structure Mesh (d : Dim) where
  G : Elem ℝ
  GF : Elem ℝ
  ng : ℕ
  conn : ℕ → ℕ → Fin ng
  connF : ℕ → ℕ → Fin ng
  ne : ℕ
  nf : ℕ

/-- An H1 space of vectors, given by its elements and nodes: the space of the shape displacement. -/
structure Space where
  W : Elem ℝ
  WF : Elem ℝ
  np : ℕ
  conn : ℕ → ℕ → Fin np
  connF : ℕ → ℕ → Fin np

/-- `interpolate` on the block of element `e` (face `e`) of a nodal field. -/
def inside {d : Dim} {n : ℕ} (E : Elem ℝ) (conn : ℕ → ℕ → Fin n) (u : Fin n → Vec ℝ d.n) (e Q : ℕ) : Point d :=
  Setup.interp (d := d) E (fun t => gatherE E.ndof conn u (e * (d.n * E.ndof) + t)) Q
def onFace {d : Dim} {n : ℕ} (E : Elem ℝ) (conn : ℕ → ℕ → Fin n) (u : Fin n → Vec ℝ d.n) (e Q : ℕ) : FacePoint d :=
  Faces.interp d d.n E (fun t => gatherE E.ndof conn u (e * (d.n * E.ndof) + t)) Q

/-- An integrand with a field `u` and its rate, of `c` components. -/
abbrev Integrand (d : Dim) (c : ℕ) := Point d → Vec ℝ c × Mat ℝ c d.n → Vec ℝ c × Mat ℝ c d.n → Option (Vec ℝ c × Mat ℝ c d.n)

/-- One quadrature point of the kernel (domain_integral_kernels.hpp:190-208) with the wrapper (shape_aware_functional.hpp:357-374, 430-436): all arguments, the shape
displacement first, to the physical element, the correction, the integrand at the displaced position, the correction of the result, to the parent element. -/
def shapedPoint {d : Dim} {c : ℕ} (qf : Integrand d c) (X p : Point d) (u a : Vec ℝ c × Mat ℝ c d.n) : Option (Vec ℝ c × Mat ℝ c d.n) :=
  (parentToPhysicalH1 d (storeJacobian fun _ : Fin 1 => X.2) (fun _ => p) 0).bind fun p' =>
    (parentToPhysicalH1 d (storeJacobian fun _ : Fin 1 => X.2) (fun _ => u) 0).bind fun u' =>
      (parentToPhysicalH1 d (storeJacobian fun _ : Fin 1 => X.2) (fun _ => a) 0).bind fun a' =>
        (mkShapeCorrection d p'.2).bind fun s =>
          (qf (shapedPosition d X.1 p'.1 X.2 p'.2) (s.trialH1 u') (s.trialH1 a')).bind fun r =>
            physicalToParentH1 d (storeJacobian fun _ : Fin 1 => X.2) (fun _ => s.testH1 r) 0

/-- A boundary integrand at a point of a face: wrapper and area factor (`Verif.Model.Loads`). -/
def shapedTraction : (d : Dim) → (Vec ℝ d.n → Vec ℝ d.n → ℝ → Vec ℝ d.n) → ℝ → FacePoint d → FacePoint d → Option (Vec ℝ d.n)
  | .two, f, t, X, p => tractionAt2 f t (line X) (line p)
  | .three, f, t, X, p => tractionAt3 f t X p
def shapedPressure : (d : Dim) → Bool → (Vec ℝ d.n → ℝ → ℝ) → ℝ → FacePoint d → FacePoint d → FacePoint d → Option (Vec ℝ d.n)
  | .two, on, f, t, X, p, u => pressureAt2 on f t (line X) (line p) (line u)
  | .three, on, f, t, X, p, u => pressureAt3 on f t X p u
def shapedFlux : (d : Dim) → (Vec ℝ d.n → Vec ℝ d.n → ℝ → ℝ → ℝ) → ℝ → ℝ → FacePoint d → FacePoint d → Option (Vec ℝ 1)
  | .two, f, t, temp, X, p => fluxAt2 f t temp (line X) (line p)
  | .three, f, t, temp, X, p => fluxAt3 f t temp X p
def shapedLoad {d : Dim} (on : Bool) (t : ℝ) (X p u : FacePoint d) : Load d → Option (Vec ℝ d.n)
  | .traction _ f => shapedTraction d f t X p
  | .pressure _ f => shapedPressure d on f t X p u

/-! ## Solids -/

/-- A body force: its domain and the function of position and time (solid_mechanics.hpp:953-992). -/
structure BodyForce (d : Dim) where
  elements : List ℕ
  f : Vec ℝ d.n → ℝ → Vec ℝ d.n

/-- A solid on a mesh, with body forces, tractions and pressures. -/
structure Part (d : Dim) where
  M : Mesh d
  E : Elem ℝ
  EF : Elem ℝ
  nn : ℕ
  conn : ℕ → ℕ → Fin nn
  connF : ℕ → ℕ → Fin nn
  N : ℕ
  num : Fin nn × Fin d.n ≃ Fin N
  elements : List ℕ
  on : GeomNonlin
  density : ℝ
  material : ℕ → Mat ℝ d.n d.n → Option (Mat ℝ d.n d.n)
  forces : List (BodyForce d)
  loads : List (Load d)

namespace Part
variable {d : Dim} (B : Part d)

abbrev Positions := Fin B.M.ng → Vec ℝ d.n

/-- The body without shape displacement on given positions of the nodes of the mesh, as modelled before. -/
def placed (pos : B.Positions) : Loaded d where
  B := { S := { E := B.E, G := B.M.G, nn := B.nn, ng := B.M.ng, conn := B.conn, connG := B.M.conn, pos := pos, ne := B.M.ne, elements := B.elements, on := B.on,
                density := B.density, material := B.material }
         forces := B.forces.map fun f =>
           { elements := f.elements, value := fun t p => f.f (inside B.M.G B.M.conn pos (f.elements.getD (p / B.E.npts) 0) (p % B.E.npts)).1 t }
         N := B.N, num := B.num }
  F := { E := B.EF, G := B.M.GF, conn := B.connF, connG := B.M.connF, ne := B.M.nf }
  loads := B.loads

/-- `MaterialStressFunctor` (solid_mechanics.hpp:833-852) and `BodyForceIntegrand` (953-962) as integrands. -/
def stressQf (p : ℕ) : Integrand d d.n := fun _ u a => stressFunctor d B.on B.density (B.material p) u.2 a.1
def forceQf (f : BodyForce d) (t : ℝ) : Integrand d d.n := fun x _ _ => some (fun i => -1 * f.f x.1 t i, 0)

/-- A domain integrand as the kernel sees it. -/
def pointFn (V : Space) (pos : B.Positions) (p : Fin V.np → Vec ℝ d.n) (elements : List ℕ) (qf : ℕ → Integrand d d.n) (a : Fin B.nn → Vec ℝ d.n) : PointFn ℝ :=
  fun k v g =>
    let e := elements.getD (k / B.E.npts) 0
    let Q := k % B.E.npts
    let r := (shapedPoint (qf k) (inside B.M.G B.M.conn pos e Q) (inside V.W V.conn p e Q) (fun i => v i, fun i j => g i j) (inside B.E B.conn a e Q)).getD (0, 0)
    (flatV r.1, flatM r.2)

/-- A boundary integrand as the kernel sees it. -/
def loadFn (V : Space) (pos : B.Positions) (p : Fin V.np → Vec ℝ d.n) (l : Load d) (t : ℝ) : PointFn ℝ := fun k v g =>
  let e := l.elements.getD (k / B.EF.npts) 0
  let Q := k % B.EF.npts
  (flatV ((shapedLoad B.on t (onFace B.M.GF B.M.connF pos e Q) (onFace V.WF V.connF p e Q) (fun i => v i, fun i j => g i j) l).getD 0), fun _ _ => 0)

/-- `(*residual_)(time, shape_displacement, u, a)`. -/
def residual (V : Space) (pos : B.Positions) (p : Fin V.np → Vec ℝ d.n) (time : ℝ) (u a : Ode.Vec B.N) : Ode.Vec B.N :=
  let vector (r : Fin B.nn → Vec ℝ d.n) : Ode.Vec B.N := fun k => r (B.num.symm k).1 (B.num.symm k).2
  let nodal (x : Ode.Vec B.N) : Fin B.nn → Vec ℝ d.n := fun n i => x (B.num (n, i))
  let U := gatherE B.E.ndof B.conn (nodal u)
  let volume := B.forces.foldl (fun r f => evalKernel B.E B.E d.n d.n false true (B.pointFn V pos p f.elements (fun _ => forceQf f time) (nodal a)) f.elements U r)
    (evalKernel B.E B.E d.n d.n false false (B.pointFn V pos p B.elements B.stressQf (nodal a)) B.elements U fun _ => 0)
  B.loads.foldl (fun r l => r + vector (scatterE B.EF.ndof B.M.nf B.connF
      (evalKernel B.EF B.EF d.n d.n false true (B.loadFn V pos p l time) l.elements (gatherE B.EF.ndof B.connF (nodal u)) fun _ => 0)))
    (vector (scatterE B.E.ndof B.M.ne B.conn volume))

/-- `residual_with_bcs_` of a dynamic problem (solid_mechanics.hpp:1176-1187). -/
def accResidual (V : Space) (pos : B.Positions) (p : Fin V.np → Vec ℝ d.n) (constrained : List (Fin B.N)) (st : Ode.State2 B.N) (a : Ode.Vec B.N) : Ode.Vec B.N := fun k =>
  if k ∈ constrained then 0 else B.residual V pos p st.time (fun m => 1 * st.u m + st.c0 * a m) a k

end Part

/-! ## Heat -/

/-- A source and its domain: a function of position (the tuple of value and derivative), time, temperature and its gradient (heat_transfer.hpp:495-505). -/
structure Source (d : Dim) where
  elements : List ℕ
  f : Point d → ℝ → ℝ → Vec ℝ d.n → ℝ

/-- Heat transfer on a mesh, with sources and fluxes; the material is a function of the position (heat_transfer.hpp:393-402). -/
structure Conductor (d : Dim) where
  M : Mesh d
  E : Elem ℝ
  EF : Elem ℝ
  nn : ℕ
  conn : ℕ → ℕ → Fin nn
  connF : ℕ → ℕ → Fin nn
  elements : List ℕ
  material : ℕ → Point d → Conductors.Material d.n
  sources : List (Source d)
  fluxes : List (Heat.Flux d)

namespace Conductor
variable {d : Dim} (C : Conductor d)

abbrev Positions := Fin C.M.ng → Vec ℝ d.n

/-- Position of point `k` of a domain. -/
def pointOf (pos : C.Positions) (elements : List ℕ) (k : ℕ) : Point d := inside C.M.G C.M.conn pos (elements.getD (k / C.E.npts) 0) (k % C.E.npts)

/-- Without shape displacement on given positions of the nodes of the mesh. -/
def placed (pos : C.Positions) : Heat.Exchange d where
  S := { E := C.E, G := C.M.G, nn := C.nn, ng := C.M.ng, conn := C.conn, connG := C.M.conn, pos := pos, ne := C.M.ne, elements := C.elements
         material := fun k => C.material k (C.pointOf pos C.elements k)
         sources := C.sources.map fun s => { elements := s.elements, value := fun t k => s.f (C.pointOf pos s.elements k) t } }
  F := { E := C.EF, G := C.M.GF, conn := C.connF, connG := C.M.connF, ne := C.M.nf }
  fluxes := C.fluxes

/-- `ThermalMaterialIntegrand` and the q-function of `setSource` as integrands. -/
def scalar (qf : Point d → ℝ → Vec ℝ d.n → ℝ → Option (ℝ × Vec ℝ d.n)) : Integrand d 1 := fun x u a =>
  (qf x (u.1 0) (u.2 0) (a.1 0)).map fun r => (fun _ => r.1, fun _ => r.2)
def materialQf (k : ℕ) : Integrand d 1 := scalar fun x => Heat.thermalIntegrand (C.material k x)
def sourceQf (s : Source d) (t : ℝ) : Integrand d 1 := scalar fun x => Heat.sourceIntegrand (s.f x t)

def pointFn (V : Space) (pos : C.Positions) (p : Fin V.np → Vec ℝ d.n) (elements : List ℕ) (qf : ℕ → Integrand d 1) (a : Fin C.nn → ℝ) : PointFn ℝ := fun k v g =>
  let e := elements.getD (k / C.E.npts) 0
  let Q := k % C.E.npts
  let rate := Heat.Problem.interp (d := d) 1 C.E (fun t => gatherE C.E.ndof C.conn (fun n (_ : Fin 1) => a n) (e * (1 * C.E.ndof) + t)) Q
  let r := (shapedPoint (qf k) (inside C.M.G C.M.conn pos e Q) (inside V.W V.conn p e Q) (fun i => v i, fun i j => g i j) rate).getD (0, 0)
  (flatV r.1, flatM r.2)

def fluxFn (V : Space) (pos : C.Positions) (p : Fin V.np → Vec ℝ d.n) (l : Heat.Flux d) (t : ℝ) : PointFn ℝ := fun k v _ =>
  let e := l.elements.getD (k / C.EF.npts) 0
  let Q := k % C.EF.npts
  (flatV ((shapedFlux d l.f t (v 0) (onFace C.M.GF C.M.connF pos e Q) (onFace V.WF V.connF p e Q)).getD 0), fun _ _ => 0)

/-- `(*residual_)(time, shape_displacement, u, rate)`. -/
def residual (V : Space) (pos : C.Positions) (p : Fin V.np → Vec ℝ d.n) (time : ℝ) (u a : Fin C.nn → ℝ) : Fin C.nn → ℝ :=
  let U := gatherE C.E.ndof C.conn fun n (_ : Fin 1) => u n
  let volume := C.sources.foldl (fun r s => evalKernel C.E C.E 1 1 false true (C.pointFn V pos p s.elements (fun _ => sourceQf s time) a) s.elements U r)
    (evalKernel C.E C.E 1 1 false false (C.pointFn V pos p C.elements C.materialQf a) C.elements U fun _ => 0)
  C.fluxes.foldl (fun r l => r + fun n => scatterE (c := 1) C.EF.ndof C.M.nf C.connF
      (evalKernel C.EF C.EF 1 1 false true (C.fluxFn V pos p l time) l.elements (gatherE C.EF.ndof C.connF fun n (_ : Fin 1) => u n) fun _ => 0) n 0)
    fun n => scatterE (c := 1) C.E.ndof C.M.ne C.conn volume n 0

/-- `residual_with_bcs_` of a transient problem (heat_transfer.hpp:733-742). -/
def rateResidual (V : Space) (pos : C.Positions) (p : Fin V.np → Vec ℝ d.n) (constrained : List (Fin C.nn)) (st : Ode.State1 C.nn) (k : Fin C.nn → ℝ) : Fin C.nn → ℝ := fun n =>
  if n ∈ constrained then 0 else C.residual V pos p st.time (fun m => 1 * st.u m + st.dt * k m) k n

end Conductor
end Serac.Shaped
