import Verif.Model.SurfaceLoads
/-!
# Quasi-static analyses of solids whose material has internal variables

`/repo/src/serac/physics/solid_mechanics.hpp`: `setMaterial` with a buffer of internal variables (858-865; the functor 795-852 hands the state of the point to the material and
gets it back changed), `advanceTimestep` (1243-1296): after the solve the residual is evaluated once more with `updateQdata(true)` (1279-1288); this evaluation starts from the
internal variables of the previous step, its value is kept as `reactions_`, and what the material left in the state of each point is stored
(`domain_integral_kernels.hpp` 123-150, `Verif.Model.QData`).  Evaluations during the solve do not store (C41).

The nonlinear solver with its warm start is an arbitrary function of the state of the module and the step size that returns the new displacement.  One buffer with one entry
per point of the domain, points numbered as in `Verif.Model.SolidResidual`; no shape displacement, no parameters, `acceleration_` is zero as in a quasi-static analysis.
-/

noncomputable section
namespace Serac.Solid
open Serac.Tensor Serac.Transform Serac.Kernels

/-- A body with its loads and the material at each point: stress and new internal variables, for internal variables and displacement gradient. -/
structure Memory (d : Dim) (St : Type) where
  L : Loaded d
  response : ℕ → St → Mat ℝ d.n d.n → Option (Mat ℝ d.n d.n × St)

namespace Memory
variable {d : Dim} {St : Type} (Y : Memory d St)

/-- The body for given internal variables. -/
def body (st : ℕ → St) : Loaded d :=
  ⟨⟨{ Y.L.B.S with material := fun p H => (Y.response p (st p) H).map Prod.fst }, Y.L.B.forces, Y.L.B.N, Y.L.B.num⟩, Y.L.F, Y.L.loads⟩

/-- The displacement gradient at a point, after `parent_to_physical`. -/
def gradient (u : Ode.Vec Y.L.B.N) (p : ℕ) : Mat ℝ d.n d.n :=
  let S := Y.L.B.S
  let idx := p / S.E.npts
  let Q := p % S.E.npts
  ((parentToPhysicalH1 d (storeJacobian fun _ : Fin 1 => S.jacobian idx Q)
    (fun _ => Setup.interp (d := d) S.E (fun t => gatherE S.E.ndof S.conn (Y.L.B.nodal u) (S.elements.getD idx 0 * (d.n * S.E.ndof) + t)) Q) 0).map Prod.snd).getD fun _ _ => 0

/-- The evaluation with `updateQdata(true)`. -/
def store (st : ℕ → St) (u : Ode.Vec Y.L.B.N) : ℕ → St := fun p => ((Y.response p (st p) (Y.gradient u p)).map Prod.snd).getD (st p)

/-- `time_`, `displacement_`, the buffer and `reactions_`. -/
structure State (Y : Memory d St) where
  time : ℝ
  u : Ode.Vec Y.L.B.N
  mem : ℕ → St
  reactions : Ode.Vec Y.L.B.N

/-- `advanceTimestep(dt)`. -/
def step (solve : Y.State → ℝ → Ode.Vec Y.L.B.N) (x : Y.State) (dt : ℝ) : Y.State :=
  let u := solve x dt
  ⟨x.time + dt, u, Y.store x.mem u, (Y.body x.mem).residual (x.time + dt) u fun _ => 0⟩

def run (solve : Y.State → ℝ → Ode.Vec Y.L.B.N) (x : Y.State) (dts : List ℝ) : Y.State := dts.foldl (Y.step solve) x

end Memory
end Serac.Solid
