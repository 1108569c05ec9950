import Verif.Model.CoupledResidual
import Verif.Props.C54
import Verif.Props.C75
/-!
# C89: coupled thermomechanical analyses

Spec.  A user who couples the two physics modules expects: the mechanical module sees the temperature the thermal module has just found, and each of the two solves the balance
law of its own field.  For the materials of the library this means the following.  Deformation has no influence on conduction: the thermal residual is that of the rigid
conductor (`C89_conduction`), so a run is a thermal analysis followed by a mechanical one that is given its temperatures (`C89_staggered`), and the heat in the body changes by
what is supplied and what leaves (`C89_heat`).  Thermal stresses are forces like any other: they are in balance (`C89_balance`), they are the derivatives of the free energy
(`C89_energy`), they do not depend on the history (`C89_history`); the variable that is stored is the trace of the strain (`C89_store`).  A free body expands without stress
(`C89_free`, `C89_expansion`), a body that may not expand presses on its boundary (`C89_clamped`), and at the reference temperature there is no thermal stress
(`C89_reference`).

Heat produced or consumed by deformation (the third result of the material) is not among the effects: the adaptor of the thermal module drops it, and `C89_staggered` says so.
-/

noncomputable section
namespace Serac.C89
open Serac.Tensor Serac.Transform Serac.Kernels Serac.Solid Serac.Heat Serac.Thermo Serac.Coupled Serac.Ode Finset
open Serac.C71 (M Shapes mem_zipIdx_fst getD_zipIdx)
open scoped Matrix

variable (C : Module) (s : Shapes)

/-! ## Spec -/

/-- The elements of the heat sources exist and are not degenerate. -/
def Sources : Prop := ∀ src ∈ C.sources, ∀ e ∈ src.elements, e < C.B.S.ne ∧ ∀ Q < C.B.S.E.npts, (C71.jac C.B.S s e Q).det ≠ 0

/-- The deformation gradient is invertible at every point. -/
def Regular (u : Ode.Vec C.B.N) : Prop := ∀ e ∈ C.B.S.elements, ∀ Q < C.B.S.E.npts, (1 + C71.grad C.B.S s (C.B.nodal u) e Q).det ≠ 0

/-- The rigid heat conductor with the capacity and the conductivity of the material. -/
def rigid : Exchange .three := C.conduction fun _ => ⟨C.m.Cv, fun _ g => some fun i => -C.m.k * g i⟩

/-- Temperature at a point, and its gradient. -/
def theta (T : Ode.Vec C.B.S.nn) (e Q : ℕ) : ℝ := ∑ a ∈ range C.B.S.E.ndof, T (C.B.S.conn e a) * s.phi Q a

variable {C s}

/-! ## What the adaptors get -/

theorem at_div {n p Q : ℕ} (h : Q < n) : (p * n + Q) / n = p ∧ (p * n + Q) % n = Q :=
  ⟨by rw [Nat.mul_comm, Nat.mul_add_div (by omega), Nat.div_eq_of_lt h, Nat.add_zero], by rw [Nat.mul_comm, Nat.mul_add_mod, Nat.mod_eq_of_lt h]⟩

theorem gradient_eq (hm : C71.Meaning C.B.S s) (hn : C71.Nondegenerate C.B.S s) (u : Ode.Vec C.B.N) {ee : ℕ × ℕ} (h : ee ∈ C.B.S.elements.zipIdx) {Q : ℕ}
    (hQ : Q < C.B.S.E.npts) : C.gradient u (ee.2 * C.B.S.E.npts + Q) = C71.grad C.B.S s (C.B.nodal u) ee.1 Q := by
  obtain ⟨h1, h2⟩ := at_div (p := ee.2) hQ
  have hJ := hn ee.1 (mem_zipIdx_fst h) Q hQ
  unfold Module.gradient
  dsimp only
  rw [h1, h2, getD_zipIdx h, C71.jacobian_eq hm h]
  have h3 := C71.interp_eq (d := .three) hm.trial C.B.S.conn (C.B.nodal u) ee.1 Q
  unfold parentToPhysicalH1
  simp only [loadJ_store]
  rw [Transform.inv_eq .three _ hJ]
  simp only [Option.map_some, Option.getD_some, Tensor.dot_eq]
  change (Setup.interp (d := .three) C.B.S.E (fun t => gatherE C.B.S.E.ndof C.B.S.conn (C.B.nodal u) (ee.1 * (Dim.three.n * C.B.S.E.ndof) + t)) Q).2 * _ = _
  rw [h3]
  rfl

theorem temperature_eq (hm : C71.Meaning C.B.S s) (hn : C71.Nondegenerate C.B.S s) (T : Ode.Vec C.B.S.nn) {ee : ℕ × ℕ} (h : ee ∈ C.B.S.elements.zipIdx) {Q : ℕ}
    (hQ : Q < C.B.S.E.npts) : (C.temperature T (ee.2 * C.B.S.E.npts + Q)).1 = theta C s T ee.1 Q := by
  obtain ⟨h1, h2⟩ := at_div (p := ee.2) hQ
  have hJ := hn ee.1 (mem_zipIdx_fst h) Q hQ
  unfold Module.temperature
  dsimp only
  rw [h1, h2, getD_zipIdx h, C71.jacobian_eq hm h, C72.interp_eq hm.trial]
  unfold parentToPhysicalH1
  simp only [loadJ_store]
  rw [Transform.inv_eq .three _ hJ]
  rfl

/-- The members of the material at a point. -/
def point (C : Module) (p : ℕ) : Material := { C.m with alpha := C.m.alpha * C.scale p }

theorem conductor_flux {m : Material} (hmod : Moduli m) (scale : ℝ) {H : M 3} (hH : (1 + H).det ≠ 0) (θ : ℝ) (g : Vec ℝ 3) :
    (conductor m scale H).flux θ g = some fun i => -m.k * g i := by
  unfold conductor thermalInterface respondParameterized
  dsimp only
  rw [C54.respond_eq _ _ _ _ _ (show Moduli { m with alpha := m.alpha * scale } from hmod), if_neg hH]
  rfl

theorem meaning_heat (hm : C71.Meaning C.B.S s) (mat : ℕ → Conductors.Material 3) : C72.Meaning (C.conduction mat).S s := ⟨hm.trial, hm.test, hm.geom, hm.dim⟩

theorem good_heat (hm : C71.Meaning C.B.S s) (hn : C71.Nondegenerate C.B.S s) (hs : Sources C s) (mat : ℕ → Conductors.Material 3) : C72.AllGood (C.conduction mat).S s :=
  ⟨fun e he => ⟨hm.mem e he, hn e he⟩, fun src hsrc e he => hs src hsrc e he⟩

/-- **C89, conduction.**  Whatever the displacement, the residual of the thermal module is that of the rigid conductor. -/
theorem C89_conduction (hm : C71.Meaning C.B.S s) (hn : C71.Nondegenerate C.B.S s) (hs : Sources C s) (hmod : Moduli C.m) (u : Ode.Vec C.B.N) (hu : Regular C s u)
    (t : ℝ) (T a : Ode.Vec C.B.S.nn) : (C.thermal u).residual t T a = (rigid C).residual t T a := by
  have h : (C.thermal u).S.residual t T a = (rigid C).S.residual t T a := by
    refine funext fun (n : Fin C.B.S.nn) => ?_
    have hq : ∀ ee ∈ C.B.S.elements.zipIdx, ∀ Q < C.B.S.E.npts, (conductor C.m (C.scale (ee.2 * C.B.S.E.npts + Q)) (C.gradient u (ee.2 * C.B.S.E.npts + Q))).flux
        (C72.value (C.thermal u).S s T ee.1 Q) (C72.grad (C.thermal u).S s T ee.1 Q) = some fun i => -C.m.k * C72.grad (C.thermal u).S s T ee.1 Q i := by
      intro ee hee Q hQ
      rw [gradient_eq hm hn u hee hQ]
      exact conductor_flux hmod _ (hu ee.1 (mem_zipIdx_fst hee) Q hQ) _ _
    have key : ∀ v : Ode.Vec C.B.S.nn, ∑ m : Fin C.B.S.nn, (C.thermal u).S.residual t T a m * v m = ∑ m : Fin C.B.S.nn, (rigid C).S.residual t T a m * v m := fun v =>
      (C72.C72_weak_form (S := (C.thermal u).S) (meaning_heat hm _) (good_heat hm hn hs _) t T a v
        (fun ee Q i => -C.m.k * C72.grad (C.thermal u).S s T ee.1 Q i) hq).trans
      (C72.C72_weak_form (S := (rigid C).S) (meaning_heat hm _) (good_heat hm hn hs _) t T a v
        (fun ee Q i => -C.m.k * C72.grad (rigid C).S s T ee.1 Q i) (fun ee _ Q _ => rfl)).symm
    have h1 := key fun m => if m = n then 1 else 0
    exact ((C72.single_dot (n := C.B.S.nn) _ n).symm.trans h1).trans (C72.single_dot (n := C.B.S.nn) _ n)
  change C.fluxes.foldl _ ((C.thermal u).S.residual t T a) = C.fluxes.foldl _ ((rigid C).S.residual t T a)
  rw [h]
  rfl

theorem rate_eq (hm : C71.Meaning C.B.S s) (hn : C71.Nondegenerate C.B.S s) (hs : Sources C s) (hmod : Moduli C.m) (u : Ode.Vec C.B.N) (hu : Regular C s u)
    (dofs : List (Fin C.B.S.nn)) : (C.thermal u).rateResidual dofs = (rigid C).rateResidual dofs := by
  refine funext fun st => funext fun k => funext fun (n : Fin C.B.S.nn) => ?_
  change (if n ∈ dofs then (0 : ℝ) else (C.thermal u).residual st.time (fun m => 1 * st.u m + st.dt * k m) k n) =
    if n ∈ dofs then (0 : ℝ) else (rigid C).residual st.time (fun m => 1 * st.u m + st.dt * k m) k n
  exact congrArg (fun r : ℝ => if n ∈ dofs then (0 : ℝ) else r) (congrFun (C89_conduction hm hn hs hmod u hu _ _ _) n)

/-! ## Runs -/

section Runs
variable (C) (o : C.Solvers) (b : BCs C.B.S.nn) (e : Enforce) (fixed : List (Fin C.B.N))

/-- The thermal analysis on its own. -/
def alone (dts : List ℝ) (r : Run1 C.B.S.nn) : Run1 C.B.S.nn := C21.run b e (o.heat ((rigid C).rateResidual b.allDofs)) dts r

/-- The steps with the temperatures at their ends. -/
def temperatures : List ℝ → Run1 C.B.S.nn → List (ℝ × Ode.Vec C.B.S.nn)
  | [], _ => []
  | dt :: l, r => (dt, (alone C o b e [dt] r).x) :: temperatures l (alone C o b e [dt] r)

/-- The mechanical analysis on its own, for given temperatures. -/
def loaded : List (ℝ × Ode.Vec C.B.S.nn) → ℝ → C.Solid → C.Solid
  | [], _, x => x
  | (dt, T) :: l, t, x => loaded l (t + dt) (C.solidStep o fixed t dt T x)

end Runs

/-- The coupled module after a sequence of steps. -/
abbrev State (C : Module) := TM.State ℝ (Run1 C.B.S.nn) C.Solid (Ode.Vec C.B.N) (Ode.Vec C.B.S.nn)

/-- **C89, the coupling is one way.**  A run of the coupled module is a thermal analysis of the rigid conductor, followed by a mechanical analysis that is given the
temperatures found at the ends of the steps: as long as no deformation is singular, for all solvers, step sizes, loads and histories. -/
theorem C89_staggered (hm : C71.Meaning C.B.S s) (hn : C71.Nondegenerate C.B.S s) (hs : Sources C s) (hmod : Moduli C.m) (o : C.Solvers) (b : BCs C.B.S.nn) (e : Enforce)
    (fixed : List (Fin C.B.N)) (heat0 : Run1 C.B.S.nn) (solid0 : C.Solid) (dts : List ℝ) (x : State C)
    (hreg : ∀ k < dts.length, Regular C s (TM.run (C.setup o b e fixed heat0 solid0) x ((dts.take k).map .advance)).solid.u) :
    (TM.run (C.setup o b e fixed heat0 solid0) x (dts.map .advance)).heat = alone C o b e dts x.heat ∧
      (TM.run (C.setup o b e fixed heat0 solid0) x (dts.map .advance)).solid = loaded C o fixed (temperatures C o b e dts x.heat) x.solidClock.time x.solid := by
  induction dts generalizing x with
  | nil => exact ⟨rfl, rfl⟩
  | cons dt l ih =>
    have h0 : Regular C s x.solid.u := hreg 0 (by simp)
    let y := TM.step (C.setup o b e fixed heat0 solid0) x (.advance dt)
    have hy : y.heat = alone C o b e [dt] x.heat := by
      change stepBE1 b e (o.heat ((C.thermal x.solid.u).rateResidual b.allDofs)) dt x.heat = stepBE1 b e (o.heat ((rigid C).rateResidual b.allDofs)) dt x.heat
      exact congrArg (fun R => stepBE1 b e (o.heat R) dt x.heat) (rate_eq hm hn hs hmod _ h0 _)
    have ht : y.solidClock.time = x.solidClock.time + dt := by
      change (x.solidClock.advance (· + ·) dt).time = _
      unfold TM.Clock.advance
      dsimp only
      split_ifs <;> rfl
    have hsol : y.solid = C.solidStep o fixed x.solidClock.time dt (alone C o b e [dt] x.heat).x x.solid := by
      rw [← hy]
      rfl
    obtain ⟨h1, h2⟩ := ih y fun k hk => hreg (k + 1) (by simpa using hk)
    rw [hy] at h1 h2
    rw [ht, hsol] at h2
    exact ⟨h1, h2⟩

/-- The heat in the body. -/
def heatContent (C : Module) (s : Shapes) (T : Ode.Vec C.B.S.nn) : ℝ := C71.integral C.B.S s fun ee Q => C.m.Cv * theta C s T ee.1 Q

/-- **C89, heat of a coupled run.**  Without fixed temperatures and with sources and fluxes that do not depend on the temperature, the heat in the body changes by what the
sources supply and by what leaves through the boundary, and by nothing else, whatever the body does mechanically. -/
theorem C89_heat (hm : C71.Meaning C.B.S s) (hn : C71.Nondegenerate C.B.S s) (hs : Sources C s) (hmod : Moduli C.m) (hu : C71.Unity C.B.S s) {sF : Shapes}
    (hF : C75.Meaning C.F sF .three) (hl : C75.AllGoodHeat (rigid C) sF) (o : C.Solvers) (b : BCs C.B.S.nn) (hb : b.allDofs = [])
    (hsol : C75.SolvesHeat (rigid C) b (o.heat ((rigid C).rateResidual b.allDofs))) {e : Enforce} (he : e = .direct ∨ e = .rate)
    (power loss : ℝ → ℝ) (hp : ∀ t u, C72.supplied (rigid C).S s t u (fun _ => 1) = power t) (ho : ∀ t u, C75.outflow (rigid C) sF t u (fun _ => 1) = loss t)
    (fixed : List (Fin C.B.N)) (heat0 : Run1 C.B.S.nn) (solid0 : C.Solid) (dts : List ℝ) (hdt : ∀ dt ∈ dts, 0 < dt) (x : State C)
    (hreg : ∀ k < dts.length, Regular C s (TM.run (C.setup o b e fixed heat0 solid0) x ((dts.take k).map .advance)).solid.u) :
    heatContent C s (TM.run (C.setup o b e fixed heat0 solid0) x (dts.map .advance)).heat.x =
      heatContent C s x.heat.x + C72.supply (fun t => power t - loss t) x.heat.t dts := by
  rw [(C89_staggered hm hn hs hmod o b e fixed heat0 solid0 dts x hreg).1]
  exact C75.C75_heat_run (X := rigid C) (meaning_heat hm _) (good_heat hm hn hs _) hu hF hl (fun _ _ _ => Option.some_ne_none _) hb hsol he power loss hp ho dts hdt x.heat

/-! ## The mechanical side -/

theorem moduli_point (hmod : Moduli C.m) (p : ℕ) : Moduli (point C p) := hmod

theorem stress_eq (T : Ode.Vec C.B.S.nn) (st : ℕ → ℝ) (p : ℕ) (H : M 3) :
    C.stress T st p H = (respond (point C p) (st p) H (C.temperature T p).1 (C.temperature T p).2).map fun r => (r.1.sigma, r.2) := rfl

/-- The stress the solid gets, in closed form. -/
theorem sigma_eq (hmod : Moduli C.m) (T : Ode.Vec C.B.S.nn) (st : ℕ → ℝ) (p : ℕ) (H : M 3) :
    (C.stress T st p H).map Prod.fst = if (1 + H).det = 0 then none else
      some (((1 + H).det)⁻¹ • ((1 + H) * C54.thS (point C p) H (C.temperature T p).1 * (1 + H)ᵀ)) := by
  rw [stress_eq, C54.respond_eq _ _ _ _ _ (moduli_point hmod p)]
  split <;> rfl

/-- **C89, history.**  The internal variables have no influence on the stress: the mechanical module responds to the displacement and the temperature of the moment. -/
theorem C89_history (hmod : Moduli C.m) (T : Ode.Vec C.B.S.nn) (st st' : ℕ → ℝ) : C.mechanical T st = C.mechanical T st' := by
  unfold Module.mechanical
  refine congrArg _ (funext fun p => funext fun H => ?_)
  rw [sigma_eq hmod, sigma_eq hmod]

/-- What the module stores after a step: the trace of the strain. -/
theorem C89_store (hm : C71.Meaning C.B.S s) (hn : C71.Nondegenerate C.B.S s) (hmod : Moduli C.m) (T : Ode.Vec C.B.S.nn) (st : ℕ → ℝ) (u : Ode.Vec C.B.N) (hu : Regular C s u)
    {ee : ℕ × ℕ} (h : ee ∈ C.B.S.elements.zipIdx) {Q : ℕ} (hQ : Q < C.B.S.E.npts) :
    C.store T st u (ee.2 * C.B.S.E.npts + Q) = (C54.strain (C71.grad C.B.S s (C.B.nodal u) ee.1 Q)).trace := by
  unfold Module.store
  rw [gradient_eq hm hn u h hQ, stress_eq, C54.respond_eq _ _ _ _ _ (moduli_point hmod _), if_neg (hu ee.1 (mem_zipIdx_fst h) Q hQ)]
  rfl

theorem residual_history (hmod : Moduli C.m) (T : Ode.Vec C.B.S.nn) (st st' : ℕ → ℝ) (t : ℝ) (u a : Ode.Vec C.B.N) (k : Fin C.B.N) :
    (C.mechanical T st).residual t u a k = (C.mechanical T st').residual t u a k := by
  have h : (fun p H => (C.stress T st p H).map Prod.fst) = fun p H => (C.stress T st' p H).map Prod.fst := by
    refine funext fun p => funext fun H => ?_
    rw [sigma_eq hmod, sigma_eq hmod]
  exact congrArg (fun mat => (C.solid C.m.density mat).residual t u a k) h

/-- Assumption on the solver of the mechanical module: it returns a zero of the residual it is given, if there is one. -/
def Finds (o : C.Solvers) : Prop := ∀ (t : ℝ) (R : Ode.Vec C.B.N → Ode.Vec C.B.N) (v : Ode.Vec C.B.N), (∃ w, R w = 0) → R (o.solid t R v) = 0

/-- **C89, equilibrium.**  After a step of the coupled module the body is in equilibrium with the forces at the end of the step and with the temperatures just found, if it can
be, and the stored variables are those of the displacement just found. -/
theorem C89_equilibrium (hmod : Moduli C.m) {o : C.Solvers} (ho : Finds o) (b : BCs C.B.S.nn) (e : Enforce) (fixed : List (Fin C.B.N)) (heat0 : Run1 C.B.S.nn) (solid0 : C.Solid)
    (x y : State C) (dt : ℝ) (hy : y = TM.step (C.setup o b e fixed heat0 solid0) x (.advance dt)) (st : ℕ → ℝ)
    (hex : ∃ w, ∀ k ∉ fixed, (C.mechanical y.heat.x st).residual (x.solidClock.time + dt) w 0 k = 0) :
    (∀ k ∉ fixed, (C.mechanical y.heat.x st).residual (x.solidClock.time + dt) y.solid.u 0 k = 0) ∧
      (C71.Meaning C.B.S s → C71.Nondegenerate C.B.S s → Regular C s y.solid.u → ∀ ee ∈ C.B.S.elements.zipIdx, ∀ Q < C.B.S.E.npts,
        y.solid.state (ee.2 * C.B.S.E.npts + Q) = (C54.strain (C71.grad C.B.S s (C.B.nodal y.solid.u) ee.1 Q)).trace) := by
  have hsol : y.solid = C.solidStep o fixed x.solidClock.time dt y.heat.x x.solid := by
    rw [hy]
    rfl
  generalize y.heat.x = T at *
  generalize y.solid = z at *
  subst hsol
  constructor
  · intro k hk
    obtain ⟨w, hw⟩ := hex
    have h := ho (x.solidClock.time + dt) (fun v k => if k ∈ fixed then 0 else (C.mechanical T x.solid.state).residual (x.solidClock.time + dt) v 0 k) x.solid.u
      ⟨w, funext fun k => by
        beta_reduce
        split_ifs with hk
        · rfl
        · exact (residual_history hmod T _ st _ w 0 k).trans (hw k hk)⟩
    have hk' := congrFun h k
    beta_reduce at hk'
    rw [if_neg hk] at hk'
    exact (residual_history hmod T st x.solid.state _ _ 0 k).trans hk'
  · intro hm hn hreg ee hee Q hQ
    exact C89_store hm hn hmod T _ _ hreg hee hQ

theorem meaning_solid (hm : C71.Meaning C.B.S s) (ρ : ℝ) (mat : ℕ → Mat ℝ 3 3 → Option (Mat ℝ 3 3)) : C71.Meaning (C.solid ρ mat).S s :=
  ⟨hm.trial, hm.test, hm.geom, hm.dim, hm.mem⟩

/-- First Piola stress (Cauchy stress if geometric nonlinearity is switched off) at a point, for a displacement gradient and a temperature. -/
def piola (m : Material) (on : Bool) (H : M 3) (θ : ℝ) : M 3 := if on then (1 + H) * C54.thS m H θ else ((1 + H).det)⁻¹ • ((1 + H) * C54.thS m H θ * (1 + H)ᵀ)

theorem flux_piola (hmod : Moduli C.m) (T : Ode.Vec C.B.S.nn) (st : ℕ → ℝ) (p : ℕ) (on : Bool) {H : M 3} (hd : (1 + H).det ≠ 0) :
    Piola.materialFlux Piola.ops3 on (fun H => (C.stress T st p H).map Prod.fst) H = some (piola (point C p) on H (C.temperature T p).1) := by
  unfold Piola.materialFlux
  beta_reduce
  rw [sigma_eq hmod, if_neg hd, Option.bind_some, C33.flux_eq C33.exact3, piola]
  cases on
  · rfl
  · rw [if_pos rfl, if_neg hd, if_pos rfl, Matrix.smul_mul, smul_smul, mul_inv_cancel₀ hd, one_smul, Matrix.mul_assoc, ← Matrix.transpose_mul,
      Matrix.nonsing_inv_mul _ (isUnit_iff_ne_zero.2 hd), Matrix.transpose_one, Matrix.mul_one]

/-- The stress in the coupled body. -/
theorem stress_of (hm : C71.Meaning C.B.S s) (hn : C71.Nondegenerate C.B.S s) (hmod : Moduli C.m) (T : Ode.Vec C.B.S.nn) (st : ℕ → ℝ) (u : Ode.Vec C.B.N) (hu : Regular C s u) :
    C71.Stress (C.mechanical T st).S s (C.B.nodal u) fun ee Q =>
      piola (point C (ee.2 * C.B.S.E.npts + Q)) C.B.S.on (C71.grad C.B.S s (C.B.nodal u) ee.1 Q) (theta C s T ee.1 Q) := by
  intro ee hee Q hQ
  have h := flux_piola hmod T st (ee.2 * C.B.S.E.npts + Q) C.B.S.on (hu ee.1 (mem_zipIdx_fst hee) Q hQ)
  rw [temperature_eq hm hn T hee hQ] at h
  exact h

/-- **C89, balance of forces and moments.**  Thermal stresses are in equilibrium: whatever the temperatures, the nodal forces of the body add up to zero, and, with
geometric nonlinearity, so do their moments about the displaced nodes. -/
theorem C89_balance (hm : C71.Meaning C.B.S s) (hn : C71.Nondegenerate C.B.S s) (hmod : Moduli C.m) (hy : C71.Unity C.B.S s) (X : C.B.S.Nodal) (hX : C71.Positions C.B.S s X)
    (T : Ode.Vec C.B.S.nn) (st : ℕ → ℝ) (u : Ode.Vec C.B.N) (hu : Regular C s u) :
    (∀ i, ∑ n, (C.mechanical T st).S.residual (C.B.nodal u) (fun _ _ => 0) n i = 0) ∧
      (C.B.S.on = true → ∀ i j, let x : C.B.S.Nodal := fun n k => X n k + C.B.nodal u n k
        ∑ n : Fin C.B.S.nn, (x n i * (C.mechanical T st).S.residual (C.B.nodal u) (fun _ _ => 0) n j - x n j * (C.mechanical T st).S.residual (C.B.nodal u) (fun _ _ => 0) n i) = 0) := by
  have hP := stress_of hm hn hmod T st u hu
  refine ⟨fun i => (C71.C71_force (S := (C.mechanical T st).S) (meaning_solid hm _ _) hn hy _ (fun _ _ => 0) _ hP i).2, fun hon i j => ?_⟩
  have hsym : C71.Symmetric (C.mechanical T st).S := by
    intro p H σ h
    have h' : (C.stress T st p H).map Prod.fst = some σ := h
    rw [sigma_eq hmod] at h'
    split at h'
    · cases h'
    · cases h'
      have hS : (C54.thS (point C p) H (C.temperature T p).1)ᵀ = C54.thS (point C p) H (C.temperature T p).1 := by
        rw [C54.thS, Matrix.transpose_sub, C31.svkS_symm, Matrix.transpose_smul, Matrix.transpose_one]
      rw [Matrix.transpose_smul, Matrix.transpose_mul, Matrix.transpose_mul, Matrix.transpose_transpose, hS, Matrix.mul_assoc]
  refine (C71.C71_moment (S := (C.mechanical T st).S) (meaning_solid hm _ _) hn X hX hsym hon _ (fun _ _ => 0) _ hP i j).trans ?_
  unfold C71.integral
  simp [C71.value]

/-- **C89, free expansion.**  Wherever the strain is the thermal strain there is no stress; a displacement with that strain at every point needs no forces. -/
theorem C89_free (hm : C71.Meaning C.B.S s) (hn : C71.Nondegenerate C.B.S s) (hmod : Moduli C.m) (T : Ode.Vec C.B.S.nn) (st : ℕ → ℝ) (u : Ode.Vec C.B.N) (hu : Regular C s u)
    (h : ∀ ee ∈ C.B.S.elements.zipIdx, ∀ Q < C.B.S.E.npts, C54.strain (C71.grad C.B.S s (C.B.nodal u) ee.1 Q) =
      (C.m.alpha * C.scale (ee.2 * C.B.S.E.npts + Q) * (theta C s T ee.1 Q - C.m.thetaRef)) • (1 : M 3)) (n : Fin C.B.S.nn) (i : Fin 3) :
    (C.mechanical T st).S.residual (C.B.nodal u) (fun _ _ => 0) n i = 0 := by
  have hS : ∀ (m : Material) (H : M 3) (θ : ℝ), C54.strain H = (m.alpha * (θ - m.thetaRef)) • (1 : M 3) → C54.thS m H θ = 0 := by
    intro m H θ hE
    have e : C54.thS m H θ = (2 * shear m) • (C54.strain H - ((C54.strain H).trace / 3) • (1 : M 3)) +
        (bulk m * ((C54.strain H).trace - 3 * m.alpha * (θ - m.thetaRef))) • (1 : M 3) := by
      rw [C54.thS, C31.svkS, C31.greenStrain_eq]
      change (bulk m * (C54.strain H).trace) • (1 : M 3) + (2 * shear m) • (C54.strain H - ((C54.strain H).trace / ((3 : ℕ) : ℝ)) • (1 : M 3)) - _ = _
      push_cast
      module
    rw [e, hE]
    simp only [Matrix.trace_smul, Matrix.trace_one, Fintype.card_fin, smul_eq_mul]
    push_cast
    have e1 : m.alpha * (θ - m.thetaRef) * 3 / 3 = m.alpha * (θ - m.thetaRef) := by ring
    have e2 : m.alpha * (θ - m.thetaRef) * 3 - 3 * m.alpha * (θ - m.thetaRef) = 0 := by ring
    rw [e1, e2, sub_self, smul_zero, mul_zero, zero_smul, add_zero]
  have hP : C71.Stress (C.mechanical T st).S s (C.B.nodal u) fun _ _ => 0 := by
    intro ee hee Q hQ
    rw [stress_of hm hn hmod T st u hu ee hee Q hQ]
    refine congrArg some ?_
    beta_reduce
    unfold piola
    rw [hS (point C (ee.2 * C.B.S.E.npts + Q)) _ _ (h ee hee Q hQ)]
    simp
  rw [C71.C71_nodal (S := (C.mechanical T st).S) (meaning_solid hm _ _) hn _ _ _ hP n i]
  unfold C71.integral
  simp [C71.value]

/-- **C89, uniform expansion.**  A free body whose thermal strain is the same everywhere (for instance one of a single temperature) is in equilibrium when it has grown by the
factor `λ` with `λ² = 1 + 2 α (θ - θ_ref)`, turned by any rotation and moved anywhere. -/
theorem C89_expansion (hm : C71.Meaning C.B.S s) (hn : C71.Nondegenerate C.B.S s) (hmod : Moduli C.m) (hy : C71.Unity C.B.S s) (X : C.B.S.Nodal) (hX : C71.Positions C.B.S s X)
    (T : Ode.Vec C.B.S.nn) (st : ℕ → ℝ) (ε lam : ℝ) (hε : ∀ ee ∈ C.B.S.elements.zipIdx, ∀ Q < C.B.S.E.npts,
      C.m.alpha * C.scale (ee.2 * C.B.S.E.npts + Q) * (theta C s T ee.1 Q - C.m.thetaRef) = ε)
    (hlam : lam ^ 2 = 1 + 2 * ε) (h0 : lam ≠ 0) (R : M 3) (hR : C31.IsRotation R) (c : Fin 3 → ℝ) (u : Ode.Vec C.B.N)
    (hu : ∀ n i, C.B.nodal u n i = ((lam • R - 1) *ᵥ X n) i + c i) :
    Regular C s u ∧ ∀ n i, (C.mechanical T st).S.residual (C.B.nodal u) (fun _ _ => 0) n i = 0 := by
  have hg : ∀ e ∈ C.B.S.elements, ∀ Q < C.B.S.E.npts, C71.grad C.B.S s (C.B.nodal u) e Q = lam • R - 1 := by
    intro e he Q hQ
    have e1 : C.B.nodal u = fun n i => ((lam • R - 1) *ᵥ X n) i + c i := funext fun n => funext fun i => hu n i
    have hp := C71.grad_position hn hX he hQ
    unfold C71.grad at hp ⊢
    rw [e1, C71.parGrad_add, C71.parGrad_const hy c e hQ, C71.parGrad_mul, add_zero, Matrix.mul_assoc, hp, Matrix.mul_one]
  have hF : (1 + (lam • R - 1) : M 3) = lam • R := by abel
  have hreg : Regular C s u := by
    intro e he Q hQ
    rw [hg e he Q hQ, hF, Matrix.det_smul, hR.2, mul_one]
    exact pow_ne_zero _ h0
  refine ⟨hreg, C89_free hm hn hmod T st u hreg fun ee hee Q hQ => ?_⟩
  rw [hg ee.1 (mem_zipIdx_fst hee) Q hQ, hε ee hee Q hQ, C54.strain, hF, Matrix.transpose_smul, Matrix.smul_mul, Matrix.mul_smul, hR.1, smul_smul, ← pow_two, hlam]
  module

theorem ext_tests {n c : ℕ} {r r' : Fin n → Vec ℝ c} (h : ∀ v : Fin n → Vec ℝ c, ∑ m, ∑ i, r m i * v m i = ∑ m, ∑ i, r' m i * v m i) : r = r' := by
  funext m i
  have := h fun m' i' => if m' = m then (if i' = i then 1 else 0) else 0
  simpa using this

theorem press_sum {nn : ℕ} (l : List (Fin nn × Fin nn × Fin nn)) (X : Fin nn → Fin 3 → ℝ) (κ : ℝ) (n : Fin nn) (i : Fin 3) :
    (l.map fun b => if b.1 = n ∨ b.2.1 = n ∨ b.2.2 = n then 1 / 6 * ((κ • (1 : M 3)) *ᵥ C71.normal3 X b.1 b.2.1 b.2.2) i else 0).sum =
      κ * (l.map fun b => if b.1 = n ∨ b.2.1 = n ∨ b.2.2 = n then 1 / 6 * C71.normal3 X b.1 b.2.1 b.2.2 i else 0).sum := by
  induction l with
  | nil => simp
  | cons b l ih =>
    rw [List.map_cons, List.sum_cons, ih, List.map_cons, List.sum_cons, mul_add]
    congr 1
    split_ifs
    · rw [Matrix.smul_mulVec, Matrix.one_mulVec, Pi.smul_apply, smul_eq_mul]
      ring
    · ring

/-- Bodies whose materials agree at the points of the domain have the same residual. -/
theorem residual_congr (hm : C71.Meaning C.B.S s) (hn : C71.Nondegenerate C.B.S s) (ρ : ℝ) (mat mat' : ℕ → Mat ℝ 3 3 → Option (Mat ℝ 3 3))
    (h : ∀ ee ∈ C.B.S.elements.zipIdx, ∀ Q < C.B.S.E.npts, mat (ee.2 * C.B.S.E.npts + Q) = mat' (ee.2 * C.B.S.E.npts + Q)) (u a : C.B.S.Nodal) :
    (C.solid ρ mat).S.residual u a = (C.solid ρ mat').S.residual u a := by
  have key : ∀ v : C.B.S.Nodal, ∑ n : Fin C.B.S.nn, ∑ i, (C.solid ρ mat).S.residual u a n i * v n i = ∑ n : Fin C.B.S.nn, ∑ i, (C.solid ρ mat').S.residual u a n i * v n i := by
    intro v
    refine (C71.tested (S := (C.solid ρ mat).S) (meaning_solid hm _ _) hn u a v).trans
      (Eq.trans ?_ (C71.tested (S := (C.solid ρ mat').S) (meaning_solid hm _ _) hn u a v).symm)
    refine congrArg List.sum (List.map_congr_left fun ee hee => sum_congr rfl fun Q hQ => ?_)
    have e : C71.pt (C.solid ρ mat).S s u a ee Q = C71.pt (C.solid ρ mat').S s u a ee Q := by
      unfold C71.pt
      rw [show (C.solid ρ mat).S.material (ee.2 * (C.solid ρ mat).S.E.npts + Q) = (C.solid ρ mat').S.material (ee.2 * (C.solid ρ mat').S.E.npts + Q) from
        h ee hee Q (mem_range.1 hQ)]
      rfl
    rw [e]
    rfl
  exact ext_tests key

/-- **C89, reference temperature.**  At the reference temperature the mechanical module is the one with the St. Venant-Kirchhoff material of the same moduli. -/
theorem C89_reference (hm : C71.Meaning C.B.S s) (hn : C71.Nondegenerate C.B.S s) (hmod : C54.Good C.m) (T : Ode.Vec C.B.S.nn) (st : ℕ → ℝ)
    (hT : ∀ e ∈ C.B.S.elements, ∀ Q < C.B.S.E.npts, theta C s T e Q = C.m.thetaRef) (u a : C.B.S.Nodal) :
    (C.mechanical T st).S.residual u a = (C.solid C.m.density fun _ => Mat.svk3 (bulk C.m) (shear C.m)).S.residual u a := by
  refine residual_congr hm hn _ _ _ (fun ee hee Q hQ => funext fun H => ?_) u a
  have h := (C54.C54_stress (point C (ee.2 * C.B.S.E.npts + Q)) ⟨hmod.1, hmod.2, hmod.3⟩ (st (ee.2 * C.B.S.E.npts + Q)) 0
    (C.temperature T (ee.2 * C.B.S.E.npts + Q)).2).2.2.2 H
  rw [stress_eq, temperature_eq hm hn T hee hQ, hT ee.1 (mem_zipIdx_fst hee) Q hQ, Option.map_map]
  exact h

/-- **C89, a clamped body**: a body of linear tetrahedra that is kept from moving while its temperature is the same everywhere presses on its boundary with the pressure
`3 K α (θ - θ_ref)`, and there are no forces on the nodes inside. -/
theorem C89_clamped (hm : C71.Meaning C.B.S s) (hn : C71.Nondegenerate C.B.S s) (hmod : Moduli C.m) (hy : C71.Unity C.B.S s) {X : C.B.S.Nodal} (ht : C71.Tetrahedra C.B.S s X)
    (bdr : List (Fin C.B.S.nn × Fin C.B.S.nn × Fin C.B.S.nn)) (hb : C71.Boundary3 C.B.S bdr) (hX : C71.Positions C.B.S s X) (T : Ode.Vec C.B.S.nn) (st : ℕ → ℝ) (θ r : ℝ)
    (hsc : ∀ p, C.scale p = r) (hT : ∀ e ∈ C.B.S.elements, ∀ Q < C.B.S.E.npts, theta C s T e Q = θ) (n : Fin C.B.S.nn) (i : Fin 3) :
    (C.mechanical T st).S.residual (fun _ _ => 0) (fun _ _ => 0) n i = -(3 * bulk C.m * (C.m.alpha * r) * (θ - C.m.thetaRef)) *
      (bdr.map fun b => if b.1 = n ∨ b.2.1 = n ∨ b.2.2 = n then 1 / 6 * C71.normal3 X b.1 b.2.1 b.2.2 i else 0).sum := by
  let σ : M 3 → Option (M 3) := fun H => (respond { C.m with alpha := C.m.alpha * r } 0 H θ 0).map fun x => x.1.sigma
  have h1 : (C.mechanical T st).S.residual (fun _ _ => 0) (fun _ _ => 0) = (C.solid C.m.density fun _ => σ).S.residual (fun _ _ => 0) (fun _ _ => 0) := by
    refine residual_congr hm hn _ _ _ (fun ee hee Q hQ => funext fun H => ?_) _ _
    rw [sigma_eq hmod, temperature_eq hm hn T hee hQ, hT ee.1 (mem_zipIdx_fst hee) Q hQ]
    change _ = (respond { C.m with alpha := C.m.alpha * r } 0 H θ 0).map fun x => x.1.sigma
    rw [C54.respond_eq _ _ _ _ _ (show Moduli { C.m with alpha := C.m.alpha * r } from hmod), point, hsc]
    split <;> rfl
  have h0 : (1 + (0 : M 3)).det ≠ 0 := by simp
  have hS : C54.thS { C.m with alpha := C.m.alpha * r } 0 θ = (-(3 * bulk C.m * (C.m.alpha * r) * (θ - C.m.thetaRef))) • (1 : M 3) := by
    have e0 : C54.strain 0 = 0 := by simp [C54.strain]
    have e1 : C31.svkS (bulk C.m) (shear C.m) (0 : M 3) = 0 := by
      rw [C31.svkS, C31.greenStrain_eq]
      simp
    rw [C54.thS]
    change C31.svkS (bulk C.m) (shear C.m) 0 - (3 * bulk C.m * (C.m.alpha * r) * (θ - C.m.thetaRef)) • (1 : M 3) = _
    rw [e1, zero_sub, neg_smul]
  have hP : Piola.materialFlux Piola.ops3 C.B.S.on σ 0 = some ((-(3 * bulk C.m * (C.m.alpha * r) * (θ - C.m.thetaRef))) • (1 : M 3)) := by
    unfold Piola.materialFlux
    change ((respond { C.m with alpha := C.m.alpha * r } 0 0 θ 0).map fun x => x.1.sigma).bind _ = _
    rw [C54.respond_eq _ _ _ _ _ (show Moduli { C.m with alpha := C.m.alpha * r } from hmod), if_neg h0, hS, Option.map_some, Option.bind_some, C33.flux_eq C33.exact3]
    simp
  have h2 := C71.C71_patch_tetrahedra (S := (C.solid C.m.density fun _ => σ).S) (meaning_solid hm _ _) hn hy ⟨ht.1, ht.2, ht.3, ht.4, ht.5, ht.6, ht.7⟩ bdr hb hX 0 0 σ
    (fun _ => rfl) _ hP n i
  have e : (fun (n : Fin C.B.S.nn) (i : Fin 3) => ((0 : M 3) *ᵥ X n) i + (0 : Fin 3 → ℝ) i) = fun _ _ => 0 := by
    funext n i
    simp
  rw [h1]
  refine (congrArg (fun v : C.B.S.Nodal => (C.solid C.m.density fun _ => σ).S.residual v (fun _ _ => 0) n i) e).symm.trans (h2.trans (press_sum bdr X _ n i))

/-- The nodal forces are the derivatives of the sum of energies at the points, if the stress is at each of them. -/
theorem energy_points {S : Setup .three} (hm : C71.Meaning S s) (hn : C71.Nondegenerate S s) (W : ℕ × ℕ → ℕ → M 3 → ℝ) (u v : S.Nodal) (P : ℕ × ℕ → ℕ → M 3) (hP : C71.Stress S s u P)
    (hW : ∀ ee ∈ S.elements.zipIdx, ∀ Q < S.E.npts, ∀ (H : ℝ → M 3) (H' : M 3), (∀ i j, HasDerivAt (fun t => H t i j) (H' i j) 0) → H 0 = C71.grad S s u ee.1 Q →
      HasDerivAt (fun t => W ee Q (H t)) (∑ i, ∑ j, P ee Q i j * H' i j) 0) :
    HasDerivAt (fun t : ℝ => C71.integral S s fun ee Q => W ee Q (C71.grad S s (fun n i => u n i + t * v n i) ee.1 Q))
      (∑ n, ∑ i, S.residual u (fun _ _ => 0) n i * v n i) 0 := by
  have hg : ∀ t ee Q, C71.grad S s (fun n i => u n i + t * v n i) ee Q = C71.grad S s u ee Q + t • C71.grad S s v ee Q := by
    intro t ee Q
    have : C71.parGrad S s (fun n i => u n i + t * v n i) ee Q = C71.parGrad S s u ee Q + t • C71.parGrad S s v ee Q := by
      funext i k
      simp only [C71.parGrad, Matrix.add_apply, Matrix.smul_apply, smul_eq_mul, mul_sum, add_mul, sum_add_distrib, mul_assoc]
    unfold C71.grad
    rw [this, Matrix.add_mul, Matrix.smul_mul]
  simp only [hg]
  rw [C71.C71_virtual_work hm hn u _ v P hP]
  have hz : ∀ ee Q, (∑ i, S.density * C71.value S s (fun _ _ => 0) ee Q i * C71.value S s v ee Q i) = 0 := fun ee Q => by simp [C71.value]
  simp only [hz, zero_add]
  have key : ∀ ee ∈ S.elements.zipIdx, ∀ Q < S.E.npts, HasDerivAt (fun t : ℝ => W ee Q (C71.grad S s u ee.1 Q + t • C71.grad S s v ee.1 Q))
      (∑ i, ∑ j, P ee Q i j * C71.grad S s v ee.1 Q i j) 0 := by
    intro ee hee Q hQ
    refine hW ee hee Q hQ (fun t => C71.grad S s u ee.1 Q + t • C71.grad S s v ee.1 Q) _ (fun i j => ?_) ?_
    · have := ((hasDerivAt_id (0 : ℝ)).mul_const (C71.grad S s v ee.1 Q i j)).const_add (C71.grad S s u ee.1 Q i j)
      simpa using this
    · rw [zero_smul, add_zero]
  unfold C71.integral
  generalize S.elements.zipIdx = L at key
  induction L with
  | nil => simpa using hasDerivAt_const (0 : ℝ) (0 : ℝ)
  | cons ee l ih =>
    simp only [List.map_cons, List.sum_cons]
    refine HasDerivAt.add ?_ (ih fun x hx => key x (List.mem_cons_of_mem _ hx))
    refine HasDerivAt.fun_sum fun Q hQ => ?_
    exact ((key ee List.mem_cons_self Q (mem_range.1 hQ)).const_mul _).const_mul _

/-- **C89, energy.**  At every field of positive temperatures the nodal forces are the derivatives of the free energy of the body: along every straight line in the space of
displacements. -/
theorem C89_energy (hm : C71.Meaning C.B.S s) (hn : C71.Nondegenerate C.B.S s) (hmod : C54.Good C.m) (hon : C.B.S.on = true) (T : Ode.Vec C.B.S.nn) (st : ℕ → ℝ)
    (u : Ode.Vec C.B.N) (hu : Regular C s u) (hT : ∀ e ∈ C.B.S.elements, ∀ Q < C.B.S.E.npts, 0 < theta C s T e Q) (v : C.B.S.Nodal) :
    HasDerivAt (fun t : ℝ => C71.integral C.B.S s fun ee Q =>
        C54.psi (point C (ee.2 * C.B.S.E.npts + Q)) (C71.grad C.B.S s (fun n i => C.B.nodal u n i + t * v n i) ee.1 Q) (theta C s T ee.1 Q))
      (∑ n : Fin C.B.S.nn, ∑ i, (C.mechanical T st).S.residual (C.B.nodal u) (fun _ _ => 0) n i * v n i) 0 := by
  refine energy_points (S := (C.mechanical T st).S) (meaning_solid hm _ _) hn
    (fun ee Q H => C54.psi (point C (ee.2 * C.B.S.E.npts + Q)) H (theta C s T ee.1 Q)) (C.B.nodal u) v _ (stress_of hm hn hmod.moduli T st u hu) ?_
  intro ee hee Q hQ H H' hH h0
  have hd : (1 + H 0).det ≠ 0 := by
    rw [h0]
    exact hu ee.1 (mem_zipIdx_fst hee) Q hQ
  have hp : C54.Good (point C (ee.2 * C.B.S.E.npts + Q)) := ⟨hmod.1, hmod.2, hmod.3⟩
  have hr := C54.respond_eq (point C (ee.2 * C.B.S.E.npts + Q)) 0 (H 0) (theta C s T ee.1 Q) 0 hp.moduli
  rw [if_neg hd] at hr
  have hP := flux_piola hmod.moduli T st (ee.2 * C.B.S.E.npts + Q) true hd
  unfold Piola.materialFlux at hP
  beta_reduce at hP
  rw [sigma_eq hmod.moduli, if_neg hd, Option.bind_some, temperature_eq hm hn T hee hQ] at hP
  have h := (C54.C54_energy (point C (ee.2 * C.B.S.E.npts + Q)) hp 0 0 H H' (fun _ => theta C s T ee.1 Q) 0 hH (hasDerivAt_const _ _) (hT ee.1 (mem_zipIdx_fst hee) Q hQ)
    _ _ hr _ hP).2
  rw [mul_zero, sub_zero, h0] at h
  beta_reduce
  rw [hon]
  exact h

/-! ## Example: four steel tetrahedra around an inner node -/

/-- Linear tetrahedra with four points. -/
def tet4 : Simplex ℝ (Fin 3 → ℝ) where
  dim := 3
  ndof := 4
  npts := 4
  phi x a := if a = 0 then 1 - x 0 - x 1 - x 2 else if a = 1 then x 0 else if a = 2 then x 1 else x 2
  dphi _ a k := if a = 0 then -1 else if a = k + 1 then 1 else 0
  xi Q := if Q = 0 then ![1 / 6, 1 / 6, 1 / 6] else if Q = 1 then ![1 / 2, 1 / 6, 1 / 6] else if Q = 2 then ![1 / 6, 1 / 2, 1 / 6] else ![1 / 6, 1 / 6, 1 / 2]
  wt _ := 1 / 24

def exShapes : Shapes where
  phi Q a := tet4.phi (tet4.xi Q) a
  dphi Q a k := tet4.dphi (tet4.xi Q) a k
  wt := tet4.wt
  phiG Q a := tet4.phi (tet4.xi Q) a
  dphiG Q a k := tet4.dphi (tet4.xi Q) a k

def exPos : Fin 5 → Fin 3 → ℝ := ![![0, 0, 0], ![1, 0, 0], ![0, 1, 0], ![0, 0, 1], ![1 / 4, 1 / 5, 1 / 6]]
def exConn (e a : ℕ) : Fin 5 := if a = e then 4 else Fin.ofNat 5 (a % 4)

def exBody : Body .three where
  S := { E := simplex tet4, G := simplex tet4, nn := 5, ng := 5, conn := exConn, connG := exConn, pos := exPos, ne := 4, elements := [0, 1, 2, 3], on := true, density := 0,
         material := fun _ _ => none }
  forces := []
  N := 15
  num := finProdFinEquiv

def exFace (e a : ℕ) : Fin 5 := (![![1, 2, 3], ![0, 3, 2], ![0, 1, 3], ![0, 2, 1]] : Fin 4 → Fin 3 → Fin 5) (Fin.ofNat 4 e) (Fin.ofNat 3 a)

/-- Heated in one element; heat leaves through the outer faces at a prescribed rate.  The factor of the expansion differs from point to point. -/
def exModule (scale : ℕ → ℝ) : Module where
  B := exBody
  sources := [⟨[2], fun t _ _ _ => 1 + t ^ 2⟩]
  F := { E := simplex C72.tri3, G := simplex C72.tri3, conn := exFace, connG := exFace, ne := 4 }
  fluxes := [⟨[0, 2], fun _ _ t _ => t⟩]
  m := C54.steel
  scale := scale

theorem ex_meaning (scale : ℕ → ℝ) : C71.Meaning (exModule scale).B.S exShapes :=
  ⟨(C51.C51_simplex tet4).1, (C51.C51_simplex tet4).2, (C51.C51_simplex tet4).1, rfl, by simp [exModule, exBody]⟩

theorem ex_unity (scale : ℕ → ℝ) : C71.Unity (exModule scale).B.S exShapes := by
  intro Q _
  constructor
  · simp [exModule, exBody, simplex, exShapes, tet4, sum_range_succ]
    ring
  · intro k
    revert k
    change ∀ k : Fin 3, _
    intro k
    fin_cases k <;> simp [exModule, exBody, simplex, exShapes, tet4, sum_range_succ]

theorem ex_positions (scale : ℕ → ℝ) : C71.Positions (exModule scale).B.S exShapes exPos := fun _ _ _ _ => rfl

theorem ex_tetrahedra (scale : ℕ → ℝ) : C71.Tetrahedra (exModule scale).B.S exShapes exPos := by
  refine ⟨rfl, rfl, fun Q _ a k => ?_, fun Q _ a k => ?_, ?_, fun e _ a _ => rfl, fun e he a ha b hb h => ?_⟩
  · fin_cases a <;> fin_cases k <;> simp [exShapes, tet4, Nodal.tet1Grad]
  · fin_cases a <;> fin_cases k <;> simp [exShapes, tet4, Nodal.tet1Grad]
  · simp [exModule, exBody, simplex, exShapes, tet4]
    norm_num
  · have he : e ∈ [0, 1, 2, 3] := he
    have he4 : e < 4 := by simp at he; omega
    have h : exConn e a = exConn e b := h
    revert h
    interval_cases e <;> interval_cases a <;> interval_cases b <;> decide

theorem ex_det (scale : ℕ → ℝ) {e : ℕ} (he : e ∈ [0, 1, 2, 3]) {Q : ℕ} (hQ : Q < 4) : 0 < (C71.jac (exModule scale).B.S exShapes e Q).det := by
  rw [C71.tet_jac (ex_tetrahedra scale) he hQ]
  have h : e = 0 ∨ e = 1 ∨ e = 2 ∨ e = 3 := by simpa using he
  refine lt_of_lt_of_eq ?_ (Matrix.det_fin_three _).symm
  rcases h with rfl | rfl | rfl | rfl <;> (simp [exModule, exBody, exConn, exPos, Fin.ofNat]; try norm_num)

theorem ex_nondegenerate (scale : ℕ → ℝ) : C71.Nondegenerate (exModule scale).B.S exShapes := fun _ he _ hQ => (ex_det scale he hQ).ne'

theorem ex_sources (scale : ℕ → ℝ) : Sources (exModule scale) exShapes := by
  intro src hs e he
  rw [List.mem_singleton.1 (show src ∈ [_] from hs)] at he
  rw [List.mem_singleton.1 (show e ∈ [2] from he)]
  exact ⟨by norm_num [exModule, exBody], fun Q hQ => (ex_det scale (by simp) hQ).ne'⟩

/-- Heated evenly by 220 degrees the body is in equilibrium when it is larger by a fifth, turned by a right angle or not. -/
example (st : ℕ → ℝ) (u : Ode.Vec 15) (hu : ∀ (n : Fin 5) (i : Fin 3), exBody.nodal u n i = ((((6 / 5 : ℝ) • !![0, -1, 0; 1, 0, 0; 0, 0, 1] - 1 : M 3)) *ᵥ exPos n) i + ![1, 2, 3] i)
    (n : Fin 5) (i : Fin 3) : ((exModule fun _ => 1).mechanical (fun _ => 520) st).S.residual (exBody.nodal u) (fun _ _ => 0) n i = 0 := by
  have h1 : ∀ e ∈ [0, 1, 2, 3], ∀ Q < 4, theta (exModule fun _ => 1) exShapes (fun _ => 520) e Q = 520 := by
    intro e _ Q hQ
    unfold theta
    rw [← mul_sum, (ex_unity (fun _ => 1) Q hQ).1, mul_one]
  refine (C89_expansion (C := exModule fun _ => 1) (ex_meaning _) (ex_nondegenerate _) C54.steel_good.moduli (ex_unity _) exPos (ex_positions _) (fun _ => 520) st (11 / 50) (6 / 5)
    (fun ee hee Q hQ => ?_) (by norm_num) (by norm_num) !![0, -1, 0; 1, 0, 0; 0, 0, 1] ⟨?_, ?_⟩ ![1, 2, 3] u hu).2 n i
  · rw [h1 ee.1 (mem_zipIdx_fst hee) Q hQ]
    norm_num [exModule, C54.steel]
  · ext i j
    fin_cases i <;> fin_cases j <;> simp [Matrix.mul_apply, Fin.sum_univ_three]
  · simp [Matrix.det_fin_three]

theorem ex_boundary (scale : ℕ → ℝ) : C71.Boundary3 (exModule scale).B.S ([(1, 2, 3), (0, 3, 2), (0, 1, 3), (0, 2, 1)] : List (Fin 5 × Fin 5 × Fin 5)) := by
  intro w h1 h2
  change w (1 : Fin 5) (2 : Fin 5) (3 : Fin 5) + w (4 : Fin 5) (3 : Fin 5) (2 : Fin 5) + w (4 : Fin 5) (1 : Fin 5) (3 : Fin 5) + w (4 : Fin 5) (2 : Fin 5) (1 : Fin 5) +
    (w (4 : Fin 5) (2 : Fin 5) (3 : Fin 5) + w (0 : Fin 5) (3 : Fin 5) (2 : Fin 5) + w (0 : Fin 5) (4 : Fin 5) (3 : Fin 5) + w (0 : Fin 5) (2 : Fin 5) (4 : Fin 5) +
    (w (1 : Fin 5) (4 : Fin 5) (3 : Fin 5) + w (0 : Fin 5) (3 : Fin 5) (4 : Fin 5) + w (0 : Fin 5) (1 : Fin 5) (3 : Fin 5) + w (0 : Fin 5) (4 : Fin 5) (1 : Fin 5) +
    (w (1 : Fin 5) (2 : Fin 5) (4 : Fin 5) + w (0 : Fin 5) (4 : Fin 5) (2 : Fin 5) + w (0 : Fin 5) (1 : Fin 5) (4 : Fin 5) + w (0 : Fin 5) (2 : Fin 5) (1 : Fin 5) + 0))) =
    w (1 : Fin 5) (2 : Fin 5) (3 : Fin 5) + (w (0 : Fin 5) (3 : Fin 5) (2 : Fin 5) + (w (0 : Fin 5) (1 : Fin 5) (3 : Fin 5) + (w (0 : Fin 5) (2 : Fin 5) (1 : Fin 5) + 0)))
  rw [h2 (4 : Fin 5) (2 : Fin 5) (3 : Fin 5), h1 (1 : Fin 5) (4 : Fin 5) (3 : Fin 5), h2 (4 : Fin 5) (1 : Fin 5) (2 : Fin 5), h2 (1 : Fin 5) (4 : Fin 5) (2 : Fin 5), h1 (1 : Fin 5) (4 : Fin 5) (2 : Fin 5), h2 (0 : Fin 5) (3 : Fin 5) (4 : Fin 5), h2 (0 : Fin 5) (2 : Fin 5) (4 : Fin 5), h2 (0 : Fin 5) (1 : Fin 5) (4 : Fin 5)]
  ring

/-- Kept from moving while heated by 220 degrees it presses on its three flat faces: the force on the corner at the origin; the inner node has none. -/
theorem ex_clamped (st : ℕ → ℝ) : (∀ i : Fin 3, ((exModule fun _ => 1).mechanical (fun _ => 520) st).S.residual (fun _ _ => 0) (fun _ _ => 0) (0 : Fin 5) i = 22 / 3) ∧
    ∀ i : Fin 3, ((exModule fun _ => 1).mechanical (fun _ => 520) st).S.residual (fun _ _ => 0) (fun _ _ => 0) (4 : Fin 5) i = 0 := by
  have h1 : ∀ e ∈ [0, 1, 2, 3], ∀ Q < 4, theta (exModule fun _ => 1) exShapes (fun _ => 520) e Q = 520 := by
    intro e _ Q hQ
    unfold theta
    rw [← mul_sum, (ex_unity (fun _ => 1) Q hQ).1, mul_one]
  have h := C89_clamped (C := exModule fun _ => 1) (ex_meaning _) (ex_nondegenerate _) C54.steel_good.moduli (ex_unity _) (ex_tetrahedra _) _ (ex_boundary _) (ex_positions _)
    (fun _ => 520) st 520 1 (fun _ => rfl) h1
  have hb : bulk (exModule fun _ => 1).m = 200 / 3 := C54.steel_bulk
  have h0 : ∀ i : Fin 3, (([(1, 2, 3), (0, 3, 2), (0, 1, 3), (0, 2, 1)] : List (Fin 5 × Fin 5 × Fin 5)).map fun b =>
      if b.1 = (0 : Fin 5) ∨ b.2.1 = (0 : Fin 5) ∨ b.2.2 = (0 : Fin 5) then 1 / 6 * C71.normal3 exPos b.1 b.2.1 b.2.2 i else 0).sum = -1 / 6 := by
    intro i
    fin_cases i <;> simp [C71.normal3, exPos, cross] <;> norm_num
  have h4 : ∀ i : Fin 3, (([(1, 2, 3), (0, 3, 2), (0, 1, 3), (0, 2, 1)] : List (Fin 5 × Fin 5 × Fin 5)).map fun b =>
      if b.1 = (4 : Fin 5) ∨ b.2.1 = (4 : Fin 5) ∨ b.2.2 = (4 : Fin 5) then 1 / 6 * C71.normal3 exPos b.1 b.2.1 b.2.2 i else 0).sum = 0 := by
    intro i
    simp [show ¬ ((1 : Fin 5) = 4) by decide, show ¬ ((2 : Fin 5) = 4) by decide, show ¬ ((3 : Fin 5) = 4) by decide, show ¬ ((0 : Fin 5) = 4) by decide]
  constructor
  · intro i
    refine ((h (0 : Fin 5) i).trans (congrArg (fun x : ℝ => _ * x) (h0 i))).trans ?_
    rw [hb]
    norm_num [exModule, C54.steel]
  · intro i
    exact ((h (4 : Fin 5) i).trans (congrArg (fun x : ℝ => _ * x) (h4 i))).trans (mul_zero _)

theorem body_plain {d : Dim} (B : Body d) (h : B.forces = []) (t : ℝ) (u a : Ode.Vec B.N) (k : Fin B.N) :
    B.residual t u a k = B.S.residual (B.nodal u) (B.nodal a) (B.num.symm k).1 (B.num.symm k).2 := by
  unfold Body.residual
  rw [h]
  rfl

/-- Held at its corners and heated evenly by 220 degrees, a coupled step leaves the body in equilibrium: the assumptions on solvers can be met. -/
example (st : ℕ → ℝ) (x : State (exModule fun _ => 1)) (hx : x.heat.x = fun _ => 520) (dt : ℝ) : ∃ o : (exModule fun _ => 1).Solvers, Finds o ∧
    ∀ k : Fin 15, 12 ≤ k.val → ((exModule fun _ => 1).mechanical (fun _ => 520) st).residual (x.solidClock.time + dt)
      (TM.step ((exModule fun _ => 1).setup o ⟨[], []⟩ .direct ((List.finRange 15).filter fun k : Fin 15 => k.val < 12) x.heat x.solid) x (.advance dt)).solid.u 0 k = 0 := by
  classical
  let o : (exModule fun _ => 1).Solvers := ⟨fun _ _ _ => 0, fun _ R v => if h : ∃ w, R w = 0 then h.choose else v⟩
  have ho : Finds o := fun t R v h => by
    change R (if h : ∃ w, R w = 0 then h.choose else v) = 0
    rw [dif_pos h]
    exact h.choose_spec
  refine ⟨o, ho, ?_⟩
  have hT : (TM.step ((exModule fun _ => 1).setup o ⟨[], []⟩ .direct ((List.finRange 15).filter fun k : Fin 15 => k.val < 12) x.heat x.solid) x (.advance dt)).heat.x =
      fun _ => 520 := by
    refine funext fun n : Fin 5 => ?_
    change x.heat.x n + dt * 0 = 520
    rw [hx, mul_zero, add_zero]
  have h := (C89_equilibrium (C := exModule fun _ => 1) (s := exShapes) C54.steel_good.moduli ho ⟨[], []⟩ .direct ((List.finRange 15).filter fun k : Fin 15 => k.val < 12)
    x.heat x.solid x _ dt rfl st ⟨0, ?_⟩).1
  · intro k hk
    have := h k (fun hf => absurd hk (by simpa using (List.mem_filter.1 hf).2))
    rwa [hT] at this
  · rw [hT]
    change ∀ k : Fin 15, k ∉ (List.finRange 15).filter (fun k : Fin 15 => k.val < 12) → _
    intro k hk
    have hn : (finProdFinEquiv.symm k : Fin 5 × Fin 3).1 = 4 := by
      have h : ¬ k.1 < 12 := fun h => hk (List.mem_filter.2 ⟨List.mem_finRange _, by simpa using h⟩)
      refine Fin.ext ?_
      change k.1 / 3 = 4
      omega
    refine (body_plain ((exModule fun _ => 1).mechanical (fun _ => 520) st) rfl _ _ _ k).trans ?_
    have h4 : (((exModule fun _ => 1).mechanical (fun _ => 520) st).num.symm k).1 = (4 : Fin 5) := hn
    rw [h4]
    exact (ex_clamped st).2 _

theorem ex_faces (scale : ℕ → ℝ) : C75.Meaning (exModule scale).F C72.exShapes .three :=
  ⟨(C51.C51_simplex C72.tri3).1, (C51.C51_simplex C72.tri3).2, (C51.C51_simplex C72.tri3).1, rfl⟩

theorem ex_faces_good (scale : ℕ → ℝ) : C75.AllGoodHeat (rigid (exModule scale)) C72.exShapes := by
  intro l hl e he
  rw [List.mem_singleton.1 (show l ∈ [_] from hl)] at he
  have he : e = 0 ∨ e = 2 := by simpa using he
  refine ⟨show e < 4 by omega, fun Q _ h0 => ?_⟩
  have h1 : (C75.area .three (C75.tangents (d := .three) (exModule scale).F C72.exShapes exPos e Q) : Fin 3 → ℝ) 0 +
      (C75.area .three (C75.tangents (d := .three) (exModule scale).F C72.exShapes exPos e Q) : Fin 3 → ℝ) 1 = 0 := by
    have h0 : C75.area .three (C75.tangents (d := .three) (exModule scale).F C72.exShapes exPos e Q) = 0 := h0
    rw [h0]
    simp
  have hn : (exModule scale).F.G.ndof = 3 := rfl
  simp only [C75.area, C75.tangents, hn, sum_range_succ, sum_range_zero] at h1
  rcases he with rfl | rfl <;> simp [exModule, exFace, C72.exShapes, C72.tri3, exPos, Fin.ofNat, cross_apply] at h1

theorem ex_definite (scale : ℕ → ℝ) (x : Fin 5 → ℝ) (h : C72.square (rigid (exModule scale)).S exShapes x = 0) : x = 0 := by
  have hz := C72.integral_eq_zero (S := (rigid (exModule scale)).S) (fun e he Q hQ => mul_pos (by simp [exShapes, tet4]) (ex_det scale he hQ))
    (fun ee _ Q _ => mul_nonneg (show (0 : ℝ) ≤ C54.steel.Cv by norm_num [C54.steel]) (sq_nonneg _)) h
  have hv : ∀ e < 4, ∀ Q < 4, C72.value (rigid (exModule scale)).S exShapes x e Q = 0 := by
    intro e he Q hQ
    have := hz (e, e) (by change _ ∈ [(0, 0), (1, 1), (2, 2), (3, 3)]; interval_cases e <;> simp) Q hQ
    exact pow_eq_zero_iff two_ne_zero |>.1 ((mul_eq_zero.1 this).resolve_left (show C54.steel.Cv ≠ 0 by norm_num [C54.steel]))
  have hn : ∀ e < 4, ∀ a < 4, x (exConn e a) = 0 := by
    intro e he
    have h4 : (rigid (exModule scale)).S.E.ndof = 4 := rfl
    have hc : (rigid (exModule scale)).S.conn = exConn := rfl
    have h0 := hv e he 0 (by norm_num)
    have h1 := hv e he 1 (by norm_num)
    have h2 := hv e he 2 (by norm_num)
    have h3 := hv e he 3 (by norm_num)
    unfold C72.value at h0 h1 h2 h3
    rw [h4, hc] at h0 h1 h2 h3
    simp [exShapes, tet4, sum_range_succ] at h0 h1 h2 h3
    intro a ha
    interval_cases a <;> linarith
  funext n
  fin_cases n
  · exact hn 1 (by norm_num) 0 (by norm_num)
  · exact hn 0 (by norm_num) 1 (by norm_num)
  · exact hn 0 (by norm_num) 2 (by norm_num)
  · exact hn 0 (by norm_num) 3 (by norm_num)
  · exact hn 0 (by norm_num) 0 (by norm_num)

theorem ex_heat (scale : ℕ → ℝ) : ∃ solve, C75.SolvesHeat (rigid (exModule scale)) (⟨[], []⟩ : BCs 5) solve := by
  refine C75.C75_heat_solvable (X := rigid (exModule scale)) (s := exShapes) (sF := C72.exShapes) (meaning_heat (ex_meaning scale) _)
    (good_heat (ex_meaning scale) (ex_nondegenerate scale) (ex_sources scale) _) (fun e he Q hQ => (mul_pos (by simp [exShapes, tet4]) (ex_det scale he hQ)).le) (ex_faces scale)
    (ex_faces_good scale) (fun _ _ => by simp [C72.exShapes, C72.tri3]) (A := fun _ => (1 : M 3)) ⟨fun p θ g => congrArg some (funext fun i => ?_), fun p i j => ?_⟩ (fun p θ g q h => ?_)
    (ex_definite scale) (fun _ => show (0 : ℝ) ≤ C54.steel.Cv by norm_num [C54.steel]) ?_ (g := fun _ _ _ t => t) (h := fun _ _ _ _ => 0) ⟨fun l hl x n t θ => ?_, fun _ _ _ _ _ => le_rfl⟩ _
  · change -C54.steel.k * g i = -∑ j, (1 : M 3) i j * g j
    simp [Matrix.one_apply, C54.steel]
  · change (1 : M 3) i j = (1 : M 3) j i
    rw [Matrix.one_apply, Matrix.one_apply]
    simp only [eq_comm]
  · cases h
    refine sum_nonpos fun i _ => ?_
    change -C54.steel.k * g i * g i ≤ 0
    have : C54.steel.k = 1 := rfl
    rw [this]
    nlinarith [mul_self_nonneg (g i)]
  · intro src hs
    rw [List.mem_singleton.1 (show src ∈ [_] from hs)]
    intros
    rfl
  · rw [List.mem_singleton.1 (show l ∈ [_] from hl)]
    change t = t + 0 * θ
    ring

open Classical in
/-- Solvers that find what they are asked for: the heat of the coupled run is the heat supplied, over any number of steps, with thermal expansion that differs from place to place
(a mechanical solver that returns a regular solution if there is one). -/
example (scale : ℕ → ℝ) : ∃ o : (exModule scale).Solvers, C75.SolvesHeat (rigid (exModule scale)) (⟨[], []⟩ : BCs 5) (o.heat ((rigid (exModule scale)).rateResidual [])) ∧
    (∀ (t : ℝ) (R : Ode.Vec (exModule scale).B.N → Ode.Vec (exModule scale).B.N) (g : Ode.Vec (exModule scale).B.N), (∃ v, Regular (exModule scale) exShapes v ∧ R v = 0) → R (o.solid t R g) = 0) ∧
    ∀ (dts : List ℝ), (∀ dt ∈ dts, 0 < dt) → ∀ (heat0 : Run1 5) (solid0 : (exModule scale).Solid) (x : State (exModule scale)), Regular (exModule scale) exShapes x.solid.u →
      heatContent (exModule scale) exShapes (TM.run ((exModule scale).setup o ⟨[], []⟩ .direct [] heat0 solid0) x (dts.map .advance)).heat.x =
        heatContent (exModule scale) exShapes x.heat.x + C72.supply (fun t => C72.supplied (rigid (exModule scale)).S exShapes t 0 (fun _ => 1) -
          C75.outflow (rigid (exModule scale)) C72.exShapes t 0 (fun _ => 1)) x.heat.t dts := by
  obtain ⟨solve, hs⟩ := ex_heat scale
  let o : (exModule scale).Solvers := ⟨fun _ => solve, fun _ R g => if h : ∃ v, Regular (exModule scale) exShapes v ∧ R v = 0 then h.choose else g⟩
  have ho : ∀ t R g, Regular (exModule scale) exShapes g → Regular (exModule scale) exShapes (o.solid t R g) := by
    intro t R g hg
    change Regular _ _ (if h : ∃ v, Regular (exModule scale) exShapes v ∧ R v = 0 then h.choose else g)
    split
    · rename_i h
      exact h.choose_spec.1
    · exact hg
  refine ⟨o, hs, fun t R g h => ?_, fun dts hdt heat0 solid0 x hx => ?_⟩
  · change R (if h : ∃ v, Regular (exModule scale) exShapes v ∧ R v = 0 then h.choose else g) = 0
    rw [dif_pos h]
    exact h.choose_spec.2
  · have hrun : ∀ (l : List ℝ) (y : State (exModule scale)), Regular (exModule scale) exShapes y.solid.u →
        Regular (exModule scale) exShapes (TM.run ((exModule scale).setup o ⟨[], []⟩ .direct [] heat0 solid0) y (l.map .advance)).solid.u := by
      intro l
      induction l with
      | nil => exact fun y hy => hy
      | cons dt l ih => exact fun y hy => ih _ (ho 0 _ _ hy)
    exact C89_heat (C := exModule scale) (ex_meaning scale) (ex_nondegenerate scale) (ex_sources scale) C54.steel_good.moduli (ex_unity scale) (ex_faces scale) (ex_faces_good scale) o
      ⟨[], []⟩ rfl hs (Or.inl rfl) _ _ (fun _ _ => rfl) (fun _ _ => rfl) [] heat0 solid0 dts hdt x fun k _ => hrun _ x hx

end Serac.C89
