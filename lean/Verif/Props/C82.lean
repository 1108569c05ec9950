import Verif.Model.SolidNewton
import Verif.Props.C81
/-!
# C82: the Newton solver solves every stage of linear elastodynamics

C73 and C75 prove balance of momentum and energy for runs whose stages are solved.  Here the stages are solved by the module's own Newton solver with the module's own Jacobian
`M + c0 K`: its form is inertia plus `c0` times strain (`C82_form`), symmetric and positive definite (`C82_symmetric`, `C82_definite`), the residual is affine with it
(`C82_linear`), so there is one acceleration for every stage (`C82_unique`) and the Newton solver finds it (`C82_solves`).  Runs then keep energy and momentum without any
assumption on the nonlinear solver (`C82_energy`, `C82_momentum`), and do not depend on the options of the solver (`C82_options`).
-/

noncomputable section
namespace Serac.C82
open Serac.Tensor Serac.Transform Serac.Kernels Serac.Solid Serac.Loads Finset
open Serac.C71 (M Shapes)
open Serac.C77 (elim_free)
open Elim (mulVec elim)
open Serac.C81 (Affine Iterates Rows of_tested)

variable {d : Dim} {L : Loaded d} {s sF : Shapes} {C : ℕ → M d.n →ₗ[ℝ] M d.n}

/-! ## Specification -/

/-- What makes a body linear elastic with mass: C78's assumptions, volumes and density that are not negative, a material that stores energy, and mass that every motion feels. -/
structure Massive (L : Loaded d) (s sF : Shapes) (C : ℕ → M d.n →ₗ[ℝ] M d.n) : Prop where
  good : C78.Good L s sF C
  volumes : C73.Volumes L.B s
  density : 0 ≤ L.B.S.density
  stores : ∀ ee ∈ L.B.S.elements.zipIdx, ∀ Q < L.B.S.E.npts, ∀ H, 0 ≤ ∑ i, ∑ j, C (ee.2 * L.B.S.E.npts + Q) H i j * H i j
  definite : ∀ v : Ode.Vec L.B.N, C73.inertia L.B s v v = 0 → v = 0

/-- Balance of forces at the free dofs, for the acceleration `a` at the displacement a stage predicts from it; prescribed acceleration at the others. -/
def Stage (L : Loaded d) (fixed : List (Fin L.B.N)) (st : Ode.State2 L.B.N) (g a : Ode.Vec L.B.N) : Prop :=
  (∀ k ∈ fixed, a k = g k) ∧ ∀ k ∉ fixed, L.residual st.time (fun m => st.u m + st.c0 * a m) a k = 0

/-! ## The matrix -/

theorem mulVec_dynamic (A : Moduli d) (old old' : Buffer ℝ) (st : Ode.State2 L.B.N) (a w : Ode.Vec L.B.N) (k : Fin L.B.N) :
    mulVec (L.dynamicMatrix A old old' st a) w k =
      mulVec (L.massMatrix old' a) w k + st.c0 * mulVec (L.stiffMatrix A old st.time fun j => 1 * st.u j + st.c0 * a j) w k := by
  simp only [C78.mulVec_apply, Loaded.dynamicMatrix, mul_sum, ← sum_add_distrib]
  exact sum_congr rfl fun m _ => by ring

/-- **C82, form.**  The matrix before the elimination, tested: inertia plus `c0` times the strain energy's form. -/
theorem C82_form (h : C78.Good L s sF C) {A : Moduli d} (hA : ∀ u, C77.Tangent L s A u) (old old' : Buffer ℝ) (st : Ode.State2 L.B.N) (a w v : Ode.Vec L.B.N) :
    ∑ k, mulVec (L.dynamicMatrix A old old' st a) w k * v k = C73.inertia L.B s w v + st.c0 * C73.strain L.B s C w v := by
  simp only [mulVec_dynamic, add_mul, sum_add_distrib, mul_assoc, ← mul_sum]
  rw [C78.stiff_tested h (hA _), (C77.C77_matrix h.meaning h.faces A old old' st.time 0 a w).2, C77.C77_mass_form h.meaning]

/-- **C82, symmetry** of the matrix and of what is left of it by the elimination, and that it does not change with the acceleration. -/
theorem C82_symmetric (h : C78.Good L s sF C) {A : Moduli d} (hA : ∀ u, C77.Tangent L s A u) (old old' : Buffer ℝ) (fixed : List (Fin L.B.N)) (st : Ode.State2 L.B.N)
    (a : Ode.Vec L.B.N) :
    (∀ k m, L.dynamicMatrix A old old' st a k m = L.dynamicMatrix A old old' st a m k) ∧
    (∀ k m, (L.dynamicJacobian A old old' fixed st a).1 k m = (L.dynamicJacobian A old old' fixed st a).1 m k) ∧
    ∀ a' old₁ old₁', L.dynamicMatrix A old₁ old₁' st a' = L.dynamicMatrix A old old' st a := by
  have ent : ∀ old old' a k m, L.dynamicMatrix A old old' st a k m =
      C73.inertia L.B s (C81.one m) (C81.one k) + st.c0 * C73.strain L.B s C (C81.one m) (C81.one k) := by
    intro old old' a k m
    rw [← C82_form h hA old old' st a, C81.dot_one, C78.mulVec_apply, C81.dot_one]
  have sym : ∀ k m, L.dynamicMatrix A old old' st a k m = L.dynamicMatrix A old old' st a m k := by
    intro k m
    rw [ent, ent, C73.inertia_symm, C78.strain_symm h]
  refine ⟨sym, fun k m => ?_, fun a' o o' => ?_⟩
  · unfold Loaded.dynamicJacobian Elim.elim
    dsimp only
    rw [sym k m]
    by_cases hk : k ∈ fixed <;> by_cases hm : m ∈ fixed <;> by_cases hkm : k = m <;> simp_all [eq_comm]
  · funext k m
    rw [ent, ent]

/-- **C82, definiteness.**  Every matrix with `0 ≤ c0` is positive definite, on all vectors. -/
theorem C82_definite (h : Massive L s sF C) {A : Moduli d} (hA : ∀ u, C77.Tangent L s A u) (old old' : Buffer ℝ) {st : Ode.State2 L.B.N} (hc : 0 ≤ st.c0) (a w : Ode.Vec L.B.N)
    (hw : w ≠ 0) : 0 < ∑ k, mulVec (L.dynamicMatrix A old old' st a) w k * w k := by
  rw [C82_form h.good hA]
  have h1 : 0 < C73.inertia L.B s w w := lt_of_le_of_ne (C73.inertia_nonneg h.volumes h.density w) fun e => hw (h.definite w e.symm)
  exact add_pos_of_pos_of_nonneg h1 (mul_nonneg hc (C73.integral_nonneg h.volumes fun ee hee Q hQ => h.stores ee hee Q hQ _))

/-- **C82, linearity.**  The residual of a stage is affine in the acceleration and its matrix the module's. -/
theorem C82_linear (h : C78.Good L s sF C) {A : Moduli d} (hA : ∀ u, C77.Tangent L s A u) (old old' : Buffer ℝ) (st : Ode.State2 L.B.N) (a w : Ode.Vec L.B.N) :
    L.residual st.time (fun m => 1 * st.u m + st.c0 * (a + w) m) (a + w) =
      L.residual st.time (fun m => 1 * st.u m + st.c0 * a m) a + mulVec (L.dynamicMatrix A old old' st a) w := by
  have et : ∀ (x a v : Ode.Vec L.B.N), ∑ k, L.residual st.time x a k * v k = C73.inertia L.B s a v + C73.strain L.B s C x v - C75.force L s sF st.time v :=
    fun x a v => C75.elastic_tested h.meaning h.nondegenerate h.domains h.faces h.loads h.dead h.elastic st.time x a v
  refine of_tested fun v => ?_
  simp only [Pi.add_apply, add_mul, sum_add_distrib]
  rw [C82_form h hA, et, et]
  have e1 : C73.inertia L.B s (a + w) v = C73.inertia L.B s a v + C73.inertia L.B s w v := by
    simpa using C73.inertia_lin (B := L.B) (s := s) 1 1 a w v
  have e2 : C73.strain L.B s C (fun m => 1 * st.u m + st.c0 * (a m + w m)) v = C73.strain L.B s C (fun m => 1 * st.u m + st.c0 * a m) v + st.c0 * C73.strain L.B s C w v := by
    have := C73.strain_lin (B := L.B) (s := s) (C := C) 1 st.c0 (fun m => 1 * st.u m + st.c0 * a m) w v
    rw [one_mul] at this
    rw [← this]
    congr 1
    funext m
    simp only [Pi.add_apply, Pi.smul_apply, smul_eq_mul]
    ring
  rw [e1, e2]
  ring

theorem stage_affine (h : Massive L s sF C) {A : Moduli d} (hA : ∀ u, C77.Tangent L s A u) (old old' : Buffer ℝ) (fixed : List (Fin L.B.N)) (st : Ode.State2 L.B.N) (hc : 0 ≤ st.c0) :
    Affine fixed (fun a => L.residual st.time (fun m => 1 * st.u m + st.c0 * a m) a) (L.dynamicMatrix A old old' st) := by
  refine ⟨fun a w => C82_linear h.good hA old old' st a w, fun a w _ h0 => ?_⟩
  by_contra hw
  exact (C82_definite h hA old old' hc a w hw).ne' h0

/-- **C82, stages are well posed**: for any values at the fixed dofs there is one acceleration, whatever the coefficient `c0 ≥ 0` (zero at the start of a run). -/
theorem C82_unique (h : Massive L s sF C) (fixed : List (Fin L.B.N)) (st : Ode.State2 L.B.N) (hc : 0 ≤ st.c0) (g : Ode.Vec L.B.N) : ∃! a, Stage L fixed st g a := by
  have haf := stage_affine h (C78.C78_tangent h.good.elastic) (fun _ => ⟨0, 0, 0, 0⟩) (fun _ => ⟨0, 0, 0, 0⟩) fixed st hc
  obtain ⟨a, h1, h2⟩ := haf.exists g
  simp only [one_mul] at haf h2
  exact ⟨a, ⟨h1, h2⟩, fun a' h' => haf.unique h'.2 h2 fun k hk => by rw [h1 k hk, h'.1 k hk]⟩

/-- **C82, the nonlinear solves.**  With exact linear solves the Newton solver finds the acceleration of the stage with the guess's values at the fixed dofs, from any guess. -/
theorem C82_stage (h : Massive L s sF C) {A : Moduli d} (hA : ∀ u, C77.Tangent L s A u) (old old' : Buffer ℝ) {o : StaticSolver L.B.N} (hlin : C78.Exact o.linear)
    (hnorm : C78.Length o.norm) (ho : Iterates o.newton) (fixed : List (Fin L.B.N)) (rep : Newton.Report) (st : Ode.State2 L.B.N) (hc : 0 ≤ st.c0) (guess : Ode.Vec L.B.N) :
    Stage L fixed st guess (L.dynamicSolve A old old' o fixed rep st guess) := by
  have := (stage_affine h hA old old' fixed st hc).newton hlin hnorm o.newton ho guess 0 rep
  simp only [one_mul] at this
  unfold Loaded.dynamicSolve Loaded.dynamicProblem
  simp only [one_mul]
  exact this

/-- **C82, the solver of a run** meets what C73 and C75 assume. -/
theorem C82_solves (h : Massive L s sF C) {A : Moduli d} (hA : ∀ u, C77.Tangent L s A u) (old old' : Buffer ℝ) {o : StaticSolver L.B.N} (hlin : C78.Exact o.linear)
    (hrows : Rows o.linear) (hnorm : C78.Length o.norm) (ho : Iterates o.newton) (b : Ode.BCs L.B.N) (rep : Newton.Report) :
    C75.Solves L s b (L.dynamicSolve A old old' o b.allDofs rep) := by
  refine ⟨?_, fun st v hc => ?_, fun st v _ => ⟨_, C73.elastic_defined h.good.elastic _⟩⟩
  · have hcor : ∀ (st : Ode.State2 L.B.N) (x : Elim.Vec L.B.N), ∀ r ∈ C26.Free b.allDofs, o.linear (L.dynamicJacobian A old old' b.allDofs st x).1 r ∈ C26.Free b.allDofs := by
      intro st x r hr k hk
      rw [hrows _ _ k fun m => ?_]
      · exact hr k hk
      · unfold Loaded.dynamicJacobian Elim.elim
        dsimp only
        rw [if_pos (Or.inl hk)]
    intro st v i hi
    exact C26.C26_newton (fun a : Elim.Vec L.B.N => some (L.residual st.time (fun m => 1 * st.u m + st.c0 * a m) a)) b.allDofs o.norm
      (fun a r => o.linear (L.dynamicJacobian A old old' b.allDofs st a).1 r) (hcor st) o.newton v 0 (Submodule.zero_mem _) rep i hi
  · have := (C82_stage h hA old old' hlin hnorm ho b.allDofs rep st hc v).2
    funext k
    unfold Loaded.accResidual
    simp only [one_mul]
    split_ifs with hk
    · rfl
    · exact this k hk

/-! ## Runs -/

variable {b : Ode.BCs L.B.N} {g : ℝ → Fin L.B.N → ℝ}

/-- **C82, energy.**  Average acceleration, resting supports, constant dead loads: the module keeps kinetic, elastic and potential energy over any run. -/
theorem C82_energy (h : Massive L s sF C) {A : Moduli d} (hA : ∀ u, C77.Tangent L s A u) (old old' : Buffer ℝ) {o : StaticSolver L.B.N} (hlin : C78.Exact o.linear)
    (hrows : Rows o.linear) (hnorm : C78.Length o.norm) (ho : Iterates o.newton) (rep : Newton.Report) (hg : Ode.Prescribes b g)
    (hrest : ∀ i ∈ b.allDofs, ∀ t t', g t i = g t' i) (hconst : ∀ f ∈ L.B.forces, ∀ t t' p, f.value t p = f.value t' p) (hS : C75.Steady L)
    (dts : List ℝ) (hdt : ∀ dt ∈ dts, 0 < dt) (st : Ode.State2 L.B.N) (t : ℝ) (x v a : Ode.Vec L.B.N) (hx : ∀ i ∈ b.allDofs, x i = g t i) :
    ∃ r', Ode.runSteps (Ode.step2 b .direct (L.dynamicSolve A old old' o b.allDofs rep) (1 / 4) (1 / 2)) dts ⟨st, x, v, a, true, t⟩ = some r' ∧
      C73.energy L.B s C r'.x r'.dxdt - C75.force L s sF 0 r'.x = C73.energy L.B s C x v - C75.force L s sF 0 x :=
  C75.C75_energy h.good.meaning h.good.nondegenerate h.good.domains h.good.faces h.good.loads h.good.dead h.good.elastic (C82_solves h hA old old' hlin hrows hnorm ho b rep) hg hrest
    hconst hS dts hdt _ ⟨hx, fun hf => Bool.noConfusion hf⟩

/-- **C82, momentum.**  A body without supports: over any run with any Newmark parameters the module changes the momentum by the impulse of body forces and loads. -/
theorem C82_momentum (h : Massive L s sF C) {A : Moduli d} (hA : ∀ u, C77.Tangent L s A u) (old old' : Buffer ℝ) {o : StaticSolver L.B.N} (hlin : C78.Exact o.linear)
    (hrows : Rows o.linear) (hnorm : C78.Length o.norm) (ho : Iterates o.newton) (rep : Newton.Report) (hu : C71.Unity L.B.S s) (huF : C75.Unity L.F sF d)
    (hb : b.allDofs = []) (hg : Ode.Prescribes b g) {β : ℝ} (γ : ℝ) (hβ : 0 < β) (dts : List ℝ) (hdt : ∀ dt ∈ dts, 0 < dt) (st : Ode.State2 L.B.N) (t : ℝ) (x v a : Ode.Vec L.B.N) :
    ∃ r', Ode.runSteps (Ode.step2 b .direct (L.dynamicSolve A old old' o b.allDofs rep) β γ) dts ⟨st, x, v, a, true, t⟩ = some r' ∧
      ∀ c, C73.total L.B s r'.dxdt c = C73.total L.B s v c + C73.impulse γ (fun t => C73.resultant L.B s t c + C75.thrust L sF t 0 c) t dts :=
  C75.C75_momentum h.good.meaning h.good.nondegenerate h.good.domains hu h.good.faces h.good.loads huF (C82_solves h hA old old' hlin hrows hnorm ho b rep) hg hb γ hβ _
    (fun t u c => C75.C75_dead_thrust h.good.dead t u c) dts hdt _ ⟨fun i hi => by rw [hb] at hi; exact absurd hi List.not_mem_nil, fun hf => Bool.noConfusion hf⟩

theorem solve2_congr {n : ℕ} {b : Ode.BCs n} {m : Ode.Enforce} {f f' : Ode.State2 n → Ode.Vec n → Ode.Vec n} (h : ∀ st v, 0 ≤ st.c0 → f st v = f' st v) (st : Ode.State2 n)
    {t c0 : ℝ} (hc : 0 ≤ c0) (c1 : ℝ) (u du : Ode.Vec n) : Ode.solve2 b m f st t c0 c1 u du = Ode.solve2 b m f' st t c0 c1 u du := by
  unfold Ode.solve2
  congr 1
  funext ⟨U, dU, d2U⟩
  dsimp only
  rw [h _ _ hc]

/-- **C82, options.**  Line search, tolerances, linear solver, norm, contents of buffers and the solver's report have no effect on a run: two configurations with exact linear
solves and the true moduli produce the same states, under any boundary conditions and either way of enforcing them. -/
theorem C82_options (h : Massive L s sF C) {A A' : Moduli d} (hA : ∀ u, C77.Tangent L s A u) (hA' : ∀ u, C77.Tangent L s A' u) (old₁ old₂ old₃ old₄ : Buffer ℝ)
    {o o' : StaticSolver L.B.N} (hlin : C78.Exact o.linear) (hnorm : C78.Length o.norm) (ho : Iterates o.newton) (hlin' : C78.Exact o'.linear) (hnorm' : C78.Length o'.norm)
    (ho' : Iterates o'.newton) (b : Ode.BCs L.B.N) (m : Ode.Enforce) (rep rep' : Newton.Report) {β : ℝ} (hβ : 0 ≤ β) (γ : ℝ) (dts : List ℝ) (r : Ode.Run2 L.B.N) :
    Ode.runSteps (Ode.step2 b m (L.dynamicSolve A old₁ old₂ o b.allDofs rep) β γ) dts r =
      Ode.runSteps (Ode.step2 b m (L.dynamicSolve A' old₃ old₄ o' b.allDofs rep') β γ) dts r := by
  have key : ∀ st v, 0 ≤ st.c0 → L.dynamicSolve A old₁ old₂ o b.allDofs rep st v = L.dynamicSolve A' old₃ old₄ o' b.allDofs rep' st v := fun st v hc =>
    (C82_unique h b.allDofs st hc v).unique (C82_stage h hA old₁ old₂ hlin hnorm ho b.allDofs rep st hc v) (C82_stage h hA' old₃ old₄ hlin' hnorm' ho' b.allDofs rep' st hc v)
  have step : Ode.step2 b m (L.dynamicSolve A old₁ old₂ o b.allDofs rep) β γ = Ode.step2 b m (L.dynamicSolve A' old₃ old₄ o' b.allDofs rep') β γ := by
    funext dt r
    have hc : 0 ≤ β * dt * dt := by rw [mul_assoc]; exact mul_nonneg hβ (mul_self_nonneg dt)
    unfold Ode.step2 Ode.newmarkStep
    congr 2
    · rw [solve2_congr key r.st le_rfl]
    · funext ⟨st, a⟩
      dsimp only
      rw [solve2_congr key st hc]
  rw [step]

/-! ## Examples -/

section Example

/-- A direct solver and the sum of absolute values as norm. -/
def exSolver (o : Newton.Options) : StaticSolver 10 where
  warm := false
  linear J b := by classical exact if h : ∃ x, Elim.mulVec J x = b then h.choose else b
  norm r := .fin (∑ i, |r i|)
  newton := o

theorem ex_exact (o : Newton.Options) : C78.Exact (exSolver o).linear := by
  intro J b h
  unfold exSolver
  dsimp only
  rw [dif_pos h]
  exact h.choose_spec

theorem ex_rows (o : Newton.Options) : Rows (exSolver o).linear := by
  intro J b k hk
  unfold exSolver
  dsimp only
  split_ifs with h
  · have e : ∑ m, J k m * h.choose m = b k := congrFun h.choose_spec k
    simp only [hk] at e
    simpa using e
  · rfl

theorem ex_length (o : Newton.Options) : C78.Length (exSolver o).norm := by
  intro r
  refine ⟨∑ i, |r i|, rfl, sum_nonneg fun i _ => abs_nonneg _, ?_⟩
  rw [sum_eq_zero_iff_of_nonneg fun i _ => abs_nonneg _]
  exact ⟨fun h => funext fun i => abs_eq_zero.1 (h i (mem_univ i)), fun h i _ => by rw [h]; simp⟩

variable (loads : List (Load .two))

theorem ex_massive (h : ∀ l ∈ loads, l = C75.exTraction ∨ l = C75.exHold ∨ l = C75.exPressure) :
    Massive (C75.exLoaded [C73.exGravity] loads) C72.exShapes C75.exSF fun _ => C73.isotropic 2 2 1 :=
  ⟨⟨C73.ex_meaning _, C73.ex_nondegenerate _, C73.ex_domains _ (by simp), C75.ex_faces, C75.ex_loads_good _ _ h, C75.ex_dead _ _, (C73.ex_elastic _).1⟩, C73.ex_volumes _,
    by simp [C75.exLoaded, C73.exBody, C73.exMesh], fun _ _ _ _ => (C73.ex_elastic [C73.exGravity]).2, C73.ex_definite _⟩

/-- The moduli dual numbers compute for the isotropic material. -/
def exModuli : Moduli .two := fun _ _ i m j n => C73.isotropic 2 2 1 (Matrix.single j n 1) i m

theorem ex_moduli (u : Ode.Vec 10) : C77.Tangent (C75.exLoaded [C73.exGravity] loads) C72.exShapes exModuli u :=
  C78.C78_tangent (L := C75.exLoaded [C73.exGravity] loads) (C73.ex_elastic _).1 u

/-- Clamped, gravity, a constant traction and a pressure, from rest, with any options that make the solver iterate. -/
example (o : Newton.Options) (ho : Iterates o) (old old' : Buffer ℝ) (rep : Newton.Report) (dts : List ℝ) (hdt : ∀ dt ∈ dts, 0 < dt) (st : Ode.State2 10) :
    ∃ r', Ode.runSteps (Ode.step2 C73.exClamp .direct
        ((C75.exLoaded [C73.exGravity] [C75.exHold, C75.exPressure]).dynamicSolve exModuli old old' (exSolver o) C73.exClamp.allDofs rep) (1 / 4) (1 / 2)) dts ⟨st, 0, 0, 0, true, 0⟩ = some r' ∧
      C73.energy (C73.exBody [C73.exGravity]) C72.exShapes (fun _ => C73.isotropic 2 2 1) r'.x r'.dxdt -
        C75.force (C75.exLoaded [C73.exGravity] [C75.exHold, C75.exPressure]) C72.exShapes C75.exSF 0 r'.x =
      C73.energy (C73.exBody [C73.exGravity]) C72.exShapes (fun _ => C73.isotropic 2 2 1) 0 0 -
        C75.force (C75.exLoaded [C73.exGravity] [C75.exHold, C75.exPressure]) C72.exShapes C75.exSF 0 0 := by
  refine C82_energy (ex_massive [C75.exHold, C75.exPressure] (by simp)) (ex_moduli _) old old' (ex_exact o) (ex_rows o) (ex_length o) ho rep (b := C73.exClamp) C73.ex_clamp
    (fun _ _ _ _ => rfl) (by simp [C75.exLoaded, C73.exBody, C73.exGravity]) ?_ dts hdt st 0 0 0 0 fun _ _ => rfl
  intro l hl t t'
  have : l = C75.exHold ∨ l = C75.exPressure := by simpa [C75.exLoaded] using hl
  rcases this with rfl | rfl
  · intro x n; rfl
  · intro x; rfl

/-- Free, with a growing traction: the momentum follows the loads. -/
example (o : Newton.Options) (ho : Iterates o) (old old' : Buffer ℝ) (rep : Newton.Report) (dts : List ℝ) (hdt : ∀ dt ∈ dts, 0 < dt) (st : Ode.State2 10) (x v : Ode.Vec 10) :
    ∃ r', Ode.runSteps (Ode.step2 ⟨[], []⟩ .direct
        ((C75.exLoaded [C73.exGravity] [C75.exTraction, C75.exPressure]).dynamicSolve exModuli old old' (exSolver o) [] rep) (1 / 4) (1 / 2)) dts ⟨st, x, v, 0, true, 0⟩ = some r' ∧
      ∀ c, C73.total (C73.exBody [C73.exGravity]) C72.exShapes r'.dxdt c = C73.total (C73.exBody [C73.exGravity]) C72.exShapes v c +
        C73.impulse (1 / 2) (fun t => C73.resultant (C73.exBody [C73.exGravity]) C72.exShapes t c +
          C75.thrust (C75.exLoaded [C73.exGravity] [C75.exTraction, C75.exPressure]) C75.exSF t 0 c) 0 dts :=
  C82_momentum (ex_massive [C75.exTraction, C75.exPressure] (by simp)) (ex_moduli _) old old' (ex_exact o) (ex_rows o) (ex_length o) ho rep (C73.ex_unity _) C75.ex_faces_unity
    (b := ⟨[], []⟩) (g := fun _ _ => 0) rfl ⟨by simp, by simp⟩ (1 / 2) (by norm_num) dts hdt st 0 x v 0

/-- With and without line search. -/
example (o : Newton.Options) (old old' : Buffer ℝ) (rep : Newton.Report) (m : Ode.Enforce) (dts : List ℝ) (r : Ode.Run2 10) :
    Ode.runSteps (Ode.step2 C73.exClamp m ((C75.exLoaded [C73.exGravity] [C75.exHold]).dynamicSolve exModuli old old'
      (exSolver { o with maxIter := 20, minIter := 1, maxLs := 0 }) C73.exClamp.allDofs rep) (1 / 4) (1 / 2)) dts r =
    Ode.runSteps (Ode.step2 C73.exClamp m ((C75.exLoaded [C73.exGravity] [C75.exHold]).dynamicSolve exModuli old' old
      (exSolver { o with maxIter := 3, minIter := 2, maxLs := 5 }) C73.exClamp.allDofs rep) (1 / 4) (1 / 2)) dts r :=
  C82_options (ex_massive [C75.exHold] (by simp)) (ex_moduli _) (ex_moduli _) old old' old' old (ex_exact _) (ex_length _) ⟨by norm_num [exSolver], Or.inl (by norm_num [exSolver])⟩ (ex_exact _) (ex_length _)
    ⟨by norm_num [exSolver], Or.inl (by norm_num [exSolver])⟩ C73.exClamp m rep rep (by norm_num) _ dts r

/-- One acceleration at rest. -/
example (st : Ode.State2 10) (h : 0 ≤ st.c0) (g : Ode.Vec 10) : ∃! a, Stage (C75.exLoaded [C73.exGravity] [C75.exHold, C75.exPressure]) C73.exClamp.allDofs st g a :=
  C82_unique (ex_massive _ (by simp)) _ st h g

end Example

end Serac.C82
