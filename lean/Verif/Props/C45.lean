import Verif.Model.StepTime
import Verif.Model.GeneralizedAlpha
import Mathlib.Algebra.BigOperators.Group.List.Basic
import Mathlib.Tactic.Linarith
import Mathlib.Tactic.Ring
import Mathlib.Tactic.FieldSimp
import Mathlib.Tactic.NormNum
/-!
# C45: the time of a transient module

Spec.  After steps `dt₁, …, dtₙ` from `t₀` the module's time is `t₀ + dt₁ + … + dtₙ`, and stage `i` of step `k` was evaluated at
`t₀ + dt₁ + … + dtₖ₋₁ + cᵢ dtₖ`.

Holds exactly for the methods whose last stage is at the end of the step: backward Euler, SDIRK33, RK4, and for all eight methods of second-order equations.
-/

namespace Serac.C45
open Serac.StepTime

/-- The times at which the stages should be evaluated. -/
def rightTimes (cs : List ℝ) : ℝ → List ℝ → List (List ℝ)
  | _, [] => []
  | t, dt :: dts => cs.map (fun c => t + c * dt) :: rightTimes cs (t + dt) dts

theorem fold_stages (t dt : ℝ) (cs : List ℝ) (x : ℝ) (l : List ℝ) : cs.foldl (solveStage t dt) (x, l) =
    ((cs.map (fun c => t + c * dt)).getLast?.getD x, l ++ cs.map (fun c => t + c * dt)) := by
  induction cs generalizing x l with
  | nil => simp
  | cons c cs ih =>
    rw [List.foldl_cons, solveStage, ih]
    simp [List.getLast?_cons]

theorem advance_eq (cs : List ℝ) (c : ℝ) (hc : cs.getLast? = some c) (m : Module) (dt : ℝ) :
    advance cs m dt = ⟨m.time + c * dt, m.evaluated ++ [cs.map (fun c => m.time + c * dt)]⟩ := by
  unfold advance
  rw [fold_stages]
  simp [hc]

/-- **C45, what the code does.**  The time after any steps is `t₀ + c · (dt₁ + … + dtₙ)` with `c` the last stage. -/
theorem C45_time (cs : List ℝ) (c : ℝ) (hc : cs.getLast? = some c) (t₀ : ℝ) (dts : List ℝ) : (run cs ⟨t₀, []⟩ dts).time = t₀ + c * dts.sum := by
  suffices h : ∀ m : Module, (run cs m dts).time = m.time + c * dts.sum from h _
  induction dts with
  | nil => simp [run]
  | cons dt dts ih =>
    intro m
    have := ih (advance cs m dt)
    rw [show run cs m (dt :: dts) = run cs (advance cs m dt) dts from rfl, this, advance_eq cs c hc, List.sum_cons]
    dsimp only
    ring

/-- **C45, partial** (last stage at the end of the step): the time is right after all steps, and so are all evaluation times. -/
theorem C45_time_partial (cs : List ℝ) (hc : cs.getLast? = some 1) (t₀ : ℝ) (dts : List ℝ) :
    (run cs ⟨t₀, []⟩ dts).time = t₀ + dts.sum ∧ (run cs ⟨t₀, []⟩ dts).evaluated = rightTimes cs t₀ dts := by
  refine ⟨by rw [C45_time cs 1 hc]; ring, ?_⟩
  suffices h : ∀ m : Module, (run cs m dts).evaluated = m.evaluated ++ rightTimes cs m.time dts by simpa using h ⟨t₀, []⟩
  induction dts with
  | nil => simp [run, rightTimes]
  | cons dt dts ih =>
    intro m
    rw [show run cs m (dt :: dts) = run cs (advance cs m dt) dts from rfl, ih, advance_eq cs 1 hc]
    simp [rightTimes]

/-- **C45, the methods.**  The last stage of backward Euler, SDIRK33 and RK4 is at the end of the step; for the other methods it is not. -/
theorem C45_methods (γ : ℝ) (m : Method) : (stages γ m).getLast? = some 1 ↔ m = .backwardEuler ∨ m = .sdirk33 ∨ m = .rk4 := by
  have h3 : 0 < Real.sqrt 3 := Real.sqrt_pos.2 (by norm_num)
  have hcos : 0 < Real.cos (Real.pi / 18) := by
    apply Real.cos_pos_of_mem_Ioo
    constructor <;> linarith [Real.pi_pos]
  cases m
  case sdirk23 =>
    simp only [stages, List.getLast?_cons, List.getLast?_nil, Option.getD, Option.some.injEq]
    constructor
    · intro h; linarith
    · intro h; simp at h
  case sdirk34 =>
    simp only [stages, List.getLast?_cons, List.getLast?_nil, Option.getD, Option.some.injEq]
    have : 0 < 1 / Real.sqrt 3 * Real.cos (Real.pi / 18) := by positivity
    constructor
    · intro h; linarith
    · intro h; simp at h
  all_goals first | (norm_num [stages]; done) | (norm_num [stages]; exact ⟨nofun, nofun, nofun⟩)

/-- **C45, refuted** for the other seven methods: the time is wrong after every step of non-zero size, and after any steps with non-zero sum. -/
theorem C45_time_wrong (γ : ℝ) (m : Method) (h1 : m ≠ .backwardEuler) (h2 : m ≠ .sdirk33) (h3 : m ≠ .rk4) (t₀ : ℝ) (dts : List ℝ) (h : dts.sum ≠ 0) :
    (run (stages γ m) ⟨t₀, []⟩ dts).time ≠ t₀ + dts.sum := by
  have hne : (stages γ m).getLast? ≠ some 1 := by
    rw [Ne, C45_methods]
    tauto
  obtain ⟨c, hc⟩ : ∃ c, (stages γ m).getLast? = some c := by cases m <;> simp [stages]
  rw [C45_time _ c hc]
  intro e
  have : (c - 1) * dts.sum = 0 := by linarith
  rcases mul_eq_zero.1 this with h' | h'
  · exact hne (by rw [hc]; congr 1; linarith)
  · exact h h'

/-- **C45, forward Euler**: the time never changes, so every load and boundary value is evaluated at the start time for ever. -/
theorem C45_forward_euler_wrong (γ : ℝ) (t₀ : ℝ) (dts : List ℝ) :
    (run (stages γ .forwardEuler) ⟨t₀, []⟩ dts).time = t₀ ∧ (run (stages γ .forwardEuler) ⟨t₀, []⟩ dts).evaluated = dts.map (fun _ => [t₀]) := by
  have hc : (stages γ .forwardEuler).getLast? = some 0 := by simp [stages]
  refine ⟨by rw [C45_time _ 0 hc]; ring, ?_⟩
  suffices h : ∀ m : Module, (run (stages γ .forwardEuler) m dts).evaluated = m.evaluated ++ dts.map (fun _ => [m.time]) by simpa using h ⟨t₀, []⟩
  induction dts with
  | nil => simp [run]
  | cons dt dts ih =>
    intro m
    rw [show run (stages γ .forwardEuler) m (dt :: dts) = run (stages γ .forwardEuler) (advance (stages γ .forwardEuler) m dt) dts from rfl, ih,
      advance_eq _ 0 hc]
    simp [stages]

/-- **C45, midpoint rule**: after `n` steps of size `dt` the time has advanced by half. -/
theorem C45_midpoint_wrong (γ : ℝ) (t₀ dt : ℝ) (n : ℕ) : (run (stages γ .implicitMidpoint) ⟨t₀, []⟩ (List.replicate n dt)).time = t₀ + n * dt / 2 := by
  rw [C45_time _ (1 / 2) (by simp [stages])]
  simp
  ring

/-- **C45, way back**: going back over all steps leads to the start time if the last stage is at the end of the step. -/
theorem C45_reverse (cs : List ℝ) (c : ℝ) (hc : cs.getLast? = some c) (t₀ : ℝ) (dts : List ℝ) :
    reverse (run cs ⟨t₀, []⟩ dts).time dts = t₀ + (c - 1) * dts.sum := by
  rw [C45_time cs c hc, reverse]
  have h : ∀ (l : List ℝ) (x : ℝ), l.foldl (· - ·) x = x - l.sum := by
    intro l
    induction l with
    | nil => simp
    | cons a l ih =>
      intro x
      rw [List.foldl_cons, ih, List.sum_cons]
      ring
  rw [h, List.sum_reverse]
  ring

/-! ### Second-order equations -/

section Second
open Serac.Ode

/-- `advanceTimestep` of a dynamic solid (solid_mechanics.hpp:1259-1265): the integrator starts from a copy of the module's time, which is `state.time`
(solid_mechanics.hpp:1402-1403). -/
noncomputable def moduleStep {n : ℕ} (b : BCs n) (m : Enforce) (solve : State2 n → Ode.Vec n → Ode.Vec n) (k : Integrator) (dt : ℝ) (r : Run2 n) : Option (Run2 n) :=
  stepBy b m solve k dt { r with t := r.st.time }

/-- The fraction of the step at which an integrator evaluates the equation last. -/
noncomputable def lastStage : Integrator → ℝ
  | .newmark _ _ => 1
  | .alpha A => A.stage
  | .euler => 1

theorem solve2_time {n : ℕ} {b : BCs n} {m : Enforce} {solve : State2 n → Ode.Vec n → Ode.Vec n} {st : State2 n} {time c0 c1 : ℝ} {u du : Ode.Vec n}
    {r : State2 n × Ode.Vec n} (h : solve2 b m solve st time c0 c1 u du = some r) : r.1.time = time := by
  unfold solve2 at h
  obtain ⟨⟨U, dU, d2U⟩, -, rfl⟩ := Option.map_eq_some_iff.1 h
  rfl

theorem afterStep_time {n : ℕ} (b : BCs n) (m : Enforce) (r : Run2 n) : (afterStep b m r).st = r.st ∧ (afterStep b m r).t = r.t := by
  cases m <;> exact ⟨rfl, rfl⟩

theorem stepBy_time {n : ℕ} {b : BCs n} {m : Enforce} {solve : State2 n → Ode.Vec n → Ode.Vec n} {k : Integrator} {dt : ℝ} {r r' : Run2 n}
    (h : stepBy b m solve k dt r = some r') : r'.st.time = r.t + lastStage k * dt ∧ r'.t = r.t + dt := by
  cases k with
  | newmark β γ =>
    simp only [stepBy, step2] at h
    obtain ⟨q, hq, rfl⟩ := Option.map_eq_some_iff.1 h
    rw [(afterStep_time b m q).1, (afterStep_time b m q).2]
    unfold newmarkStep at hq
    obtain ⟨⟨st, a⟩, -, hq⟩ := Option.bind_eq_some_iff.1 hq
    obtain ⟨⟨st', a'⟩, hs, rfl⟩ := Option.map_eq_some_iff.1 hq
    exact ⟨by simpa [lastStage] using solve2_time hs, rfl⟩
  | alpha A =>
    simp only [stepBy, stepAlpha] at h
    obtain ⟨q, hq, rfl⟩ := Option.map_eq_some_iff.1 h
    rw [(afterStep_time b m q).1, (afterStep_time b m q).2]
    unfold alphaStep at hq
    obtain ⟨⟨st, a⟩, -, hq⟩ := Option.bind_eq_some_iff.1 hq
    obtain ⟨⟨st', a'⟩, hs, rfl⟩ := Option.map_eq_some_iff.1 hq
    exact ⟨by simpa [lastStage] using solve2_time hs, rfl⟩
  | euler =>
    simp only [stepBy, stepBE2, implicitSolve1] at h
    obtain ⟨⟨st', k0, k1⟩, hs, rfl⟩ := Option.map_eq_some_iff.1 h
    obtain ⟨⟨st'', a⟩, hs', e⟩ := Option.map_eq_some_iff.1 hs
    have := solve2_time hs'
    cases e
    exact ⟨by simpa [lastStage] using this, rfl⟩

/-- **C45, second order, what the code does**: the module's time after any steps, whatever the equation, the boundary conditions and their enforcement. -/
theorem C45_second_time {n : ℕ} (b : BCs n) (m : Enforce) (solve : State2 n → Ode.Vec n → Ode.Vec n) (k : Integrator) (dts : List ℝ) (r r' : Run2 n)
    (h : runSteps (moduleStep b m solve k) dts r = some r') : r'.st.time = r.st.time + lastStage k * dts.sum := by
  induction dts generalizing r with
  | nil =>
    cases h
    simp
  | cons dt dts ih =>
    simp only [runSteps] at h
    obtain ⟨q, hq, h⟩ := Option.bind_eq_some_iff.1 h
    have := (stepBy_time hq).1
    rw [ih q h, this, List.sum_cons]
    dsimp only
    ring

/-- **C45, second order**: with every method that `SecondOrderODE` accepts, the module's time after any steps is the start time plus the sizes of all steps. -/
theorem C45_second {n : ℕ} (b : BCs n) (m : Enforce) (solve : State2 n → Ode.Vec n → Ode.Vec n) (method : Ode.Method) (k : Integrator) (hk : integratorOf method = some k)
    (dts : List ℝ) (r r' : Run2 n) (h : runSteps (moduleStep b m solve k) dts r = some r') : r'.st.time = r.st.time + dts.sum := by
  have e : lastStage k = 1 := by
    cases method <;> simp only [integratorOf, Option.some.injEq, reduceCtorEq] at hk <;> subst hk <;> rfl
  rw [C45_second_time b m solve k dts r r' h, e, one_mul]

/-- **C45, second order, the integrator's clock**: with every accepted method, starting each step from the module's time is the same as letting the integrator keep its own
clock. -/
theorem C45_second_clock {n : ℕ} (b : BCs n) (m : Enforce) (solve : State2 n → Ode.Vec n → Ode.Vec n) (method : Ode.Method) (k : Integrator) (hk : integratorOf method = some k)
    (dts : List ℝ) (r : Run2 n) (hr : r.st.time = r.t) : runSteps (moduleStep b m solve k) dts r = runMethod b m solve method dts r := by
  have e : lastStage k = 1 := by
    cases method <;> simp only [integratorOf, Option.some.injEq, reduceCtorEq] at hk <;> subst hk <;> rfl
  rw [runMethod, hk, Option.bind_some]
  induction dts generalizing r with
  | nil => rfl
  | cons dt dts ih =>
    simp only [runSteps]
    have e1 : moduleStep b m solve k dt r = stepBy b m solve k dt r := by
      unfold moduleStep
      rw [hr]
    rw [e1]
    cases hq : stepBy b m solve k dt r with
    | none => rfl
    | some q =>
      obtain ⟨h1, h2⟩ := stepBy_time hq
      exact ih q (by rw [h1, h2, e, one_mul])

end Second

/-! ### Examples -/

example : (run [1] ⟨2, []⟩ [1, 3]).evaluated = [[3], [6]] := by
  rw [(C45_time_partial [1] rfl 2 [1, 3]).2]
  norm_num [rightTimes]

example : (run (stages 0 .rk3ssp) ⟨0, []⟩ [1, 1]).time = 1 := by
  rw [C45_time _ (1 / 2) (by simp [stages])]
  norm_num

/-- Three steps of HHT-alpha of one free unknown whose acceleration is 2. -/
example : ∃ r', Ode.runSteps (moduleStep (n := 1) ⟨[], []⟩ .direct (fun _ _ _ => 2) (.alpha (.hht 1))) [1, 2, 4]
    ⟨⟨3, 0, 0, 0, 0, 0⟩, 0, 0, 0, false, 3⟩ = some r' ∧ r'.st.time = 10 := by
  obtain ⟨r', h⟩ := Option.isSome_iff_exists.1 (show (Ode.runSteps (moduleStep (n := 1) ⟨[], []⟩ .direct (fun _ _ _ => 2) (.alpha (.hht 1))) [1, 2, 4]
    ⟨⟨3, 0, 0, 0, 0, 0⟩, 0, 0, 0, false, 3⟩).isSome = true by
      norm_num [Ode.runSteps, moduleStep, Ode.stepBy, Ode.stepAlpha, Ode.alphaStep, Ode.solve2, Ode.constraint2, Ode.Alpha.hht, Ode.afterStep])
  exact ⟨r', h, by rw [C45_second _ _ _ .HHTAlpha _ rfl _ _ _ h]; norm_num⟩

end Serac.C45
