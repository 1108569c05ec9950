import Verif.Model.Thermomechanics
import Mathlib.Data.Real.Basic
import Mathlib.Tactic.Ring
import Mathlib.Tactic.Linarith
/-!
# C40: coupled thermomechanics

Spec.  The three clocks (coupled module, thermal part, solid part) agree at all times; each step solves the thermal part with the current displacement
and then the solid part with the new temperature, both over the same step.

Fails when the module is constructed with a start cycle or time other than zero (`C40_start_wrong`), after `resetAdjointStates`
(`C40_reset_adjoint_wrong`), and when a part's integrator leaves its clock at a stage time (`C40_stage_wrong`).
-/

namespace Serac.C40
open Serac.TM

variable {τ HS SS U T : Type}

/-- All clocks show the same time and cycle. -/
def InStep (x : State τ HS SS U T) : Prop :=
  x.base.time = x.heatClock.time ∧ x.base.time = x.solidClock.time ∧ x.base.cycle = x.heatClock.cycle ∧ x.base.cycle = x.solidClock.cycle

theorem advance_time (tick : τ → τ → τ) (c : Clock τ) (dt : τ) : (c.advance tick dt).time = tick c.time dt ∧ (c.advance tick dt).cycle = c.cycle + 1 := by
  unfold Clock.advance
  dsimp only
  split <;> exact ⟨rfl, rfl⟩

/-- Calls other than `resetAdjointStates`. -/
def Plain : Op τ U T → Prop
  | .resetAdjoint => False
  | _ => True

theorem inStep_run (s : Setup τ HS SS U T) (hT : s.tickT = s.add) (hU : s.tickU = s.add) : ∀ (ops : List (Op τ U T)) (x : State τ HS SS U T), (∀ o ∈ ops, Plain o) →
    InStep x → InStep (run s x ops) := by
  intro ops
  induction ops with
  | nil => exact fun x _ hx => hx
  | cons o ops ih =>
    intro x h hx
    refine ih (step s x o) (fun o' ho' => h o' (List.mem_cons_of_mem _ ho')) ?_
    obtain ⟨h1, h2, h3, h4⟩ := hx
    cases o with
    | advance dt =>
      have e1 := advance_time s.tickT x.heatClock dt
      have e2 := advance_time s.tickU x.solidClock dt
      refine ⟨?_, ?_, ?_, ?_⟩
      · change s.add x.base.time dt = _
        rw [h1, ← hT]
        exact e1.1.symm
      · change s.add x.base.time dt = _
        rw [h2, ← hU]
        exact e2.1.symm
      · change x.base.cycle + 1 = _
        rw [h3]
        exact e1.2.symm
      · change x.base.cycle + 1 = _
        rw [h4]
        exact e2.2.symm
    | reset c t => exact ⟨rfl, rfl, rfl, rfl⟩
    | resetAdjoint => exact absurd (h .resetAdjoint (by simp)) (fun h => h)
    | setDisplacement u => exact ⟨h1, h2, h3, h4⟩
    | setTemperature t => exact ⟨h1, h2, h3, h4⟩

/-- **C40, clocks** (partial: start cycle and time zero, no `resetAdjointStates`, both parts end a step at its end): in step after every sequence of
calls.  Addition of times is arbitrary, in particular rounded. -/
theorem C40_clocks_partial (s : Setup τ HS SS U T) (hT : s.tickT = s.add) (hU : s.tickU = s.add) (ops : List (Op τ U T)) (h : ∀ o ∈ ops, Plain o) :
    InStep (run s (construct s 0 s.zero) ops) := by
  exact inStep_run s hT hU ops _ h ⟨rfl, rfl, rfl, rfl⟩

/-- **C40, clocks after a reset** (partial): whatever happened before, the clocks are in step from a reset on. -/
theorem C40_reset_partial (s : Setup τ HS SS U T) (hT : s.tickT = s.add) (hU : s.tickU = s.add) (before after : List (Op τ U T)) (c : Int) (t : τ)
    (x : State τ HS SS U T) (h : ∀ o ∈ after, Plain o) : InStep (run s x (before ++ .reset c t :: after)) := by
  have e : run s x (before ++ .reset c t :: after) = run s (step s (run s x before) (.reset c t)) after := by
    unfold run
    rw [List.foldl_append, List.foldl_cons]
  rw [e]
  exact inStep_run s hT hU after _ h ⟨rfl, rfl, rfl, rfl⟩

/-- **C40, one step.**  The thermal part is solved with the displacement from before the step, the solid part with the temperature from the thermal
solve just made; both with the same step size. -/
theorem C40_step (s : Setup τ HS SS U T) (x : State τ HS SS U T) (dt : τ) :
    let y := advance s x dt
    y.heat = s.heatStep x.heatClock.time dt (s.displacement x.solid) x.heat ∧
    y.solid = s.solidStep x.solidClock.time dt (s.temperature y.heat) x.solid ∧
    y.log = x.log ++ [.heat x.heatClock.time dt (s.displacement x.solid), .solid x.solidClock.time dt (s.temperature y.heat)] :=
  ⟨rfl, rfl, rfl⟩

/-- The sub-solves of a run are matched pairs. -/
inductive Paired {τ U T : Type} : List (Event τ U T) → Prop where
  | nil : Paired []
  | snoc (l : List (Event τ U T)) (t₁ t₂ dt : τ) (u : U) (t : T) : Paired l → Paired (l ++ [.heat t₁ dt u, .solid t₂ dt t])

/-- **C40, all steps.**  In every run, the thermal and solid solves alternate, with equal step sizes. -/
theorem C40_paired (s : Setup τ HS SS U T) (c : Int) (t : τ) (ops : List (Op τ U T)) : Paired (run s (construct s c t) ops).log := by
  have key : ∀ (ops : List (Op τ U T)) (x : State τ HS SS U T), Paired x.log → Paired (run s x ops).log := by
    intro ops
    induction ops with
    | nil => exact fun x hx => hx
    | cons o ops ih =>
      intro x hx
      refine ih (step s x o) ?_
      cases o with
      | advance dt => exact Paired.snoc _ _ _ _ _ _ hx
      | reset c t => exact hx
      | resetAdjoint => exact hx
      | setDisplacement u => exact hx
      | setTemperature t => exact hx
  exact key ops _ Paired.nil

theorem run_advance_base (s : Setup τ HS SS U T) (x : State τ HS SS U T) (dts : List τ) : let y := run s x (dts.map Op.advance)
    y.base.cycle = x.base.cycle + dts.length ∧ y.heatClock.cycle = x.heatClock.cycle + dts.length ∧ y.solidClock.cycle = x.solidClock.cycle + dts.length ∧
      y.base.time = dts.foldl s.add x.base.time ∧ y.heatClock.time = dts.foldl s.tickT x.heatClock.time ∧
      y.solidClock.time = dts.foldl s.tickU x.solidClock.time ∧ y.base.maxCycle = x.base.maxCycle ∧ y.base.maxTime = x.base.maxTime ∧
      y.base.timesteps = x.base.timesteps := by
  induction dts generalizing x with
  | nil => simp [run]
  | cons dt dts ih =>
    obtain ⟨h1, h2, h3, h4, h5, h6, h7, h8, h9⟩ := ih (advance s x dt)
    have e1 := advance_time s.tickT x.heatClock dt
    have e2 := advance_time s.tickU x.solidClock dt
    have hr : run s x ((dt :: dts).map Op.advance) = run s (advance s x dt) (dts.map Op.advance) := rfl
    have c1 : (advance s x dt).base.cycle = x.base.cycle + 1 := rfl
    have c2 : (advance s x dt).heatClock.cycle = x.heatClock.cycle + 1 := e1.2
    have c3 : (advance s x dt).solidClock.cycle = x.solidClock.cycle + 1 := e2.2
    have c5 : (advance s x dt).heatClock.time = s.tickT x.heatClock.time dt := e1.1
    have c6 : (advance s x dt).solidClock.time = s.tickU x.solidClock.time dt := e2.1
    intro y
    have hy : y = run s (advance s x dt) (dts.map Op.advance) := hr
    rw [hy, List.length_cons]
    refine ⟨?_, ?_, ?_, h4, ?_, ?_, h7, h8, h9⟩
    · rw [h1, c1]; push_cast; ring
    · rw [h2, c2]; push_cast; ring
    · rw [h3, c3]; push_cast; ring
    · rw [h5, c5]; rfl
    · rw [h6, c6]; rfl

/-- **C40, start values, refuted**: after any number of steps the coupled cycle is that of the parts minus the start cycle. -/
theorem C40_start_wrong (s : Setup τ HS SS U T) (c : Int) (t : τ) (dts : List τ) : let y := run s (construct s c t) (dts.map Op.advance)
    y.heatClock.cycle = y.base.cycle + c ∧ y.solidClock.cycle = y.base.cycle + c ∧ y.base.time = dts.foldl s.add s.zero ∧
      y.heatClock.time = dts.foldl s.tickT t := by
  obtain ⟨h1, h2, h3, h4, h5, -, -, -, -⟩ := run_advance_base s (construct s c t) dts
  have b1 : (construct s c t).base.cycle = 0 := rfl
  have b2 : (construct s c t).heatClock.cycle = c := rfl
  have b3 : (construct s c t).solidClock.cycle = c := rfl
  intro y
  refine ⟨?_, ?_, h4, h5⟩
  · rw [h2, h1, b1, b2]; ring
  · rw [h3, h1, b1, b3]; ring

/-- **C40, `resetAdjointStates`, refuted**: the coupled clock goes back to its start, because its maxima are never updated; the parts stay. -/
theorem C40_reset_adjoint_wrong (s : Setup τ HS SS U T) (dts : List τ) : let y := run s (construct s 0 s.zero) (dts.map Op.advance ++ [.resetAdjoint])
    y.base.cycle = 0 ∧ y.base.time = s.zero ∧ y.heatClock.cycle = dts.length ∧ y.solidClock.cycle = dts.length := by
  obtain ⟨-, h2, h3, -, -, -, h7, h8, -⟩ := run_advance_base s (construct s 0 s.zero) dts
  intro y
  have hy : y = step s (run s (construct s 0 s.zero) (dts.map Op.advance)) .resetAdjoint := by
    change run s _ _ = _
    unfold run
    rw [List.foldl_append]
    rfl
  rw [hy]
  refine ⟨h7, h8, ?_, ?_⟩
  · change (run s (construct s 0 s.zero) (dts.map Op.advance)).heatClock.cycle = _
    rw [h2]
    change (0 : Int) + _ = _
    ring
  · change (run s (construct s 0 s.zero) (dts.map Op.advance)).solidClock.cycle = _
    rw [h3]
    change (0 : Int) + _ = _
    ring

/-- **C40, stage times, refuted**: if the thermal integrator leaves its clock at the stage `t + c dt`, `c ≠ 1`, the clocks differ after the first step. -/
theorem C40_stage_wrong (s : Setup ℝ HS SS U T) (ha : s.add = (· + ·)) (hz : s.zero = 0) (c : ℝ) (hc : c ≠ 1) (hT : ∀ t dt, s.tickT t dt = t + c * dt)
    (dt : ℝ) (hdt : dt ≠ 0) : let y := run s (construct s 0 0) [.advance dt]
    y.base.time = dt ∧ y.heatClock.time = c * dt ∧ y.base.time ≠ y.heatClock.time := by
  obtain ⟨-, -, -, h4, h5, -, -, -, -⟩ := run_advance_base s (construct s 0 0) [dt]
  intro y
  have e1 : y.base.time = dt := by
    change _ = _ at h4
    rw [show y.base.time = _ from h4]
    change s.add s.zero dt = dt
    rw [ha, hz]
    simp
  have e2 : y.heatClock.time = c * dt := by
    rw [show y.heatClock.time = _ from h5]
    change s.tickT 0 dt = c * dt
    rw [hT]
    ring
  refine ⟨e1, e2, ?_⟩
  rw [e1, e2]
  intro h
  apply hc
  have : (c - 1) * dt = 0 := by linarith
  rcases mul_eq_zero.1 this with h | h
  · linarith
  · exact absurd h hdt

/-- **C40, material parameters.**  A coupled material sees the coupling field first and then the requested user parameters, in each part. -/
theorem C40_parameters {F : Type} (coupling : F) (user : List F) (active : List Nat) :
    arguments (coupling :: user) (subParameters active) = some coupling :: active.map (user[·]?) := by
  simp [arguments, subParameters]

/-! ### Examples -/

/-- Integer fields and times; the thermal step adds the displacement, the solid step the temperature. -/
private def demo : Setup ℤ ℤ ℤ ℤ ℤ :=
  ⟨(· + ·), 0, (· + ·), (· + ·), 1, 0, id, id, fun _ t => t, fun _ u => u, fun _ dt u h => h + dt * (u + 1), fun _ dt t u => u + dt * t⟩

example : (run demo (construct demo 0 0) [.advance 1, .advance 2]).solid = 18 ∧ (run demo (construct demo 0 0) [.advance 1, .advance 2]).base.time = 3 := by decide

example : (run demo (construct demo 5 7) [.advance 1]).base.cycle = 1 ∧ (run demo (construct demo 5 7) [.advance 1]).heatClock.cycle = 6 := by decide

end Serac.C40
