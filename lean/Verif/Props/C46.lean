import Verif.Model.QuasiStatic
import Mathlib.Data.Real.Basic
import Mathlib.Tactic.NormNum
/-!
# C46: loads in quasi-static steps are those of the end of the step

Spec.  Step `k` from `t₀` with sizes `dt₁, …` solves with the residual and the boundary values at time `((t₀ + dt₁) + …) + dtₖ`; so the displacement
after it is in equilibrium with the loads of that time.

Fails for contact without Lagrange multipliers: the residual stays at `t₀` for ever (`C46_penalty_wrong`).
-/

namespace Serac.C46
open Serac.QS

variable {τ V : Type}

/-- The end times of the steps. -/
def ends (add : τ → τ → τ) : τ → List τ → List τ
  | _, [] => []
  | t, dt :: dts => add t dt :: ends add (add t dt) dts

theorem run_log (s : Setup τ V) (k : Kind) (hk : k ≠ .penalty) (dts : List τ) (x : State τ V) :
    (run s k x dts).log = x.log ++ (ends s.add x.time dts).map (fun t => (t, t)) := by
  induction dts generalizing x with
  | nil => simp [run, ends]
  | cons dt dts ih =>
    rw [show run s k x (dt :: dts) = run s k (step s k x dt) dts from rfl, ih]
    cases k with
    | plain => simp [step, ends, residualTime]
    | multiplier => simp [step, ends, residualTime]
    | penalty => exact absurd rfl hk

/-- **C46, times** (partial: no contact, or contact with Lagrange multipliers). -/
theorem C46_times_partial (s : Setup τ V) (k : Kind) (hk : k ≠ .penalty) (t₀ : τ) (u : V) (dts : List τ) :
    (run s k (init t₀ u) dts).log = (ends s.add t₀ dts).map (fun t => (t, t)) := by
  rw [run_log s k hk]
  rfl

/-- The time of the module is the end of the last step, whatever the kind. -/
theorem C46_time (s : Setup τ V) (k : Kind) (t₀ : τ) (u : V) (dts : List τ) : (run s k (init t₀ u) dts).time = dts.foldl s.add t₀ := by
  suffices h : ∀ x : State τ V, (run s k x dts).time = dts.foldl s.add x.time from h _
  induction dts with
  | nil => exact fun x => rfl
  | cons dt dts ih =>
    intro x
    rw [show run s k x (dt :: dts) = run s k (step s k x dt) dts from rfl, ih]
    cases k <;> rfl

/-- **C46, equilibrium** (partial): if every solve finds a displacement in equilibrium with the loads at the time it is given, the displacement after each
step is in equilibrium with the loads at the module's time. -/
theorem C46_equilibrium_partial (s : Setup τ V) (k : Kind) (hk : k ≠ .penalty) (InEquilibrium : τ → V → Prop) (hs : ∀ t u, InEquilibrium t (s.solve t u))
    (t₀ : τ) (u : V) (dts : List τ) (hne : dts ≠ []) : InEquilibrium (run s k (init t₀ u) dts).time (run s k (init t₀ u) dts).u := by
  obtain ⟨ds, d, rfl⟩ : ∃ ds d, dts = ds ++ [d] := ⟨dts.dropLast, dts.getLast hne, (List.dropLast_concat_getLast hne).symm⟩
  rw [show run s k (init t₀ u) (ds ++ [d]) = step s k (run s k (init t₀ u) ds) d from List.foldl_append]
  cases k with
  | plain => exact hs _ _
  | multiplier => exact hs _ _
  | penalty => exact absurd rfl hk

/-- **C46, refuted for contact without Lagrange multipliers**: every solve uses the residual of the start time, with the boundary values of the step. -/
theorem C46_penalty_wrong (s : Setup τ V) (t₀ : τ) (u : V) (dts : List τ) :
    (run s .penalty (init t₀ u) dts).log = (ends s.add t₀ dts).map (fun t => (t, t₀)) := by
  suffices h : ∀ x : State τ V, x.odeTime = t₀ → (run s .penalty x dts).log = x.log ++ (ends s.add x.time dts).map (fun t => (t, t₀)) from h _ rfl
  induction dts with
  | nil => intro x _; simp [run, ends]
  | cons dt dts ih =>
    intro x hx
    rw [show run s .penalty x (dt :: dts) = run s .penalty (step s .penalty x dt) dts from rfl, ih (step s .penalty x dt) hx]
    simp [step, ends, residualTime, hx]

/-- **C46, consequence**: after any steps the displacement is in equilibrium with the loads of the start time; if no displacement is in equilibrium with
both these loads and the present ones, it is not in equilibrium with the present ones. -/
theorem C46_frozen_wrong (s : Setup τ V) (InEquilibrium : τ → V → Prop) (hs : ∀ t u, InEquilibrium t (s.solve t u)) (t₀ : τ) (u : V) (dts : List τ)
    (hne : dts ≠ []) (hload : ∀ v, InEquilibrium t₀ v → ¬ InEquilibrium (dts.foldl s.add t₀) v) :
    InEquilibrium t₀ (run s .penalty (init t₀ u) dts).u ∧ ¬ InEquilibrium (run s .penalty (init t₀ u) dts).time (run s .penalty (init t₀ u) dts).u := by
  have hode : ∀ (ds : List τ) (x : State τ V), (run s .penalty x ds).odeTime = x.odeTime := by
    intro ds
    induction ds with
    | nil => exact fun x => rfl
    | cons d ds ih => exact fun x => ih (step s .penalty x d)
  obtain ⟨ds, d, rfl⟩ : ∃ ds d, dts = ds ++ [d] := ⟨dts.dropLast, dts.getLast hne, (List.dropLast_concat_getLast hne).symm⟩
  have h1 : InEquilibrium t₀ (run s .penalty (init t₀ u) (ds ++ [d])).u := by
    rw [show run s .penalty (init t₀ u) (ds ++ [d]) = step s .penalty (run s .penalty (init t₀ u) ds) d from List.foldl_append]
    have := hs (run s .penalty (init t₀ u) ds).odeTime (s.warm (s.add (run s .penalty (init t₀ u) ds).time d) (run s .penalty (init t₀ u) ds).u)
    rw [hode] at this
    have e : (step s .penalty (run s .penalty (init t₀ u) ds) d).u = s.solve (run s .penalty (init t₀ u) ds).odeTime
      (s.warm (s.add (run s .penalty (init t₀ u) ds).time d) (run s .penalty (init t₀ u) ds).u) := rfl
    rw [e, hode]
    exact this
  refine ⟨h1, ?_⟩
  rw [C46_time]
  exact hload _ h1

/-! ### Examples -/

/-- A spring with load `t`: equilibrium `u = t`. -/
private def spring : Setup ℤ ℤ := ⟨(· + ·), fun _ u => u, fun t _ => t⟩

example : (run spring .multiplier (init 0 0) [1, 2]).u = 3 ∧ (run spring .penalty (init 0 0) [1, 2]).u = 0 := by decide

example : ¬ ((run spring .penalty (init 0 0) [1, 2]).u = (run spring .penalty (init 0 0) [1, 2]).time) :=
  (C46_frozen_wrong spring (fun t u => u = t) (fun _ _ => rfl) 0 0 [1, 2] (by simp) (by intro v h h'; simp [spring] at h'; omega)).2

end Serac.C46
