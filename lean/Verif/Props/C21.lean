import Verif.Proofs.Ode
import Mathlib.Tactic.Linarith
/-!
# C21: the first-order transient solver enforces prescribed values

Spec as in C20, for `du/dt`.  A stage of any implicit integrator calls `Solve(t, dt, u, k)` and evaluates the residual at `u + dt·k`
(heat_transfer.hpp:736-738).  Theorems about one stage hold for every integrator; whole runs are proved for backward Euler.

Violations found: with RateControl and FullControl the value *after* a backward Euler step is `x + dt·rate`, which is the prescribed value
only if the history is (discretely) linear over the step.  RateControl is documented to control only the rate; FullControl is documented
to give `u(t+dt) = U(t+dt)` (solver_config.hpp:79-88) and does not (`C21_full_value_wrong`), because the corrected displacement is written
to the residual's state only and never to the integrator's vector.
-/

noncomputable section
namespace Serac.C21
open Serac.Ode

/-- Central difference of a history. -/
def rate {n : ℕ} (g : ℝ → Fin n → ℝ) (ε t : ℝ) (i : Fin n) : ℝ := (g (t + ε) i - g (t - ε) i) / (2 * ε)

variable {n : ℕ} {b : BCs n} {g : ℝ → Fin n → ℝ} {solve : State1 n → Vec n → Vec n}

theorem rate_eq (hg : Prescribes b g) (t : ℝ) {i : Fin n} (hi : i ∈ b.allDofs) :
    (1 / (2 * eps1)) * (b.eval (t + eps1) i - b.eval (t - eps1) i) = rate g eps1 t i := by
  rw [eval_mem hg _ hi, eval_mem hg _ hi, rate]; ring

/-- One implicit stage: DirectControl gives the prescribed value, RateControl the prescribed rate, FullControl both. -/
theorem C21_stage (hg : Prescribes b g) (hk : Keeps b solve) (st : State1 n) (time dt : ℝ) (u : Vec n) (hdt : dt ≠ 0) (i : Fin n)
    (hi : i ∈ b.allDofs) :
    ((solve1 b .direct solve st time dt u).1.u i + dt * (solve1 b .direct solve st time dt u).2 i = g time i) ∧
    ((solve1 b .rate solve st time dt u).2 i = rate g eps1 time i) ∧
    ((solve1 b .full solve st time dt u).1.u i + dt * (solve1 b .full solve st time dt u).2 i = g time i ∧
      (solve1 b .full solve st time dt u).2 i = rate g eps1 time i) := by
  obtain ⟨d1, d2⟩ := (solve1_spec (m := .direct) hk st time dt u).1 i hi
  obtain ⟨r1, r2⟩ := (solve1_spec (m := .rate) hk st time dt u).1 i hi
  obtain ⟨f1, f2⟩ := (solve1_spec (m := .full) hk st time dt u).1 i hi
  rw [d1, d2, r2, f1, f2]
  unfold constraint1
  simp only [ne_eq, hdt, not_false_eq_true, if_true]
  rw [rate_eq hg time hi, eval_mem hg _ hi]
  refine ⟨?_, rfl, by ring, rfl⟩
  field_simp
  ring

/-- Explicit stage (`Mult`, `dt = 0`): value and rate are the prescribed ones, whichever method. -/
theorem C21_explicit (hg : Prescribes b g) (hk : Keeps b solve) (m : Enforce) (st : State1 n) (time : ℝ) (u : Vec n) (i : Fin n)
    (hi : i ∈ b.allDofs) :
    (solve1 b m solve st time 0 u).1.u i = g time i ∧ (solve1 b m solve st time 0 u).2 i = rate g eps1 time i := by
  obtain ⟨d1, d2⟩ := (solve1_spec (m := m) hk st time 0 u).1 i hi
  rw [d1, d2]
  unfold constraint1
  simp only [ne_eq, not_true_eq_false, if_false]
  rw [rate_eq hg time hi, eval_mem hg _ hi]
  exact ⟨rfl, rfl⟩

/-- Free dofs: the predictor the residual sees is the one the integrator passed. -/
theorem C21_free (m : Enforce) (solve : State1 n → Vec n → Vec n) (st : State1 n) (time dt : ℝ) (u : Vec n) (i : Fin n)
    (hi : i ∉ b.allDofs) : (solve1 b m solve st time dt u).1.u i = u i := by
  unfold solve1
  dsimp only
  rw [setSub_apply, setSubCompl_apply, if_neg hi, if_neg hi, add_zero]

/-- A run of backward Euler steps. -/
def run (b : BCs n) (m : Enforce) (solve : State1 n → Vec n → Vec n) (dts : List ℝ) (r : Run1 n) : Run1 n :=
  dts.foldl (fun r dt => stepBE1 b m solve dt r) r

/-- DirectControl: after any nonempty run of nonzero steps the constrained dofs have the prescribed value at the current time. -/
theorem C21_direct_run (hg : Prescribes b g) (hk : Keeps b solve) (dts : List ℝ) (dt : ℝ) (hdt : dt ≠ 0) (r : Run1 n) (i : Fin n)
    (hi : i ∈ b.allDofs) :
    (run b .direct solve (dts ++ [dt]) r).t = r.t + dts.sum + dt ∧
      (run b .direct solve (dts ++ [dt]) r).x i = g (run b .direct solve (dts ++ [dt]) r).t i := by
  have ht : ∀ (l : List ℝ) (r : Run1 n), (run b .direct solve l r).t = r.t + l.sum := by
    intro l
    induction l with
    | nil => intro r; simp [run]
    | cons a l ih => intro r; rw [List.sum_cons, ← add_assoc]; exact ih _
  have hlast : run b .direct solve (dts ++ [dt]) r = stepBE1 b .direct solve dt (run b .direct solve dts r) := by
    rw [run, List.foldl_append]; rfl
  rw [hlast]
  refine ⟨by rw [← ht dts r]; rfl, ?_⟩
  obtain ⟨-, d2⟩ := (solve1_spec (m := .direct) hk (run b .direct solve dts r).st ((run b .direct solve dts r).t + dt) dt
    (run b .direct solve dts r).x).1 i hi
  show (run b .direct solve dts r).x i + dt * _ = g ((run b .direct solve dts r).t + dt) i
  rw [d2]
  unfold constraint1
  simp only [ne_eq, hdt, not_false_eq_true, if_true]
  rw [eval_mem hg _ hi]
  field_simp
  ring

/-- RateControl: each step advances the constrained dofs by the prescribed rate at the end of the step, so after a run the value is the
initial value plus the sum of those increments. -/
theorem C21_rate_run (hg : Prescribes b g) (hk : Keeps b solve) (dts : List ℝ) (hdts : ∀ dt ∈ dts, dt ≠ 0) (r : Run1 n) (i : Fin n)
    (hi : i ∈ b.allDofs) :
    (run b .rate solve dts r).x i =
      (dts.foldl (fun (p : ℝ × ℝ) dt => (p.1 + dt, p.2 + dt * rate g eps1 (p.1 + dt) i)) (r.t, r.x i)).2 := by
  induction dts generalizing r with
  | nil => rfl
  | cons dt dts ih =>
    have h0 := hdts dt List.mem_cons_self
    have := ih (fun d hd => hdts d (List.mem_cons_of_mem _ hd)) (stepBE1 b .rate solve dt r)
    rw [List.foldl_cons]
    have hx : (stepBE1 b .rate solve dt r).x i = r.x i + dt * rate g eps1 (r.t + dt) i := by
      show r.x i + dt * _ = _
      rw [(C21_stage hg hk r.st (r.t + dt) dt r.x h0 i hi).2.1]
    rw [← hx]
    exact this

/-- FullControl: the value at the end of a step is the prescribed one exactly when the old value plus `dt` times the rate is. -/
theorem C21_full_value_wrong (hg : Prescribes b g) (hk : Keeps b solve) (dt : ℝ) (hdt : dt ≠ 0) (r : Run1 n) (i : Fin n)
    (hi : i ∈ b.allDofs) :
    (stepBE1 b .full solve dt r).x i = r.x i + dt * rate g eps1 (r.t + dt) i ∧
    ((stepBE1 b .full solve dt r).x i = g (r.t + dt) i ↔ r.x i + dt * rate g eps1 (r.t + dt) i = g (r.t + dt) i) := by
  have hx : (stepBE1 b .full solve dt r).x i = r.x i + dt * rate g eps1 (r.t + dt) i := by
    show r.x i + dt * _ = _
    rw [(C21_stage hg hk r.st (r.t + dt) dt r.x hdt i hi).2.2.2]
  exact ⟨hx, by rw [hx]⟩

/-- In particular it fails for the history `t²`, starting from the right value, for every nonzero step. -/
theorem C21_full_value_square (hg : Prescribes b fun t _ => t ^ 2) (hk : Keeps b solve) (dt : ℝ) (hdt : dt ≠ 0) (r : Run1 n) (i : Fin n)
    (hi : i ∈ b.allDofs) (h0 : r.x i = r.t ^ 2) : (stepBE1 b .full solve dt r).x i ≠ (r.t + dt) ^ 2 := by
  rw [(C21_full_value_wrong hg hk dt hdt r i hi).1, h0, rate]
  have he : eps1 ≠ 0 := by norm_num [eps1]
  have : ((r.t + dt + eps1) ^ 2 - (r.t + dt - eps1) ^ 2) / (2 * eps1) = 2 * (r.t + dt) := by field_simp; ring
  rw [this]
  intro h
  have : dt * dt = 0 := by linarith [h, show r.t ^ 2 + dt * (2 * (r.t + dt)) - (r.t + dt) ^ 2 = dt * dt by ring]
  exact hdt (mul_self_eq_zero.1 this)

/-! ## Non-vacuity -/

def exB : BCs 2 := { essentials := [{ dofs := [1], value := fun t _ => t ^ 2 }], allDofs := [1] }

example : Prescribes exB (fun t _ => t ^ 2) ∧ Keeps exB (fun (_ : State1 2) v => v) ∧ (1 : Fin 2) ∈ exB.allDofs := by
  refine ⟨⟨fun bc hbc i _ t => ?_, fun i => by simp [exB]⟩, fun _ _ _ _ => rfl, by simp [exB]⟩
  simp only [exB, List.mem_singleton] at hbc
  subst hbc
  rfl

end Serac.C21
