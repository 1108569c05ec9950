import Verif.Proofs.Ode
import Mathlib.Data.Fintype.Card
import Mathlib.Tactic.Linarith
/-!
# C20: the second-order transient solver enforces prescribed displacement

Spec.  `g t i` is the prescribed history.  The residual of a stage is evaluated at displacement `u + c0·a` and velocity `du + c1·a`
(solid_mechanics.hpp:1177-1179, odes.hpp:56-63), where `u`, `du` are the stage predictors stored in the state and `a` the solved
acceleration.  The documentation (solver_config.hpp:62-89) promises `u = g` (DirectControl), `du/dt = dg/dt` (RateControl), all of `u`,
`du/dt`, `d²u/dt²` (FullControl); time derivatives of `g` are the code's central differences.

Assumption `Keeps`: the nonlinear solver returns the constrained entries of its initial guess unchanged (C26 proves that this holds for a
Newton iteration with eliminated rows and columns).

Violations found: RateControl does not give `u = g` in a stage (`C20_rate_displacement_wrong`; the documentation does not promise it, the
catalogue statement "whichever enforcement method" does); FullControl's acceleration is the rate formula, not the documented second
derivative (`C20_full_acceleration_wrong`); FullControl's correction after a step writes the *first* `k` entries instead of the `k`
constrained ones (odes.cpp:94-97), which zeroes free dofs (`C20_step_full_wrong`, `C20_step_full_hits_free_dof`).
-/

noncomputable section
namespace Serac.C20
open Serac.Ode

/-- Central first and second differences of a history with the code's step. -/
def rate {n : ℕ} (g : ℝ → Fin n → ℝ) (ε t : ℝ) (i : Fin n) : ℝ := (g (t + ε) i - g (t - ε) i) / (2 * ε)
def accel {n : ℕ} (g : ℝ → Fin n → ℝ) (ε t : ℝ) (i : Fin n) : ℝ := (g (t - ε) i - 2 * g t i + g (t + ε) i) / ε ^ 2

variable {n : ℕ} {b : BCs n} {g : ℝ → Fin n → ℝ} {solve : State2 n → Vec n → Vec n}

/-! ## One implicit stage, any integrator (any coefficients) -/

/-- DirectControl: the displacement the stage residual sees on constrained dofs is the prescribed one. -/
theorem C20_direct (hg : Prescribes b g) (hk : Keeps b solve) (st : State2 n) (time c0 c1 : ℝ) (u du : Vec n) (h0 : c0 ≠ 0) :
    ∃ st' a, solve2 b .direct solve st time c0 c1 u du = some (st', a) ∧ ∀ i ∈ b.allDofs, st'.u i + st'.c0 * a i = g time i := by
  have hc : constraint2 b .direct time c0 c1 u du = some (u, du, fun i => (1 / c0) * (b.eval time i - u i)) := by
    simp [constraint2, h0]
  obtain ⟨st', a, h, -, e0, -, -, hd, -⟩ := solve2_spec hk st hc
  refine ⟨st', a, h, fun i hi => ?_⟩
  obtain ⟨h1, -, h3⟩ := hd i hi
  rw [h1, e0, h3, eval_mem hg _ hi]
  field_simp
  ring

/-- RateControl: the velocity the stage residual sees on constrained dofs is the prescribed rate. -/
theorem C20_rate (hg : Prescribes b g) (hk : Keeps b solve) (st : State2 n) (time c0 c1 : ℝ) (u du : Vec n) (h1 : c1 ≠ 0) :
    ∃ st' a, solve2 b .rate solve st time c0 c1 u du = some (st', a) ∧
      ∀ i ∈ b.allDofs, st'.du i + st'.c1 * a i = rate g eps2 time i ∧
        st'.u i + st'.c0 * a i = u i + c0 / c1 * (rate g eps2 time i - du i) := by
  have hc : constraint2 b .rate time c0 c1 u du =
      some (u, du, fun i => ((b.eval (time + eps2) i - b.eval (time - eps2) i) / (2 * eps2) - du i) / c1) := by
    simp [constraint2, h1]
  obtain ⟨st', a, h, -, e0, e1, -, hd, -⟩ := solve2_spec hk st hc
  refine ⟨st', a, h, fun i hi => ?_⟩
  obtain ⟨h1', h2, h3⟩ := hd i hi
  rw [h1', h2, e0, e1, h3, eval_mem hg _ hi, eval_mem hg _ hi, rate]
  constructor
  · rw [mul_div_cancel₀ _ h1]; ring
  · ring

/-- RateControl does not in general use the prescribed displacement: it does exactly when the predictor happens to be right. -/
theorem C20_rate_displacement_wrong (hg : Prescribes b g) (hk : Keeps b solve) (st : State2 n) (time c0 c1 : ℝ) (u du : Vec n)
    (h1 : c1 ≠ 0) (i : Fin n) (hi : i ∈ b.allDofs) :
    ∃ st' a, solve2 b .rate solve st time c0 c1 u du = some (st', a) ∧
      (st'.u i + st'.c0 * a i = g time i ↔ c0 / c1 * (rate g eps2 time i - du i) = g time i - u i) := by
  obtain ⟨st', a, h, hd⟩ := C20_rate hg hk st time c0 c1 u du h1
  refine ⟨st', a, h, ?_⟩
  rw [(hd i hi).2]
  constructor <;> intro h <;> linarith

/-- FullControl: both displacement and velocity of the stage are the prescribed ones. -/
theorem C20_full (hg : Prescribes b g) (hk : Keeps b solve) (st : State2 n) (time c0 c1 : ℝ) (u du : Vec n) (h1 : c1 ≠ 0) :
    ∃ st' a, solve2 b .full solve st time c0 c1 u du = some (st', a) ∧
      ∀ i ∈ b.allDofs, st'.u i + st'.c0 * a i = g time i ∧ st'.du i + st'.c1 * a i = rate g eps2 time i ∧
        a i = (rate g eps2 time i - du i) / c1 := by
  have hc : constraint2 b .full time c0 c1 u du = some
      (fun i => b.eval time i + (-1 * c0) * (((b.eval (time + eps2) i - b.eval (time - eps2) i) / (2 * eps2) - du i) / c1),
       fun i => (b.eval (time + eps2) i - b.eval (time - eps2) i) / (2 * eps2) +
          (-1 * c1) * (((b.eval (time + eps2) i - b.eval (time - eps2) i) / (2 * eps2) - du i) / c1),
       fun i => ((b.eval (time + eps2) i - b.eval (time - eps2) i) / (2 * eps2) - du i) / c1) := by
    simp [constraint2, h1]
  obtain ⟨st', a, h, -, e0, e1, -, hd, -⟩ := solve2_spec hk st hc
  refine ⟨st', a, h, fun i hi => ?_⟩
  obtain ⟨h1', h2, h3⟩ := hd i hi
  rw [h1', h2, e0, e1, h3, eval_mem hg _ hi, eval_mem hg _ hi, eval_mem hg _ hi]
  refine ⟨by ring, by rw [rate]; ring, rfl⟩

/-- FullControl does not use the documented acceleration `d²U/dt²`: it does exactly when the velocity predictor happens to be right. -/
theorem C20_full_acceleration_wrong (hg : Prescribes b g) (hk : Keeps b solve) (st : State2 n) (time c0 c1 : ℝ) (u du : Vec n)
    (h1 : c1 ≠ 0) (i : Fin n) (hi : i ∈ b.allDofs) :
    ∃ st' a, solve2 b .full solve st time c0 c1 u du = some (st', a) ∧
      (a i = accel g eps2 time i ↔ du i + c1 * accel g eps2 time i = rate g eps2 time i) := by
  obtain ⟨st', a, h, hd⟩ := C20_full hg hk st time c0 c1 u du h1
  refine ⟨st', a, h, ?_⟩
  rw [(hd i hi).2.2, div_eq_iff h1]
  constructor <;> intro h <;> linarith

/-- Explicit evaluation (`Mult`): displacement, velocity and acceleration are the prescribed ones, whichever method is selected. -/
theorem C20_explicit (hg : Prescribes b g) (hk : Keeps b solve) (m : Enforce) (st : State2 n) (time : ℝ) (u du : Vec n) :
    ∃ st' a, solve2 b m solve st time 0 0 u du = some (st', a) ∧
      ∀ i ∈ b.allDofs, st'.u i = g time i ∧ st'.du i = rate g eps2 time i ∧ a i = accel g eps2 time i := by
  have hc : constraint2 b m time 0 0 u du = some (b.eval time, fun i => (b.eval (time + eps2) i - b.eval (time - eps2) i) / (2 * eps2),
      fun i => (1 * b.eval (time - eps2) i + -2 * b.eval time i + b.eval (time + eps2) i) / (eps2 * eps2)) := by
    simp [constraint2]
  obtain ⟨st', a, h, -, -, -, -, hd, -⟩ := solve2_spec hk st hc
  refine ⟨st', a, h, fun i hi => ?_⟩
  obtain ⟨h1, h2, h3⟩ := hd i hi
  rw [h1, h2, h3, eval_mem hg _ hi, eval_mem hg _ hi, eval_mem hg _ hi, rate, accel]
  refine ⟨rfl, rfl, ?_⟩
  ring

/-- Whatever the method and the coefficients, when a stage is evaluated the predictors of the free dofs are those the integrator passed. -/
theorem C20_free (m : Enforce) (solve : State2 n → Vec n → Vec n) (st st' : State2 n) (time c0 c1 : ℝ) (u du a : Vec n)
    (h : solve2 b m solve st time c0 c1 u du = some (st', a)) (i : Fin n) (hi : i ∉ b.allDofs) : st'.u i = u i ∧ st'.du i = du i := by
  unfold solve2 at h
  cases hc : constraint2 b m time c0 c1 u du with
  | none => rw [hc] at h; simp at h
  | some c =>
    rw [hc, Option.map_some, Option.some_inj, Prod.mk.injEq] at h
    rw [← h.1]
    dsimp only
    rw [setSub_apply, setSubCompl_apply, setSub_apply, setSubCompl_apply, if_neg hi, if_neg hi, if_neg hi, if_neg hi]
    simp

/-! ## Whole runs: any number of steps, any nonzero step sizes -/

/-- The first pass of Newmark always succeeds. -/
theorem first_total (hg : Prescribes b g) (hk : Keeps b solve) (m : Enforce) (r : Run2 n) :
    ∃ st a, (if r.first then (solve2 b m solve r.st r.t 0 0 r.x r.dxdt) else some (r.st, r.d2xdt2)) = some (st, a) := by
  by_cases hf : r.first = true
  · rw [if_pos hf]
    obtain ⟨st', a, h, -⟩ := C20_explicit hg hk m r.st r.t r.x r.dxdt
    exact ⟨st', a, h⟩
  · rw [if_neg hf]; exact ⟨_, _, rfl⟩

theorem newmark_direct_step (hg : Prescribes b g) (hk : Keeps b solve) (β γ dt : ℝ) (hβ : β ≠ 0) (hdt : dt ≠ 0) (r : Run2 n) :
    ∃ r', step2 b .direct solve β γ dt r = some r' ∧ r'.t = r.t + dt ∧ ∀ i ∈ b.allDofs, r'.x i = g r'.t i := by
  obtain ⟨st, a, hfirst⟩ := first_total hg hk .direct r
  unfold step2 newmarkStep
  rw [hfirst, Option.bind_some]
  dsimp only
  have hc0 : β * dt * dt ≠ 0 := mul_ne_zero (mul_ne_zero hβ hdt) hdt
  have hc : ∀ x1 v1 : Vec n, constraint2 b .direct (r.t + dt) (β * dt * dt) (γ * dt) x1 v1 =
      some (x1, v1, fun i => (1 / (β * dt * dt)) * (b.eval (r.t + dt) i - x1 i)) := by
    intro x1 v1
    rw [constraint2, if_pos (Or.inl hc0)]
    rw [if_neg hc0]
  obtain ⟨st', a', h, -, -, -, -, hd, -⟩ := solve2_spec hk st (hc _ _)
  rw [h]
  refine ⟨_, rfl, rfl, fun i hi => ?_⟩
  dsimp only [afterStep]
  rw [(hd i hi).2.2, eval_mem hg _ hi]
  field_simp
  ring

/-- Newmark with DirectControl: after every step of every run the constrained displacement is the prescribed one at the current time. -/
theorem C20_newmark_direct (hg : Prescribes b g) (hk : Keeps b solve) (β γ : ℝ) (hβ : β ≠ 0) (dts : List ℝ) (hdts : ∀ dt ∈ dts, dt ≠ 0)
    (r : Run2 n) :
    ∃ r', runSteps (step2 b .direct solve β γ) dts r = some r' ∧ r'.t = r.t + dts.sum ∧
      (dts ≠ [] → ∀ i ∈ b.allDofs, r'.x i = g r'.t i) := by
  induction dts generalizing r with
  | nil => exact ⟨r, rfl, by simp, fun h => absurd rfl h⟩
  | cons dt dts ih =>
    obtain ⟨r1, h1, ht1, hd1⟩ := newmark_direct_step hg hk β γ dt hβ (hdts dt List.mem_cons_self) r
    obtain ⟨r2, h2, ht2, hd2⟩ := ih (fun d hd => hdts d (List.mem_cons_of_mem _ hd)) r1
    refine ⟨r2, by rw [runSteps, h1, Option.bind_some, h2], by rw [ht2, ht1, List.sum_cons, add_assoc], fun _ => ?_⟩
    by_cases hnil : dts = []
    · subst hnil
      obtain rfl : r1 = r2 := Option.some_inj.1 h2
      exact hd1
    · exact hd2 hnil

theorem newmark_rate_step (hg : Prescribes b g) (hk : Keeps b solve) (β γ dt : ℝ) (hγ : γ ≠ 0) (hdt : dt ≠ 0) (r : Run2 n) :
    ∃ r', step2 b .rate solve β γ dt r = some r' ∧ r'.t = r.t + dt ∧ ∀ i ∈ b.allDofs, r'.dxdt i = rate g eps2 r'.t i := by
  obtain ⟨st, a, hfirst⟩ := first_total hg hk .rate r
  unfold step2 newmarkStep
  rw [hfirst, Option.bind_some]
  dsimp only
  have hc1 : γ * dt ≠ 0 := mul_ne_zero hγ hdt
  have hc : ∀ x1 v1 : Vec n, constraint2 b .rate (r.t + dt) (β * dt * dt) (γ * dt) x1 v1 =
      some (x1, v1, fun i => ((b.eval (r.t + dt + eps2) i - b.eval (r.t + dt - eps2) i) / (2 * eps2) - v1 i) / (γ * dt)) := by
    intro x1 v1
    rw [constraint2, if_pos (Or.inr hc1)]
    rw [if_neg hc1]
  obtain ⟨st', a', h, -, -, -, -, hd, -⟩ := solve2_spec hk st (hc _ _)
  rw [h]
  refine ⟨_, rfl, rfl, fun i hi => ?_⟩
  dsimp only [afterStep]
  rw [(hd i hi).2.2, eval_mem hg _ hi, eval_mem hg _ hi, rate, mul_div_cancel₀ _ hc1]
  ring

/-- Newmark with RateControl: after every step of every run the constrained velocity is the prescribed rate at the current time. -/
theorem C20_newmark_rate (hg : Prescribes b g) (hk : Keeps b solve) (β γ : ℝ) (hγ : γ ≠ 0) (dts : List ℝ) (hdts : ∀ dt ∈ dts, dt ≠ 0)
    (r : Run2 n) :
    ∃ r', runSteps (step2 b .rate solve β γ) dts r = some r' ∧ r'.t = r.t + dts.sum ∧
      (dts ≠ [] → ∀ i ∈ b.allDofs, r'.dxdt i = rate g eps2 r'.t i) := by
  induction dts generalizing r with
  | nil => exact ⟨r, rfl, by simp, fun h => absurd rfl h⟩
  | cons dt dts ih =>
    obtain ⟨r1, h1, ht1, hd1⟩ := newmark_rate_step hg hk β γ dt hγ (hdts dt List.mem_cons_self) r
    obtain ⟨r2, h2, ht2, hd2⟩ := ih (fun d hd => hdts d (List.mem_cons_of_mem _ hd)) r1
    refine ⟨r2, by rw [runSteps, h1, Option.bind_some, h2], by rw [ht2, ht1, List.sum_cons, add_assoc], fun _ => ?_⟩
    by_cases hnil : dts = []
    · subst hnil
      obtain rfl : r1 = r2 := Option.some_inj.1 h2
      exact hd1
    · exact hd2 hnil

/-- Backward Euler on the first-order system: displacement (DirectControl) or velocity (RateControl, FullControl) at the end of a step. -/
theorem C20_backward_euler (hg : Prescribes b g) (hk : Keeps b solve) (dt : ℝ) (hdt : dt ≠ 0) (r : Run2 n) :
    (∃ r', stepBE2 b .direct solve dt r = some r' ∧ r'.t = r.t + dt ∧ ∀ i ∈ b.allDofs, r'.x i = g r'.t i) ∧
    (∃ r', stepBE2 b .rate solve dt r = some r' ∧ r'.t = r.t + dt ∧ ∀ i ∈ b.allDofs, r'.dxdt i = rate g eps2 r'.t i) ∧
    (∃ r', stepBE2 b .full solve dt r = some r' ∧ r'.t = r.t + dt ∧ ∀ i ∈ b.allDofs, r'.dxdt i = rate g eps2 r'.t i) := by
  have hdd : dt * dt ≠ 0 := mul_ne_zero hdt hdt
  refine ⟨?_, ?_, ?_⟩
  · have hc : constraint2 b .direct (r.t + dt) (dt * dt) dt (fun i => r.x i + dt * r.dxdt i) r.dxdt =
        some (fun i => r.x i + dt * r.dxdt i, r.dxdt, fun i => (1 / (dt * dt)) * (b.eval (r.t + dt) i - (r.x i + dt * r.dxdt i))) := by
      rw [constraint2, if_pos (Or.inl hdd)]
      rw [if_neg hdd]
    obtain ⟨st', a', h, -, -, -, -, hd, -⟩ := solve2_spec hk r.st hc
    unfold stepBE2 implicitSolve1
    dsimp only
    rw [h]
    refine ⟨_, rfl, rfl, fun i hi => ?_⟩
    dsimp only
    rw [(hd i hi).2.2, eval_mem hg _ hi]
    field_simp
    ring
  · have hc : constraint2 b .rate (r.t + dt) (dt * dt) dt (fun i => r.x i + dt * r.dxdt i) r.dxdt =
        some (fun i => r.x i + dt * r.dxdt i, r.dxdt, fun i => ((b.eval (r.t + dt + eps2) i - b.eval (r.t + dt - eps2) i) / (2 * eps2) - r.dxdt i) / dt) := by
      rw [constraint2, if_pos (Or.inl hdd)]
      rw [if_neg hdt]
    obtain ⟨st', a', h, -, -, -, -, hd, -⟩ := solve2_spec hk r.st hc
    unfold stepBE2 implicitSolve1
    dsimp only
    rw [h]
    refine ⟨_, rfl, rfl, fun i hi => ?_⟩
    dsimp only
    rw [(hd i hi).2.2, eval_mem hg _ hi, eval_mem hg _ hi, rate, mul_div_cancel₀ _ hdt]
    ring
  · obtain ⟨st', a, h, hd⟩ := C20_full hg hk r.st (r.t + dt) (dt * dt) dt (fun i => r.x i + dt * r.dxdt i) r.dxdt hdt
    unfold stepBE2 implicitSolve1
    dsimp only
    rw [h]
    refine ⟨_, rfl, rfl, fun i hi => ?_⟩
    dsimp only
    rw [(hd i hi).2.2, mul_div_cancel₀ _ hdt]
    ring

/-! ## FullControl: the correction after a step -/

/-- What the correction does: every one of the first `k` dofs (`k` the number of constrained dofs) that is *free* has its displacement and
velocity overwritten with zero, and every constrained dof beyond the first `k` is left as the integrator produced it. -/
theorem C20_step_full_wrong (hg : Prescribes b g) (β γ dt : ℝ) (r q : Run2 n) (hq : newmarkStep b .full solve β γ dt r = some q) :
    ∃ r', step2 b .full solve β γ dt r = some r' ∧
      (∀ i, i.val < b.allDofs.length → i ∉ b.allDofs → r'.x i = 0 ∧ r'.dxdt i = 0) ∧
      (∀ i, b.allDofs.length ≤ i.val → r'.x i = q.x i ∧ r'.dxdt i = q.dxdt i) := by
  refine ⟨afterStep b .full q, by rw [step2, hq, Option.map_some], fun i h1 h2 => ?_, fun i h1 => ?_⟩
  · dsimp only [afterStep]
    rw [if_pos h1, if_pos h1, eval_apply hg, eval_apply hg, eval_apply hg, if_neg h2, if_neg h2, if_neg h2]
    simp
  · dsimp only [afterStep]
    rw [if_neg (not_lt.2 h1), if_neg (not_lt.2 h1)]
    exact ⟨rfl, rfl⟩

/-- Such a free dof exists as soon as the constrained dofs are not numbered first. -/
theorem C20_step_full_hits_free_dof (hnd : b.allDofs.Nodup) (i : Fin n) (hi : i ∈ b.allDofs) (hge : b.allDofs.length ≤ i.val) :
    ∃ j : Fin n, j.val < b.allDofs.length ∧ j ∉ b.allDofs := by
  classical
  by_contra hno
  push Not at hno
  have hsub : insert i (Finset.univ.filter fun j : Fin n => j.val < b.allDofs.length) ⊆ b.allDofs.toFinset := by
    intro j hj
    rw [List.mem_toFinset]
    rcases Finset.mem_insert.1 hj with rfl | hj
    · exact hi
    · exact hno j (Finset.mem_filter.1 hj).2
  have hc := Finset.card_le_card hsub
  rw [List.toFinset_card_of_nodup hnd, Finset.card_insert_of_notMem (by simp [hge])] at hc
  have hcard : (Finset.univ.filter fun j : Fin n => j.val < b.allDofs.length).card = b.allDofs.length := by
    have hle : b.allDofs.length ≤ n := le_trans hge i.isLt.le
    have : (Finset.univ.filter fun j : Fin n => j.val < b.allDofs.length) =
        (Finset.univ : Finset (Fin b.allDofs.length)).map (Fin.castLEEmb hle) := by
      ext j
      simp only [Finset.mem_filter, Finset.mem_univ, true_and, Finset.mem_map, Fin.castLEEmb_apply]
      constructor
      · intro h; exact ⟨⟨j.val, h⟩, rfl⟩
      · rintro ⟨k, rfl⟩; exact k.isLt
    rw [this, Finset.card_map, Finset.card_univ, Fintype.card_fin]
  omega

/-- Partial result: when the constrained dofs are exactly the first `k`, the correction gives the documented displacement and rate. -/
theorem C20_step_full_partial (hg : Prescribes b g) (β γ dt : ℝ) (r q : Run2 n) (hq : newmarkStep b .full solve β γ dt r = some q)
    (hfirst : ∀ i, i ∈ b.allDofs ↔ i.val < b.allDofs.length) :
    ∃ r', step2 b .full solve β γ dt r = some r' ∧
      (∀ i ∈ b.allDofs, r'.x i = g r'.t i ∧ r'.dxdt i = rate g eps2 r'.t i) ∧
      (∀ i ∉ b.allDofs, r'.x i = q.x i ∧ r'.dxdt i = q.dxdt i) := by
  refine ⟨afterStep b .full q, by rw [step2, hq, Option.map_some], fun i hi => ?_, fun i hi => ?_⟩
  · have := (hfirst i).1 hi
    dsimp only [afterStep]
    rw [if_pos this, if_pos this, eval_mem hg _ hi, eval_mem hg _ hi, eval_mem hg _ hi]
    exact ⟨rfl, rfl⟩
  · have : ¬ i.val < b.allDofs.length := fun h => hi ((hfirst i).2 h)
    dsimp only [afterStep]
    rw [if_neg this, if_neg this]
    exact ⟨rfl, rfl⟩

/-! ## Non-vacuity -/

/-- Three dofs, the last one driven by `t²`. -/
def exB : BCs 3 := { essentials := [{ dofs := [2], value := fun t _ => t ^ 2 }], allDofs := [2] }

theorem exB_prescribes : Prescribes exB (fun t _ => t ^ 2) := by
  constructor
  · intro bc hbc i _ t
    simp only [exB, List.mem_singleton] at hbc
    subst hbc
    rfl
  · intro i; simp [exB]

example : Prescribes exB (fun t _ => t ^ 2) ∧ Keeps exB (fun (_ : State2 3) v => fun i => if i = 2 then v i else 7) :=
  ⟨exB_prescribes, fun _ v i hi => by simp [exB] at hi; simp [hi]⟩

/-- On this input the FullControl correction zeroes free dof 0. -/
example : ∃ j : Fin 3, j.val < exB.allDofs.length ∧ j ∉ exB.allDofs :=
  C20_step_full_hits_free_dof (by simp [exB]) 2 (by simp [exB]) (by simp [exB])

/-- FullControl's acceleration for a motionless wall and a moving predictor is not zero. -/
example : ¬ (3 : ℝ) + 1 * accel (fun _ _ => 0 : ℝ → Fin 1 → ℝ) eps2 0 0 = rate (fun _ _ => 0) eps2 0 (0 : Fin 1) := by
  simp [accel, rate]

end Serac.C20
