import Verif.Model.GeneralizedAlpha
import Verif.Props.C82
/-!
# C93  Integrators of second-order equations other than Newmark's

`SetTimestepper` offers `HHTAlpha`, `WBZAlpha`, `AverageAcceleration`, `CentralDifference`, … .  Every generalized-α step obeys Newmark's relations and balances the
forces at its α-levels (`C93_relations`).  As `SetTimestepper` constructs them, `HHTAlpha` and `WBZAlpha` are the same method as `Newmark` (`C93_same`): they damp
nothing.  `AverageAcceleration` is the implicit midpoint rule: momentum changes by the impulse of the forces (`C93_momentum`), energy of elastic bodies is kept
(`C93_energy`) and, unlike Newmark's, so is angular momentum of bodies under large deformations (`C93_angular`).  But its boundary values are wrong: see
`C93_boundary`, `C93_boundary_wrong`, `C93_ramp_wrong`, `C93_memory_wrong`.  `CentralDifference` divides by zero under direct control (`C93_central_wrong`).
-/

noncomputable section
namespace Serac.C93
open Ode Finset

/-! ## One step -/

section Step
variable {n : ℕ} {b : BCs n} {g : ℝ → Fin n → ℝ} {m : Enforce} {solve : State2 n → Ode.Vec n → Ode.Vec n}

/-- The correction after a step acts only under full control. -/
theorem after_id (hm : m ≠ .full) (r : Run2 n) : afterStep b m r = r := by
  cases m with
  | full => exact absurd rfl hm
  | direct => rfl
  | rate => rfl

theorem step_alpha (hm : m ≠ .full) (A : Alpha) (dt : ℝ) (r : Run2 n) : stepAlpha b m solve A dt r = alphaStep b m solve A dt r := by
  unfold stepAlpha
  rw [show afterStep b m = id from funext (after_id hm), Option.map_id, id]

/-- **C93, the relations of a generalized-α step.**  With `a` the acceleration at the start (the one carried along, or the one asked for in the first step):
Newmark's relations hold between both ends of the step, and the acceleration at the α-level answers the request of the equation there. -/
theorem C93_relations (hm : m ≠ .full) (A : Alpha) (ham : A.am ≠ 0) (haf : A.af ≠ 0) {dt : ℝ} {r r' : Run2 n} (h : stepAlpha b m solve A dt r = some r') :
    ∃ st a st' aa, (r.first = false → st = r.st ∧ a = r.d2xdt2) ∧ (r.first = true → solve2 b m solve r.st r.t 0 0 r.x r.dxdt = some (st, a)) ∧
      solve2 b m solve st (r.t + A.stage * dt) (A.beta * A.af / A.am * dt * dt) (A.gamma * A.af / A.am * dt)
        ((1 - A.af) • r.x + A.af • r'.x - (A.beta * A.af / A.am * dt * dt) • aa) ((1 - A.af) • r.dxdt + A.af • r'.dxdt - (A.gamma * A.af / A.am * dt) • aa) = some (st', aa) ∧
      aa = (1 - A.am) • a + A.am • r'.d2xdt2 ∧
      r'.x = r.x + dt • r.dxdt + (dt * dt) • ((1 / 2 - A.beta) • a + A.beta • r'.d2xdt2) ∧ r'.dxdt = r.dxdt + dt • ((1 - A.gamma) • a + A.gamma • r'.d2xdt2) ∧
      r'.t = r.t + dt ∧ r'.first = false ∧ r'.st = st' := by
  rw [step_alpha hm] at h
  unfold alphaStep at h
  obtain ⟨⟨st, a⟩, h1, h2⟩ := Option.bind_eq_some_iff.1 h
  dsimp only at h2
  obtain ⟨⟨st', aa⟩, h3, h4⟩ := Option.map_eq_some_iff.1 h2
  refine ⟨st, a, st', aa, fun hf => ?_, fun hf => ?_, ?_, ?_, ?_, ?_, ?_, ?_, ?_⟩
  · rw [hf, if_neg (by decide), Option.some_inj, Prod.mk.injEq] at h1
    exact ⟨h1.1.symm, h1.2.symm⟩
  · rwa [hf, if_pos rfl] at h1
  · refine Eq.trans ?_ h3
    congr 1
    · rw [← h4]
      funext i
      simp only [Pi.add_apply, Pi.sub_apply, Pi.smul_apply, smul_eq_mul]
      field_simp
      ring
    · rw [← h4]
      funext i
      simp only [Pi.add_apply, Pi.sub_apply, Pi.smul_apply, smul_eq_mul]
      field_simp
      ring
  · rw [← h4]
    funext i
    simp only [Pi.add_apply, Pi.smul_apply, smul_eq_mul]
    field_simp
    ring
  · rw [← h4]
    funext i
    simp only [Pi.add_apply, Pi.smul_apply, smul_eq_mul]
    field_simp
    ring
  · rw [← h4]
    funext i
    simp only [Pi.add_apply, Pi.smul_apply, smul_eq_mul]
    field_simp
    ring
  · rw [← h4]
  · rw [← h4]
  · rw [← h4]

/-- With `αm = αf = 1` and the stage at the end of the step it is Newmark's step. -/
theorem alpha_newmark (β γ dt : ℝ) (r : Run2 n) : alphaStep b m solve ⟨1, 1, β, γ, 1⟩ dt r = newmarkStep b m solve β γ dt r := by
  unfold alphaStep newmarkStep
  congr 1
  funext ⟨st, a⟩
  dsimp only
  have e1 : β * 1 / 1 * dt * dt = β * dt * dt := by ring
  have e2 : γ * 1 / 1 * dt = γ * dt := by ring
  have e3 : (fun i => r.x i + 1 * dt * (r.dxdt i + (1 / 2 - β / 1) * dt * a i)) = fun i => r.x i + dt * r.dxdt i + (1 / 2 - β) * dt * dt * a i := by
    funext i
    ring
  have e4 : (fun i => r.dxdt i + 1 * (1 - γ / 1) * dt * a i) = fun i => r.dxdt i + (1 - γ) * dt * a i := by
    funext i
    ring
  rw [e1, e2, e3, e4, one_mul]
  congr 1
  funext ⟨st', aa⟩
  dsimp only
  congr 1
  · funext i
    ring
  · funext i
    ring
  · funext i
    ring

/-- **C93, the same method three times.**  As `SetTimestepper` constructs them, `HHTAlpha` and `WBZAlpha` do what `Newmark` does, in every step, for every way of
prescribing boundary values and whatever the solver does: all that is known about Newmark's average acceleration (C20, C73, C75, C82) holds for them, and they add no
numerical damping. -/
theorem C93_same (dts : List ℝ) (r : Run2 n) :
    runMethod b m solve .HHTAlpha dts r = runMethod b m solve .Newmark dts r ∧ runMethod b m solve .WBZAlpha dts r = runMethod b m solve .Newmark dts r ∧
      runMethod b m solve .Newmark dts r = runSteps (step2 b m solve (1 / 4) (1 / 2)) dts r := by
  have h : ∀ A : Alpha, A = ⟨1, 1, 1 / 4, 1 / 2, 1⟩ → stepBy b m solve (.alpha A) = stepBy b m solve (.newmark (1 / 4) (1 / 2)) := by
    rintro A rfl
    funext dt r
    exact congrArg (Option.map (afterStep b m)) (alpha_newmark (1 / 4) (1 / 2) dt r)
  refine ⟨?_, ?_, rfl⟩
  · change runSteps (stepBy b m solve (.alpha (Alpha.hht 1))) dts r = runSteps (stepBy b m solve (.newmark (1 / 4) (1 / 2))) dts r
    rw [h]
    norm_num [Alpha.hht]
  · change runSteps (stepBy b m solve (.alpha (Alpha.wbz 1))) dts r = runSteps (stepBy b m solve (.newmark (1 / 4) (1 / 2))) dts r
    rw [h]
    norm_num [Alpha.wbz]

/-! ## Boundary values -/

/-- **C93, boundary values.**  Under direct control a generalized-α step with `β, αm, αf ≠ 0` succeeds and puts `(1 - 1/αf) x + U/αf` at the constrained dofs, where `U` is the
prescribed value at the time of the stage: the α-level has the prescribed value, the end of the step is extrapolated. -/
theorem C93_boundary (hg : Prescribes b g) (hk : Keeps b solve) (A : Alpha) (ham : A.am ≠ 0) (haf : A.af ≠ 0) (hβ : A.beta ≠ 0) {dt : ℝ} (hdt : dt ≠ 0) (r : Run2 n) :
    ∃ r', stepAlpha b .direct solve A dt r = some r' ∧ r'.t = r.t + dt ∧ r'.first = false ∧
      ∀ i ∈ b.allDofs, r'.x i = (1 - 1 / A.af) * r.x i + 1 / A.af * g (r.t + A.stage * dt) i := by
  obtain ⟨st, a, hfirst⟩ := C20.first_total hg hk .direct r
  have hc0 : A.beta * A.af / A.am * dt * dt ≠ 0 := by
    have := div_ne_zero (mul_ne_zero hβ haf) ham
    exact mul_ne_zero (mul_ne_zero this hdt) hdt
  rw [step_alpha (by decide)]
  unfold alphaStep
  rw [hfirst, Option.bind_some]
  dsimp only
  have hc : ∀ x1 v1 : Ode.Vec n, constraint2 b .direct (r.t + A.stage * dt) (A.beta * A.af / A.am * dt * dt) (A.gamma * A.af / A.am * dt) x1 v1 =
      some (x1, v1, fun i => (1 / (A.beta * A.af / A.am * dt * dt)) * (b.eval (r.t + A.stage * dt) i - x1 i)) := by
    intro x1 v1
    rw [constraint2, if_pos (Or.inl hc0)]
    rw [if_neg hc0]
  obtain ⟨st', aa, hs, -, -, -, -, hd, -⟩ := solve2_spec hk st (hc _ _)
  rw [hs]
  refine ⟨_, rfl, rfl, rfl, fun i hi => ?_⟩
  dsimp only
  rw [(hd i hi).2.2, eval_mem hg _ hi, ← mul_assoc, mul_one_div_cancel hc0, one_mul]
  congr 2
  ring

/-- **C93, rates under rate control**: the velocity is extrapolated in the same way. -/
theorem C93_rate (hg : Prescribes b g) (hk : Keeps b solve) (A : Alpha) (ham : A.am ≠ 0) (haf : A.af ≠ 0) (hγ : A.gamma ≠ 0) {dt : ℝ} (hdt : dt ≠ 0) (r : Run2 n) :
    ∃ r', stepAlpha b .rate solve A dt r = some r' ∧ r'.t = r.t + dt ∧ r'.first = false ∧
      ∀ i ∈ b.allDofs, r'.dxdt i = (1 - 1 / A.af) * r.dxdt i + 1 / A.af * C20.rate g eps2 (r.t + A.stage * dt) i := by
  obtain ⟨st, a, hfirst⟩ := C20.first_total hg hk .rate r
  have hc1 : A.gamma * A.af / A.am * dt ≠ 0 := mul_ne_zero (div_ne_zero (mul_ne_zero hγ haf) ham) hdt
  rw [step_alpha (by decide)]
  unfold alphaStep
  rw [hfirst, Option.bind_some]
  dsimp only
  have hc : ∀ x1 v1 : Ode.Vec n, constraint2 b .rate (r.t + A.stage * dt) (A.beta * A.af / A.am * dt * dt) (A.gamma * A.af / A.am * dt) x1 v1 =
      some (x1, v1, fun i => ((b.eval (r.t + A.stage * dt + eps2) i - b.eval (r.t + A.stage * dt - eps2) i) / (2 * eps2) - v1 i) / (A.gamma * A.af / A.am * dt)) := by
    intro x1 v1
    rw [constraint2, if_pos (Or.inr hc1)]
    rw [if_neg hc1]
  obtain ⟨st', aa, hs, -, -, -, -, hd, -⟩ := solve2_spec hk st (hc _ _)
  rw [hs]
  refine ⟨_, rfl, rfl, rfl, fun i hi => ?_⟩
  dsimp only
  rw [(hd i hi).2.2, eval_mem hg _ hi, eval_mem hg _ hi, mul_div_cancel₀ _ hc1]
  unfold C20.rate
  congr 2
  ring

/-- Average acceleration: mean velocity, no trace of the acceleration carried along. -/
theorem average_mean (hm : m ≠ .full) (θ : ℝ) {dt : ℝ} {r r' : Run2 n} (h : stepAlpha b m solve (.average θ) dt r = some r') :
    r'.x = r.x + (dt / 2) • (r.dxdt + r'.dxdt) ∧ r'.t = r.t + dt ∧ r'.first = false := by
  obtain ⟨st, a, st', aa, -, -, -, -, hx, hv, ht, hf, -⟩ := C93_relations hm (.average θ) (by norm_num [Alpha.average]) (by norm_num [Alpha.average]) h
  refine ⟨?_, ht, hf⟩
  rw [hx, hv]
  funext i
  simp only [Pi.add_apply, Pi.smul_apply, smul_eq_mul, Alpha.average]
  ring

/-- **C93, boundary values of `AverageAcceleration`** under direct control: `2 U(t + θ dt) - x`.  The step ends at the prescribed value iff the value at the stage is the mean
of old displacement and new prescribed value. -/
theorem C93_average_boundary (hg : Prescribes b g) (hk : Keeps b solve) (θ : ℝ) {dt : ℝ} (hdt : dt ≠ 0) (r : Run2 n) :
    ∃ r', stepAlpha b .direct solve (.average θ) dt r = some r' ∧ r'.t = r.t + dt ∧ r'.first = false ∧ ∀ i ∈ b.allDofs,
      r'.x i = 2 * g (r.t + θ * dt) i - r.x i ∧ r'.dxdt i = 4 / dt * (g (r.t + θ * dt) i - r.x i) - r.dxdt i ∧
      (r'.x i = g r'.t i ↔ g (r.t + θ * dt) i = (r.x i + g (r.t + dt) i) / 2) := by
  obtain ⟨r', h, ht, hf, hd⟩ := C93_boundary hg hk (.average θ) (by norm_num [Alpha.average]) (by norm_num [Alpha.average]) (by norm_num [Alpha.average]) hdt r
  have hmean := (average_mean (by decide) θ h).1
  refine ⟨r', h, ht, hf, fun i hi => ?_⟩
  have hx : r'.x i = 2 * g (r.t + θ * dt) i - r.x i := by
    rw [hd i hi]
    simp only [Alpha.average]
    ring
  have hv := congrFun hmean i
  simp only [Pi.add_apply, Pi.smul_apply, smul_eq_mul] at hv
  refine ⟨hx, ?_, ?_⟩
  · rw [hx] at hv
    generalize g (r.t + θ * dt) i = U at hv ⊢
    field_simp
    linarith
  · rw [hx, ht]
    constructor <;> intro h <;> linarith

end Step

/-- One constrained dof with the history `f`. -/
def driven (f : ℝ → ℝ) : BCs 1 := ⟨[⟨[0], fun t _ => f t⟩], [0]⟩

theorem driven_spec (f : ℝ → ℝ) : Prescribes (driven f) fun t _ => f t := by
  refine ⟨?_, ?_⟩ <;> simp [driven]

section Wrong
variable {solve : State2 1 → Ode.Vec 1 → Ode.Vec 1}

/-- **C93, the boundary values are wrong**, wherever in the step the equation is evaluated: for every stage `θ` there is a polynomial history that `AverageAcceleration` leaves in
the very first step, started with the right value.  With the stage at `t + dt`, as in mfem, any constant rate does. -/
theorem C93_boundary_wrong (θ dt : ℝ) (hdt : dt ≠ 0) : ∃ f : ℝ → ℝ, (f = id ∨ f = fun t => t ^ 2) ∧ (θ = 1 → f = id) ∧
    ∀ (solve : State2 1 → Ode.Vec 1 → Ode.Vec 1), Keeps (driven f) solve → ∀ r : Run2 1, r.x 0 = f r.t →
      ∃ r', stepAlpha (driven f) .direct solve (.average θ) dt r = some r' ∧ r'.x 0 ≠ f r'.t := by
  by_cases h : θ = 1 / 2
  · refine ⟨fun t => t ^ 2, Or.inr rfl, fun h1 => by norm_num [h1] at h, fun solve hk r hr => ?_⟩
    obtain ⟨r', h1, ht, -, hd⟩ := C93_average_boundary (driven_spec _) hk θ hdt r
    refine ⟨r', h1, fun h2 => ?_⟩
    rw [(hd 0 (by simp [driven])).1, hr, ht, h] at h2
    have : dt ^ 2 = 0 := by
      dsimp only at h2
      nlinarith
    exact hdt (pow_eq_zero_iff (by norm_num) |>.1 this)
  · refine ⟨id, Or.inl rfl, fun _ => rfl, fun solve hk r hr => ?_⟩
    obtain ⟨r', h1, ht, -, hd⟩ := C93_average_boundary (driven_spec _) hk θ hdt r
    refine ⟨r', h1, fun h2 => h ?_⟩
    rw [(hd 0 (by simp [driven])).1, hr, ht] at h2
    simp only [id] at h2
    have : dt * (θ - 1 / 2) = 0 := by linarith
    rcases mul_eq_zero.1 this with h3 | h3
    · exact absurd h3 hdt
    · linarith

/-- **C93, velocities without bound.**  A boundary that moves with constant velocity `1`, started with the right displacement and velocity, under direct control and steps of equal
length: after `2k` steps of `AverageAcceleration` the displacement is right and the velocity is `1 - 4k`, after `2k + 1` steps the displacement is one step ahead and the
velocity is `3 + 4k`. -/
theorem C93_ramp_wrong {dt : ℝ} (hdt : dt ≠ 0) (hk : Keeps (driven id) solve) (r : Run2 1) (hx : r.x 0 = r.t) (hv : r.dxdt 0 = 1) (k : ℕ) :
    (∃ r', runMethod (driven id) .direct solve .AverageAcceleration (List.replicate (2 * k) dt) r = some r' ∧ r'.t = r.t + 2 * k * dt ∧
      r'.x 0 = r'.t ∧ r'.dxdt 0 = 1 - 4 * k) ∧
    ∃ r', runMethod (driven id) .direct solve .AverageAcceleration (List.replicate (2 * k + 1) dt) r = some r' ∧ r'.t = r.t + (2 * k + 1) * dt ∧
      r'.x 0 = r'.t + dt ∧ r'.dxdt 0 = 3 + 4 * k := by
  change (∃ r', runSteps (stepAlpha (driven id) .direct solve (.average 1)) _ r = some r' ∧ _) ∧ ∃ r', runSteps (stepAlpha (driven id) .direct solve (.average 1)) _ r = some r' ∧ _
  have snoc : ∀ (j : ℕ) (r r1 r2 : Run2 1), runSteps (stepAlpha (driven id) .direct solve (.average 1)) (List.replicate j dt) r = some r1 →
      stepAlpha (driven id) .direct solve (.average 1) dt r1 = some r2 → runSteps (stepAlpha (driven id) .direct solve (.average 1)) (List.replicate (j + 1) dt) r = some r2 := by
    intro j
    induction j with
    | zero =>
      intro r r1 r2 h1 h2
      obtain rfl := Option.some.inj h1
      change (stepAlpha (driven id) .direct solve (.average 1) dt r).bind (runSteps _ []) = _
      rw [h2]
      rfl
    | succ j ih =>
      intro r r1 r2 h1 h2
      obtain ⟨r', h3, h4⟩ := Option.bind_eq_some_iff.1 h1
      change (stepAlpha (driven id) .direct solve (.average 1) dt r).bind (runSteps _ (List.replicate (j + 1) dt)) = _
      rw [h3, Option.bind_some]
      exact ih r' r1 r2 h4 h2
  have odd : ∀ (k : ℕ) (r1 : Run2 1), r1.t = r.t + 2 * k * dt → r1.x 0 = r1.t → r1.dxdt 0 = 1 - 4 * k →
      ∃ r2, stepAlpha (driven id) .direct solve (.average 1) dt r1 = some r2 ∧ r2.t = r.t + (2 * k + 1) * dt ∧ r2.x 0 = r2.t + dt ∧ r2.dxdt 0 = 3 + 4 * k := by
    intro k r1 ht hx hv
    obtain ⟨r2, h2, ht2, -, hd⟩ := C93_average_boundary (driven_spec _) hk 1 hdt r1
    obtain ⟨e1, e2, -⟩ := hd 0 (by simp [driven])
    refine ⟨r2, h2, ?_, ?_, ?_⟩
    · rw [ht2, ht]
      ring
    · rw [e1, ht2, hx]
      simp only [id]
      ring
    · rw [e2, hx, hv]
      simp only [id]
      field_simp
      ring
  induction k with
  | zero =>
    refine ⟨⟨r, rfl, by simp, hx, by simpa using hv⟩, ?_⟩
    obtain ⟨r2, h2, h3⟩ := odd 0 r (by simp) hx (by simpa using hv)
    exact ⟨r2, snoc 0 r r r2 rfl h2, by simpa using h3⟩
  | succ k ih =>
    obtain ⟨-, r1, h1, ht1, hx1, hv1⟩ := ih
    obtain ⟨r2, h2, ht2, -, hd⟩ := C93_average_boundary (driven_spec _) hk 1 hdt r1
    obtain ⟨e1, e2, -⟩ := hd 0 (by simp [driven])
    have a1 : r2.t = r.t + 2 * (k + 1 : ℕ) * dt := by
      rw [ht2, ht1]
      push_cast
      ring
    have a2 : r2.x 0 = r2.t := by
      rw [e1, ht2, hx1]
      simp only [id]
      ring
    have a3 : r2.dxdt 0 = 1 - 4 * (k + 1 : ℕ) := by
      rw [e2, hx1, hv1]
      simp only [id]
      push_cast
      field_simp
      ring
    have a4 := snoc (2 * k + 1) r r1 r2 h1 h2
    refine ⟨⟨r2, a4, a1, a2, a3⟩, ?_⟩
    obtain ⟨r3, h3, h4⟩ := odd (k + 1) r2 a1 a2 a3
    exact ⟨r3, snoc (2 * k + 2) r r2 r3 a4 h3, h4⟩

end Wrong

section Memory
variable {n : ℕ} {b : BCs n} {g : ℝ → Fin n → ℝ} {solve : State2 n → Ode.Vec n → Ode.Vec n}

/-- **C93, a wrong initial value is never corrected.**  At a support at rest the distance from the prescribed value changes its sign in every step, and so does the velocity up to
`(4/dt)` times that distance; Newmark's methods are right after one step (`C20`). -/
theorem C93_memory_wrong (hg : Prescribes b g) (hk : Keeps b solve) (θ : ℝ) (dts : List ℝ) (hdt : ∀ dt ∈ dts, dt ≠ 0) (r : Run2 n)
    (hrest : ∀ i ∈ b.allDofs, ∀ t t', g t i = g t' i) :
    ∃ r', runSteps (stepAlpha b .direct solve (.average θ)) dts r = some r' ∧ ∀ i ∈ b.allDofs, r'.x i - g r'.t i = (-1) ^ dts.length * (r.x i - g r.t i) := by
  induction dts generalizing r with
  | nil => exact ⟨r, rfl, fun i _ => by simp⟩
  | cons dt dts ih =>
    obtain ⟨r1, h1, ht1, -, hd⟩ := C93_average_boundary hg hk θ (hdt dt List.mem_cons_self) r
    obtain ⟨r2, h2, hd2⟩ := ih (fun x hx => hdt x (List.mem_cons_of_mem _ hx)) r1
    refine ⟨r2, by rw [runSteps, h1, Option.bind_some, h2], fun i hi => ?_⟩
    rw [hd2 i hi, (hd i hi).1, hrest i hi (r.t + θ * dt) r.t, hrest i hi r1.t r.t, List.length_cons, pow_succ]
    ring

/-- **C93, `CentralDifference` divides by zero under direct control**: the acceleration at constrained dofs is divided by `c0 = β dt² = 0`, even if no dof is constrained. -/
theorem C93_central_wrong (dt : ℝ) (hdt : dt ≠ 0) (dts : List ℝ) (r : Run2 n) : runMethod b .direct solve .CentralDifference (dt :: dts) r = none := by
  change (step2 b .direct solve 0 (1 / 2) dt r).bind _ = none
  have : step2 b .direct solve 0 (1 / 2) dt r = none := by
    unfold step2 newmarkStep
    rw [Option.map_eq_none_iff]
    cases (if r.first then (solve2 b .direct solve r.st r.t 0 0 r.x r.dxdt) else some (r.st, r.d2xdt2)) with
    | none => rfl
    | some p =>
      obtain ⟨st, a⟩ := p
      rw [Option.bind_some]
      dsimp only
      have hc : ∀ x1 v1 : Ode.Vec n, constraint2 b .direct (r.t + dt) (0 * dt * dt) (1 / 2 * dt) x1 v1 = none := by
        intro x1 v1
        rw [constraint2, if_pos (Or.inr (mul_ne_zero (by norm_num) hdt))]
        rw [if_pos (by ring)]
      unfold solve2
      rw [hc]
      rfl
  rw [this]
  rfl

end Memory

/-! ## Laws of mechanics under `AverageAcceleration` -/

open Serac.Solid Serac.Transform
open Serac.C71 (M Shapes)

section Algebra
variable {V : Type} [AddCommGroup V] [Module ℝ V] (m k : V →ₗ[ℝ] V →ₗ[ℝ] ℝ)

/-- Implicit midpoint: the energy changes by the work of the load at the stage. -/
theorem midpoint_energy (hm : ∀ v w, m v w = m w v) (hk : ∀ v w, k v w = k w v) (f : V →ₗ[ℝ] ℝ) {dt : ℝ} (x v a x' v' : V)
    (hx : x' = x + (dt / 2) • (v + v')) (hv : v' = v + dt • a) (h : m a (x' - x) + k ((1 / 2 : ℝ) • x + (1 / 2 : ℝ) • x') (x' - x) = f (x' - x)) :
    1 / 2 * m v' v' + 1 / 2 * k x' x' = 1 / 2 * m v v + 1 / 2 * k x x + f (x' - x) := by
  have e1 : m v' v' - m v v = m (v' - v) (v + v') := by
    simp only [map_sub, map_add, LinearMap.sub_apply]
    rw [hm v v']
    ring
  have e2 : k x' x' - k x x = 2 * k ((1 / 2 : ℝ) • x + (1 / 2 : ℝ) • x') (x' - x) := by
    simp only [map_sub, map_add, map_smul, LinearMap.add_apply, LinearMap.smul_apply, smul_eq_mul]
    rw [hk x x']
    ring
  have e3 : x' - x = (dt / 2) • (v + v') := by
    rw [hx]
    module
  have e4 : v' - v = dt • a := by
    rw [hv]
    module
  have e5 : m (v' - v) (v + v') = 2 * m a (x' - x) := by
    rw [e4, e3]
    simp only [map_smul, LinearMap.smul_apply, smul_eq_mul]
    ring
  linarith

end Algebra

section Laws
variable {d : Dim} {L : Loaded d} {s sF : Shapes} {b : BCs L.B.N} {g : ℝ → Fin L.B.N → ℝ} {solve : State2 L.B.N → Ode.Vec L.B.N → Ode.Vec L.B.N}

/-- The forces are in balance at the midpoint of a step from `r` to `r'`, at the time of the stage. -/
def Midpoint (L : Loaded d) (s : Shapes) (fixed : List (Fin L.B.N)) (θ dt : ℝ) (r r' : Run2 L.B.N) : Prop :=
  ∃ a : Ode.Vec L.B.N, r'.dxdt = r.dxdt + dt • a ∧ C75.Balanced L fixed (r.t + θ * dt) ((1 / 2 : ℝ) • r.x + (1 / 2 : ℝ) • r'.x) a ∧
    C73.Defined L.B s ((1 / 2 : ℝ) • r.x + (1 / 2 : ℝ) • r'.x)

/-- The solver found a root in every step of a run. -/
def Solved (L : Loaded d) (s : Shapes) (b : BCs L.B.N) (solve : State2 L.B.N → Ode.Vec L.B.N → Ode.Vec L.B.N) (θ : ℝ) : List ℝ → Run2 L.B.N → Prop
  | [], _ => True
  | dt :: dts, r => ∃ r', stepAlpha b .direct solve (.average θ) dt r = some r' ∧ Midpoint L s b.allDofs θ dt r r' ∧ Solved L s b solve θ dts r'

/-- A solver that always finds a root does so in every step. -/
theorem midpoint_step (h : C75.Solves L s b solve) (hg : Prescribes b g) (θ : ℝ) {dt : ℝ} (hdt : dt ≠ 0) (r : Run2 L.B.N) :
    ∃ r', stepAlpha b .direct solve (.average θ) dt r = some r' ∧ Midpoint L s b.allDofs θ dt r r' := by
  obtain ⟨r', h1, -⟩ := C93_average_boundary hg h.keeps θ hdt r
  refine ⟨r', h1, ?_⟩
  obtain ⟨st, a, st', aa, -, -, hs, haa, -, hv, -, -, -⟩ := C93_relations (by decide) (.average θ) (by norm_num [Alpha.average]) (by norm_num [Alpha.average]) h1
  have hc0 : (Alpha.average θ).beta * (Alpha.average θ).af / (Alpha.average θ).am * dt * dt = dt * dt / 4 := by
    simp only [Alpha.average]
    ring
  rw [hc0] at hs
  have hne : dt * dt / 4 ≠ 0 := div_ne_zero (mul_ne_zero hdt hdt) (by norm_num)
  have hfix : ∀ i ∈ b.allDofs, st'.u i = ((1 - (Alpha.average θ).af) • r.x + (Alpha.average θ).af • r'.x - (dt * dt / 4) • aa) i := by
    intro i hi
    have hc : ∀ (t c1 : ℝ) (x1 v1 : Ode.Vec L.B.N), constraint2 b .direct t (dt * dt / 4) c1 x1 v1 = some (x1, v1, fun i => (1 / (dt * dt / 4)) * (b.eval t i - x1 i)) := by
      intro t c1 x1 v1
      rw [constraint2, if_pos (Or.inl hne)]
      rw [if_neg hne]
    obtain ⟨st1, a1, hs1, -, -, -, -, hd, -⟩ := solve2_spec h.keeps st (hc (r.t + (Alpha.average θ).stage * dt)
      ((Alpha.average θ).gamma * (Alpha.average θ).af / (Alpha.average θ).am * dt) ((1 - (Alpha.average θ).af) • r.x + (Alpha.average θ).af • r'.x - (dt * dt / 4) • aa)
      ((1 - (Alpha.average θ).af) • r.dxdt + (Alpha.average θ).af • r'.dxdt - ((Alpha.average θ).gamma * (Alpha.average θ).af / (Alpha.average θ).am * dt) • aa))
    have := Option.some.inj (hs1.symm.trans hs)
    rw [Prod.mk.injEq] at this
    rw [← this.1]
    exact (hd i hi).1
  obtain ⟨hb, hd⟩ := C75.stage h (by have := mul_self_nonneg dt; linarith) hs hfix
  have e : (1 - (Alpha.average θ).af) • r.x + (Alpha.average θ).af • r'.x - (dt * dt / 4) • aa + (dt * dt / 4) • aa = (1 / 2 : ℝ) • r.x + (1 / 2 : ℝ) • r'.x := by
    funext i
    simp only [Alpha.average, Pi.add_apply, Pi.sub_apply, Pi.smul_apply, smul_eq_mul]
    ring
  rw [e] at hb hd
  refine ⟨aa, ?_, hb, hd⟩
  rw [hv, haa]
  funext i
  simp only [Alpha.average, Pi.add_apply, Pi.smul_apply, smul_eq_mul]

/-- **C93, existence**: with a solver that finds roots every run is `Solved`. -/
theorem C93_solved (h : C75.Solves L s b solve) (hg : Prescribes b g) (θ : ℝ) (dts : List ℝ) (hdt : ∀ dt ∈ dts, dt ≠ 0) (r : Run2 L.B.N) : Solved L s b solve θ dts r := by
  induction dts generalizing r with
  | nil => trivial
  | cons dt dts ih =>
    obtain ⟨r', h1, h2⟩ := midpoint_step h hg θ (hdt dt List.mem_cons_self) r
    exact ⟨r', h1, h2, ih (fun x hx => hdt x (List.mem_cons_of_mem _ hx)) r'⟩

/-- The impulse of a force over steps, with its value at the stage. -/
def impulse (θ : ℝ) (F : ℝ → ℝ) : ℝ → List ℝ → ℝ
  | _, [] => 0
  | t, dt :: dts => dt * F (t + θ * dt) + impulse θ F (t + dt) dts

/-- **C93, momentum.**  The momentum of a free body changes by the impulse of body forces and loads, whatever the material. -/
theorem C93_momentum (hm : C71.Meaning L.B.S s) (hn : C71.Nondegenerate L.B.S s) (hf : C73.Domains L.B) (hu : C71.Unity L.B.S s) (hF : C75.Meaning L.F sF d)
    (hl : C75.AllGood L sF) (huF : C75.Unity L.F sF d) (hb : b.allDofs = []) (θ : ℝ) (push : ℝ → (Fin d.n → ℝ) → ℝ) (hp : ∀ t u c, C75.thrust L sF t u c = push t c)
    (dts : List ℝ) (r : Run2 L.B.N) (hr : Solved L s b solve θ dts r) :
    ∃ r', runSteps (stepAlpha b .direct solve (.average θ)) dts r = some r' ∧
      ∀ c, C73.total L.B s r'.dxdt c = C73.total L.B s r.dxdt c + impulse θ (fun t => C73.resultant L.B s t c + push t c) r.t dts := by
  induction dts generalizing r with
  | nil => exact ⟨r, rfl, fun c => by simp [impulse]⟩
  | cons dt dts ih =>
    obtain ⟨r1, h1, ⟨a, hv, hbal, hdef⟩, hs⟩ := hr
    obtain ⟨r2, h2, hc2⟩ := ih r1 hs
    refine ⟨r2, by rw [runSteps, h1, Option.bind_some, h2], fun c => ?_⟩
    rw [hb] at hbal
    have e0 := C75.C75_newton hm hn hf hu hF hl huF hdef (fun k => hbal k List.not_mem_nil) c
    rw [hp] at e0
    rw [hc2 c, impulse, hv, (average_mean (by decide) θ h1).2.1, show r.dxdt + dt • a = (1 : ℝ) • r.dxdt + dt • a by rw [one_smul], C73.total_lin, e0]
    ring

variable {C : ℕ → M d.n →ₗ[ℝ] M d.n}

/-- **C93, work.**  In a step of an elastic body with dead loads the energy changes by the work of the forces at the stage, if the constrained dofs do not move. -/
theorem C93_work (hm : C71.Meaning L.B.S s) (hn : C71.Nondegenerate L.B.S s) (hf : C73.Domains L.B) (hF : C75.Meaning L.F sF d) (hl : C75.AllGood L sF) (hD : C75.Dead L)
    (hC : C73.Elastic L.B C) {θ dt : ℝ} {r r' : Run2 L.B.N} (h : stepAlpha b .direct solve (.average θ) dt r = some r') (hr : Midpoint L s b.allDofs θ dt r r')
    (hδ : ∀ i ∈ b.allDofs, r'.x i = r.x i) :
    C73.energy L.B s C r'.x r'.dxdt = C73.energy L.B s C r.x r.dxdt + C75.force L s sF (r.t + θ * dt) (r'.x - r.x) := by
  obtain ⟨a, hv, hbal, -⟩ := hr
  have e0 := C75.balanced_tested hm hn hf hF hl hD hC hbal (v := r'.x - r.x) fun i hi => by rw [Pi.sub_apply, hδ i hi, sub_self]
  exact midpoint_energy (C73.massForm L.B s) (C73.strainForm L.B s hC) C73.inertia_symm (C73.strain_symm hC) (C75.forceForm L s sF (r.t + θ * dt)) r.x r.dxdt a r'.x r'.dxdt
    (average_mean (by decide) θ h).1 hv e0

/-- **C93, energy.**  An elastic body with resting supports and constant dead loads keeps the sum of kinetic, elastic and potential energy exactly, for any number of steps of any
lengths. -/
theorem C93_energy (hm : C71.Meaning L.B.S s) (hn : C71.Nondegenerate L.B.S s) (hf : C73.Domains L.B) (hF : C75.Meaning L.F sF d) (hl : C75.AllGood L sF) (hD : C75.Dead L)
    (hC : C73.Elastic L.B C) (h : C75.Solves L s b solve) (hg : Prescribes b g) (hrest : ∀ i ∈ b.allDofs, ∀ t t', g t i = g t' i)
    (hconst : ∀ f ∈ L.B.forces, ∀ t t' p, f.value t p = f.value t' p) (hS : C75.Steady L) (θ : ℝ) (dts : List ℝ) (hdt : ∀ dt ∈ dts, dt ≠ 0) (r : Run2 L.B.N)
    (hr : ∀ i ∈ b.allDofs, r.x i = g r.t i) :
    ∃ r', runSteps (stepAlpha b .direct solve (.average θ)) dts r = some r' ∧
      C73.energy L.B s C r'.x r'.dxdt - C75.force L s sF 0 r'.x = C73.energy L.B s C r.x r.dxdt - C75.force L s sF 0 r.x := by
  have hl' : ∀ t v, C75.force L s sF t v = C75.forceForm L s sF 0 v := by
    intro t v
    change C75.force L s sF t v = C75.force L s sF 0 v
    unfold C75.force C73.load
    rw [C75.steady_external hS t 0]
    congr 2
    exact List.map_congr_left fun f hf => C73.integral_congr fun ee _ Q _ => by rw [hconst f hf t 0]
  induction dts generalizing r with
  | nil => exact ⟨r, rfl, rfl⟩
  | cons dt dts ih =>
    obtain ⟨r1, h1, hmid⟩ := midpoint_step h hg θ (hdt dt List.mem_cons_self) r
    obtain ⟨r1', h1', -, -, hd⟩ := C93_average_boundary hg h.keeps θ (hdt dt List.mem_cons_self) r
    obtain rfl := Option.some.inj (h1.symm.trans h1')
    have hfix : ∀ i ∈ b.allDofs, r1.x i = g r1.t i := fun i hi => by
      rw [(hd i hi).1, hr i hi, hrest i hi (r.t + θ * dt) r1.t, hrest i hi r.t r1.t]
      ring
    have hE := C93_work hm hn hf hF hl hD hC h1 hmid fun i hi => by rw [hfix i hi, hr i hi, hrest i hi r1.t r.t]
    obtain ⟨r2, h2, hE2⟩ := ih (fun x hx => hdt x (List.mem_cons_of_mem _ hx)) r1 hfix
    refine ⟨r2, by rw [runSteps, h1, Option.bind_some, h2], hE2.trans ?_⟩
    rw [hl', map_sub] at hE
    rw [hl', hl']
    linarith

/-! ### Angular momentum -/

/-- Current places of the nodes (the reference places if geometric nonlinearities are off). -/
def places (L : Loaded d) (X : L.B.S.Nodal) (u : Ode.Vec L.B.N) : L.B.S.Nodal := fun n k => X n k + if L.B.S.on then L.B.nodal u n k else 0

/-- Angular momentum about the origin, in the plane of the axes `i` and `j`. -/
def angular (L : Loaded d) (s : Shapes) (X : L.B.S.Nodal) (u v : Ode.Vec L.B.N) (i j : Fin d.n) : ℝ :=
  C73.integral L.B s L.B.S.elements fun ee Q => L.B.S.density * (C71.value L.B.S s (places L X u) ee.1 Q i * C73.val L.B s v ee.1 Q j -
    C71.value L.B.S s (places L X u) ee.1 Q j * C73.val L.B s v ee.1 Q i)

theorem places_value (X : L.B.S.Nodal) (u : Ode.Vec L.B.N) (e Q : ℕ) (i : Fin d.n) :
    C71.value L.B.S s (places L X u) e Q i = C71.value L.B.S s X e Q i + if L.B.S.on then C73.val L.B s u e Q i else 0 := by
  unfold C73.val C71.value places
  cases L.B.S.on <;> simp [add_mul, sum_add_distrib]

/-- **C93, angular momentum in a step.**  For any material with symmetric stresses, with or without geometric nonlinearities, the angular momentum of a free body changes by
`dt` times the moment of body forces and loads at the midpoint. -/
theorem C93_angular_step (hm : C71.Meaning L.B.S s) (hn : C71.Nondegenerate L.B.S s) (hf : C73.Domains L.B) (hF : C75.Meaning L.F sF d) (hl : C75.AllGood L sF)
    (X : L.B.S.Nodal) (hX : C71.Positions L.B.S s X) (hs : C71.Symmetric L.B.S) (hb : b.allDofs = []) {θ dt : ℝ} {r r' : Run2 L.B.N}
    (h : stepAlpha b .direct solve (.average θ) dt r = some r') (hr : Midpoint L s b.allDofs θ dt r r') (i j : Fin d.n) :
    angular L s X r'.x r'.dxdt i j = angular L s X r.x r.dxdt i j + dt *
      (C75.bodyMoment L s (r.t + θ * dt) (places L X ((1 / 2 : ℝ) • r.x + (1 / 2 : ℝ) • r'.x)) i j +
        C75.torque L sF (r.t + θ * dt) ((1 / 2 : ℝ) • r.x + (1 / 2 : ℝ) • r'.x) (places L X ((1 / 2 : ℝ) • r.x + (1 / 2 : ℝ) • r'.x)) i j) := by
  obtain ⟨a, hv, hbal, hdef⟩ := hr
  have hx := (average_mean (by decide) θ h).1
  rw [hb] at hbal
  have h0 := C75.C75_moment hm hn hf hF hl X hX hs (r.t + θ * dt) ((1 / 2 : ℝ) • r.x + (1 / 2 : ℝ) • r'.x) a hdef i j
  dsimp only at h0
  have hz : L.B.nodal (L.residual (r.t + θ * dt) ((1 / 2 : ℝ) • r.x + (1 / 2 : ℝ) • r'.x) a) = 0 := by
    funext n k
    unfold Body.nodal
    exact hbal _ List.not_mem_nil
  rw [hz, sum_eq_zero fun n _ => by simp] at h0
  have h1 : C75.bodyMoment L s (r.t + θ * dt) (places L X ((1 / 2 : ℝ) • r.x + (1 / 2 : ℝ) • r'.x)) i j +
        C75.torque L sF (r.t + θ * dt) ((1 / 2 : ℝ) • r.x + (1 / 2 : ℝ) • r'.x) (places L X ((1 / 2 : ℝ) • r.x + (1 / 2 : ℝ) • r'.x)) i j =
      angular L s X ((1 / 2 : ℝ) • r.x + (1 / 2 : ℝ) • r'.x) a i j := by
    unfold angular places
    linarith
  rw [h1]
  have hx' : r'.x = (1 : ℝ) • r.x + (dt / 2) • ((1 : ℝ) • r.dxdt + (1 : ℝ) • r'.dxdt) := by rw [one_smul, one_smul, one_smul]; exact hx
  have hv' : r'.dxdt = (1 : ℝ) • r.dxdt + dt • a := by rw [one_smul]; exact hv
  have e := C73.integral_lin (B := L.B) (s := s) L.B.S.elements 1 dt (fun ee Q => L.B.S.density * (C71.value L.B.S s (places L X r.x) ee.1 Q i * C73.val L.B s r.dxdt ee.1 Q j -
      C71.value L.B.S s (places L X r.x) ee.1 Q j * C73.val L.B s r.dxdt ee.1 Q i))
    (fun ee Q => L.B.S.density * (C71.value L.B.S s (places L X ((1 / 2 : ℝ) • r.x + (1 / 2 : ℝ) • r'.x)) ee.1 Q i * C73.val L.B s a ee.1 Q j -
      C71.value L.B.S s (places L X ((1 / 2 : ℝ) • r.x + (1 / 2 : ℝ) • r'.x)) ee.1 Q j * C73.val L.B s a ee.1 Q i))
  rw [one_mul] at e
  refine Eq.trans ?_ e
  unfold angular
  refine C73.integral_congr fun ee _ Q _ => ?_
  have w : ∀ k, C73.val L.B s r'.dxdt ee.1 Q k = C73.val L.B s r.dxdt ee.1 Q k + dt * C73.val L.B s a ee.1 Q k := by
    intro k
    rw [hv', C73.val_lin, one_mul]
  have y : ∀ k, C73.val L.B s r'.x ee.1 Q k = C73.val L.B s r.x ee.1 Q k + dt / 2 * (C73.val L.B s r.dxdt ee.1 Q k + C73.val L.B s r'.dxdt ee.1 Q k) := by
    intro k
    rw [hx', C73.val_lin, C73.val_lin, one_mul, one_mul, one_mul]
  simp only [places_value, C73.val_lin]
  cases L.B.S.on with
  | false =>
    simp only [Bool.false_eq_true, if_false, add_zero, w]
    ring
  | true =>
    simp only [if_true, y, w]
    ring

/-- **C93, angular momentum.**  A free body without body forces and loads keeps its angular momentum exactly, for any number of steps of any lengths, however large its deformations
and whatever its material, as long as stresses are symmetric. -/
theorem C93_angular (hm : C71.Meaning L.B.S s) (hn : C71.Nondegenerate L.B.S s) (hF : C75.Meaning L.F sF d) (hforce : L.B.forces = []) (hloads : L.loads = [])
    (X : L.B.S.Nodal) (hX : C71.Positions L.B.S s X) (hs : C71.Symmetric L.B.S) (hb : b.allDofs = []) (θ : ℝ) (dts : List ℝ) (r : Run2 L.B.N) (hr : Solved L s b solve θ dts r) :
    ∃ r', runSteps (stepAlpha b .direct solve (.average θ)) dts r = some r' ∧ ∀ i j, angular L s X r'.x r'.dxdt i j = angular L s X r.x r.dxdt i j := by
  have hf : C73.Domains L.B := fun f h => by rw [hforce] at h; exact absurd h List.not_mem_nil
  have hl : C75.AllGood L sF := fun l h => by rw [hloads] at h; exact absurd h List.not_mem_nil
  induction dts generalizing r with
  | nil => exact ⟨r, rfl, fun i j => rfl⟩
  | cons dt dts ih =>
    obtain ⟨r1, h1, hmid, hsol⟩ := hr
    obtain ⟨r2, h2, hc2⟩ := ih r1 hsol
    refine ⟨r2, by rw [runSteps, h1, Option.bind_some, h2], fun i j => (hc2 i j).trans ?_⟩
    rw [C93_angular_step (sF := sF) hm hn hf hF hl X hX hs hb h1 hmid i j]
    unfold C75.bodyMoment C75.torque
    rw [hforce, hloads]
    simp

end Laws

/-! ## Examples -/

section Example
open Serac.Kernels

/-- HHT with `α = 0.7` and a driven dof: the boundary value is extrapolated. -/
example (r : Run2 1) : ∃ r', stepAlpha (driven fun t => t ^ 3) .direct (fun _ v => v) (.hht (7 / 10)) (1 / 8) r = some r' ∧ r'.t = r.t + 1 / 8 ∧ r'.first = false ∧
    ∀ i ∈ [(0 : Fin 1)], r'.x i = (1 - 1 / (7 / 10)) * r.x i + 1 / (7 / 10) * (r.t + 1 * (1 / 8)) ^ 3 :=
  C93_boundary (driven_spec _) (fun _ _ _ _ => rfl) (.hht (7 / 10)) (by norm_num [Alpha.hht]) (by norm_num [Alpha.hht]) (by norm_num [Alpha.hht]) (by norm_num) r

example (r : Run2 1) : ∃ r', stepAlpha (driven fun t => t ^ 3) .rate (fun _ v => v) (.wbz (1 / 2)) (1 / 8) r = some r' ∧ r'.t = r.t + 1 / 8 ∧ r'.first = false ∧
    ∀ i ∈ [(0 : Fin 1)], r'.dxdt i = (1 - 1 / 1) * r.dxdt i + 1 / 1 * C20.rate (fun t _ => t ^ 3) eps2 (r.t + 1 * (1 / 8)) i :=
  C93_rate (driven_spec _) (fun _ _ _ _ => rfl) (.wbz (1 / 2)) (by norm_num [Alpha.wbz]) (by norm_num [Alpha.wbz]) (by norm_num [Alpha.wbz]) (by norm_num) r

/-- After a thousand steps a boundary that moves with velocity `1` has velocity `-1999`. -/
example (st : State2 1) : ∃ r', runMethod (driven id) .direct (fun _ v => v) .AverageAcceleration (List.replicate 1000 (1 / 100)) ⟨st, fun _ => 0, fun _ => 1, fun _ => 0, true, 0⟩ = some r' ∧
    r'.dxdt 0 = -1999 := by
  obtain ⟨⟨r', h1, -, -, h2⟩, -⟩ := C93_ramp_wrong (dt := 1 / 100) (by norm_num) (solve := fun _ v => v) (fun _ _ _ _ => rfl)
    ⟨st, fun _ => 0, fun _ => 1, fun _ => 0, true, 0⟩ rfl rfl 500
  exact ⟨r', h1, by rw [h2]; norm_num⟩

/-- A support that starts one unit off. -/
example (st : State2 1) : ∃ r', runSteps (stepAlpha (driven fun _ => 0) .direct (fun _ v => v) (.average 1)) [1, 2, 3] ⟨st, fun _ => 1, fun _ => 0, fun _ => 0, true, 0⟩ = some r' ∧
    ∀ i ∈ [(0 : Fin 1)], r'.x i - 0 = (-1) ^ 3 * (1 - 0) :=
  C93_memory_wrong (driven_spec _) (fun _ _ _ _ => rfl) 1 [1, 2, 3] (by norm_num) ⟨st, fun _ => 1, fun _ => 0, fun _ => 0, true, 0⟩ fun _ _ _ _ => rfl

/-- Clamped, gravity, a constant traction and a pressure, from rest, with the Newton solver of C82. -/
example (o : Newton.Options) (ho : C81.Iterates o) (old old' : Buffer ℝ) (rep : Newton.Report) (θ : ℝ) (dts : List ℝ) (hdt : ∀ dt ∈ dts, dt ≠ 0) (st : State2 10) :
    ∃ r', runSteps (stepAlpha C73.exClamp .direct
        ((C75.exLoaded [C73.exGravity] [C75.exHold, C75.exPressure]).dynamicSolve C82.exModuli old old' (C82.exSolver o) C73.exClamp.allDofs rep) (.average θ)) dts ⟨st, 0, 0, 0, true, 0⟩ = some r' ∧
      C73.energy (C73.exBody [C73.exGravity]) C72.exShapes (fun _ => C73.isotropic 2 2 1) r'.x r'.dxdt -
        C75.force (C75.exLoaded [C73.exGravity] [C75.exHold, C75.exPressure]) C72.exShapes C75.exSF 0 r'.x =
      C73.energy (C73.exBody [C73.exGravity]) C72.exShapes (fun _ => C73.isotropic 2 2 1) 0 0 -
        C75.force (C75.exLoaded [C73.exGravity] [C75.exHold, C75.exPressure]) C72.exShapes C75.exSF 0 0 := by
  have h := C82.ex_massive [C75.exHold, C75.exPressure] (by simp)
  refine C93_energy (L := C75.exLoaded [C73.exGravity] [C75.exHold, C75.exPressure]) h.good.meaning h.good.nondegenerate h.good.domains h.good.faces h.good.loads h.good.dead h.good.elastic
    (C82.C82_solves h (C82.ex_moduli _) old old' (C82.ex_exact o) (C82.ex_rows o) (C82.ex_length o) ho C73.exClamp rep) C73.ex_clamp (fun _ _ _ _ => rfl) ?_ ?_ θ dts hdt
    ⟨st, 0, 0, 0, true, 0⟩ fun _ _ => rfl
  · intro f hf t t' p
    obtain rfl : f = C73.exGravity := by simpa [C75.exLoaded, C73.exBody] using hf
    rfl
  · intro l hl t t'
    have : l = C75.exHold ∨ l = C75.exPressure := by simpa [C75.exLoaded] using hl
    rcases this with rfl | rfl
    · exact fun _ _ => rfl
    · exact fun _ => rfl

/-- Nothing fixed, gravity, a growing traction and a pressure. -/
example (o : Newton.Options) (ho : C81.Iterates o) (old old' : Buffer ℝ) (rep : Newton.Report) (θ : ℝ) (dts : List ℝ) (hdt : ∀ dt ∈ dts, dt ≠ 0) (r : Run2 10) :
    ∃ r', runSteps (stepAlpha ⟨[], []⟩ .direct
        ((C75.exLoaded [C73.exGravity] [C75.exTraction, C75.exPressure]).dynamicSolve C82.exModuli old old' (C82.exSolver o) [] rep) (.average θ)) dts r = some r' ∧
      ∀ c, C73.total (C73.exBody [C73.exGravity]) C72.exShapes r'.dxdt c = C73.total (C73.exBody [C73.exGravity]) C72.exShapes r.dxdt c +
        impulse θ (fun t => C73.resultant (C73.exBody [C73.exGravity]) C72.exShapes t c +
          C75.thrust (C75.exLoaded [C73.exGravity] [C75.exTraction, C75.exPressure]) C75.exSF t 0 c) r.t dts := by
  have h := C82.ex_massive [C75.exTraction, C75.exPressure] (by simp)
  exact C93_momentum (L := C75.exLoaded [C73.exGravity] [C75.exTraction, C75.exPressure]) (b := ⟨[], []⟩) h.good.meaning h.good.nondegenerate h.good.domains (C73.ex_unity _) h.good.faces
    h.good.loads C75.ex_faces_unity rfl θ _ (fun t u c => C75.C75_dead_thrust h.good.dead t u c) dts r
    (C93_solved (g := fun _ _ => 0) (C82.C82_solves h (C82.ex_moduli _) old old' (C82.ex_exact o) (C82.ex_rows o) (C82.ex_length o) ho ⟨[], []⟩ rep) ⟨by simp, by simp⟩ θ dts hdt r)

/-- A free neo-Hookean body under large deformations. -/
def exFree : Loaded .two := ⟨⟨C71.exSetup, [], 10, (finProdFinEquiv : Fin 5 × Fin 2 ≃ Fin (5 * 2))⟩, C75.exFaces, []⟩

theorem ex_symmetric : C71.Symmetric exFree.B.S := fun _ H σ h => (C31.C31_neoHookean 1 1).1.2.1.2 H σ h

/-- A body that was only displaced is free of stress. -/
theorem ex_unstressed (w : Fin 2 → ℝ) : C71.Stress exFree.B.S C71.exShapes (exFree.B.nodal (C73.shift exFree.B w)) fun _ _ => 0 := by
  intro ee _ Q hQ
  have : C71.grad exFree.B.S C71.exShapes (exFree.B.nodal (C73.shift exFree.B w)) ee.1 Q = 0 := by
    rw [C73.nodal_shift]
    unfold C71.grad
    exact (congrArg (· * _) (C71.parGrad_const C71.ex_unity w ee.1 hQ)).trans (Matrix.zero_mul _)
  rw [this]
  change Piola.materialFlux (ops .two) true (Mat.nh2 1 1) 0 = some 0
  unfold Piola.materialFlux
  rw [(C31.C31_neoHookean 1 1).1.1, Option.bind_some, C33.flux_eq (C71.ops_exact .two), if_pos rfl]
  simp

theorem ex_balanced (t : ℝ) (w : Fin 2 → ℝ) : C75.Balanced exFree [] t (C73.shift exFree.B w) 0 := by
  intro k _
  have h := C75.C75_weak_form (L := exFree) (sF := C75.exSF) C71.ex_meaning C71.ex_nondegenerate (fun f h => absurd h List.not_mem_nil) C75.ex_faces (fun l h => absurd h List.not_mem_nil) t
    (C73.shift exFree.B w) 0 (Pi.single k 1) _ (ex_unstressed w)
  have e : ∑ j, exFree.residual t (C73.shift exFree.B w) 0 j * (Pi.single k 1 : Ode.Vec exFree.B.N) j = exFree.residual t (C73.shift exFree.B w) 0 k := by simp [Pi.single_apply]
  have i0 : C73.inertia exFree.B C71.exShapes 0 (Pi.single k 1) = 0 := by
    have := C73.inertia_lin (B := exFree.B) (s := C71.exShapes) 0 0 0 0 (Pi.single k 1)
    simpa using this
  rw [e, i0, C73.integral_congr (g := fun _ _ => 0) fun ee _ Q _ => by simp, C73.integral_zero] at h
  rw [h]
  simp [C73.load, C75.external, exFree]

theorem shift_lin (x y : ℝ) (v w : Fin 2 → ℝ) : x • C73.shift exFree.B v + y • C73.shift exFree.B w = C73.shift exFree.B (x • v + y • w) := by
  funext k
  rfl

theorem ex_flight (θ : ℝ) (c : Fin 2 → ℝ) (dts : List ℝ) (hdt : ∀ dt ∈ dts, dt ≠ 0) (r : Run2 10) (hx : ∃ w, r.x = C73.shift exFree.B w) (hv : r.dxdt = C73.shift exFree.B c)
    (ha : r.first = false → r.d2xdt2 = 0) : Solved exFree C71.exShapes ⟨[], []⟩ (fun _ _ => 0) θ dts r := by
  induction dts generalizing r with
  | nil => trivial
  | cons dt dts ih =>
    obtain ⟨r', h1, ht, hf, -⟩ := C93_average_boundary (b := ⟨[], []⟩) (g := fun _ _ => 0) (solve := fun _ _ => 0) ⟨by simp, by simp⟩ (fun _ _ _ h => absurd h List.not_mem_nil) θ
      (hdt dt List.mem_cons_self) r
    obtain ⟨st, a, st', aa, a0, a1, hs, haa, hx', hv', -⟩ := C93_relations (by decide) (.average θ) (by norm_num [Alpha.average]) (by norm_num [Alpha.average]) h1
    have z : ∀ {st st' : State2 10} {t c0 c1 : ℝ} {u v w : Ode.Vec 10}, solve2 ⟨[], []⟩ .direct (fun _ _ => 0) st t c0 c1 u v = some (st', w) → w = 0 := by
      intro st st' t c0 c1 u v w h
      obtain ⟨_, h2, h3⟩ := Option.map_eq_some_iff.1 h
      rw [Prod.mk.injEq] at h3
      exact h3.2.symm
    have ha0 : a = 0 := by
      cases hfirst : r.first with
      | true => exact z (a1 hfirst)
      | false => rw [(a0 hfirst).2, ha hfirst]
    have haa0 := z hs
    have ha' : r'.d2xdt2 = 0 := by
      rw [haa0, ha0] at haa
      funext i
      have := congrFun haa i
      simp [Alpha.average] at this
      simpa using this
    rw [ha0, ha'] at hx' hv'
    simp only [smul_zero, add_zero] at hx' hv'
    obtain ⟨w, hw⟩ := hx
    have hmid : (1 / 2 : ℝ) • r.x + (1 / 2 : ℝ) • r'.x = C73.shift exFree.B ((1 / 2 : ℝ) • w + (1 / 2 : ℝ) • ((1 : ℝ) • w + dt • c)) := by
      rw [← shift_lin, ← shift_lin, hx', hw, hv, one_smul]
      rfl
    refine ⟨r', h1, ⟨0, by rw [hv', smul_zero, add_zero], ?_, ?_⟩, ih (fun x hx => hdt x (List.mem_cons_of_mem _ hx)) r' ⟨(1 : ℝ) • w + dt • c, ?_⟩ (hv'.trans hv) fun _ => ha'⟩
    · exact (congrArg (fun u : Ode.Vec exFree.B.N => C75.Balanced exFree [] (r.t + θ * dt) u 0) hmid).mpr (ex_balanced _ _)
    · exact (congrArg (C73.Defined exFree.B C71.exShapes) hmid).mpr ⟨_, ex_unstressed _⟩
    · rw [hx', ← shift_lin, hw, hv, one_smul]
      rfl

example (θ : ℝ) (c : Fin 2 → ℝ) (dts : List ℝ) (hdt : ∀ dt ∈ dts, dt ≠ 0) (st : State2 10) :
    ∃ r', runSteps (stepAlpha (n := 10) ⟨[], []⟩ .direct (fun _ _ => 0) (.average θ)) dts ⟨st, C73.shift exFree.B ![1, 2], C73.shift exFree.B c, 0, true, 0⟩ = some r' ∧
      ∀ i j, angular exFree C71.exShapes C71.exPos r'.x r'.dxdt i j = angular exFree C71.exShapes C71.exPos (C73.shift exFree.B ![1, 2]) (C73.shift exFree.B c) i j :=
  C93_angular (L := exFree) (b := ⟨[], []⟩) C71.ex_meaning C71.ex_nondegenerate C75.ex_faces rfl rfl C71.exPos C71.ex_positions ex_symmetric rfl θ dts
    ⟨st, C73.shift exFree.B ![1, 2], C73.shift exFree.B c, 0, true, 0⟩ (ex_flight θ c dts hdt _ ⟨![1, 2], rfl⟩ rfl fun _ => rfl)

end Example

end Serac.C93
