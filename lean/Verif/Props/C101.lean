import Verif.Model.FirstAlpha
import Verif.Props.C91
/-!
# C101: what generalized-α steps of first-order problems do

Spec, independent of the model: `Rates` is a recurrence in numbers (a value, a remembered rate and the rate computed in the step).  Values of constrained dofs, heat and
distances between temperature fields are those of C21, C72 and C75.

Violations found: with `DirectControl` the values of constrained dofs after a step are not the prescribed ones (`C101_direct_wrong`).  The integrator remembers a rate that
`resetStates` does not forget: the same problem run again on the same module gives other temperatures (`C101_reset_wrong`).  The first rate is computed at the time `0` of the
operator and not at the time of the step, which costs one order of accuracy when the run does not begin at zero (`C101_late_wrong`).
-/

noncomputable section
namespace Serac.C101
open Finset Serac.Ode

section General
variable {n : ℕ} {b : BCs n} {m : Enforce} {solve : State1 n → Vec n → Vec n}

theorem parameters : Alpha1.serac = ⟨5 / 6, 2 / 3, 2 / 3⟩ := by
  unfold Alpha1.serac Alpha1.ofRho
  norm_num

/-- The rate a step computes. -/
def rateOf (b : BCs n) (m : Enforce) (solve : State1 n → Vec n → Vec n) (dt : ℝ) (r : RunA n) : Vec n :=
  (solve1 b m solve r.st (r.t + 2 / 3 * dt) (8 / 15 * dt) fun i => r.x i + 2 / 15 * dt * r.xdot i).2

/-- The equations of a step: a fifth of the remembered rate and four fifths of the computed one. -/
theorem move_eq (dt : ℝ) (r : RunA n) : (moveA b m solve .serac dt r).x = (fun i => r.x i + dt * (1 / 5 * r.xdot i + 4 / 5 * rateOf b m solve dt r i)) ∧
    (moveA b m solve .serac dt r).xdot = (fun i => -1 / 5 * r.xdot i + 6 / 5 * rateOf b m solve dt r i) ∧ (moveA b m solve .serac dt r).t = r.t + dt ∧
    (moveA b m solve .serac dt r).first = r.first := by
  rw [parameters]
  unfold moveA rateOf
  norm_num
  funext i
  ring

theorem start_t (r : RunA n) : (startA b m solve r).t = r.t := by
  unfold startA
  split_ifs <;> rfl
theorem start_x (r : RunA n) : (startA b m solve r).x = r.x := by
  unfold startA
  split_ifs <;> rfl
theorem start_first (r : RunA n) : (startA b m solve r).first = false := by
  unfold startA
  split_ifs with h
  · rfl
  · simpa using h
theorem start_old {r : RunA n} (h : r.first = false) : startA b m solve r = r := by
  unfold startA
  rw [if_neg (by simp [h])]
theorem start_new {r : RunA n} (h : r.first = true) : (startA b m solve r).xdot = (solve1 b m solve r.st r.clock 0 r.x).2 := by
  unfold startA
  rw [if_pos h]

theorem step_t (dt : ℝ) (r : RunA n) : (stepA b m solve .serac dt r).t = r.t + dt := by
  unfold stepA
  rw [(move_eq dt _).2.2.1, start_t]
theorem step_first (dt : ℝ) (r : RunA n) : (stepA b m solve .serac dt r).first = false := by
  unfold stepA
  rw [(move_eq dt _).2.2.2, start_first]
theorem run_first {dts : List ℝ} (h : dts ≠ []) (r : RunA n) : (runA b m solve .serac dts r).first = false := by
  induction dts generalizing r with
  | nil => exact absurd rfl h
  | cons dt l ih =>
    rcases l with - | ⟨d, l⟩
    · exact step_first dt r
    · exact ih (by simp) _
theorem run_t (dts : List ℝ) (r : RunA n) : (runA b m solve .serac dts r).t = r.t + dts.sum := by
  induction dts generalizing r with
  | nil => simp [runA]
  | cons dt l ih =>
    rw [List.sum_cons, ← add_assoc, ← step_t (b := b) (m := m) (solve := solve)]
    exact ih _
theorem run_append (dts : List ℝ) (dt : ℝ) (r : RunA n) : runA b m solve .serac (dts ++ [dt]) r = stepA b m solve .serac dt (runA b m solve .serac dts r) := by
  rw [runA, List.foldl_append]
  rfl
/-- Evaluating the first rate beforehand changes nothing. -/
theorem run_start {dts : List ℝ} (h : dts ≠ []) (r : RunA n) : runA b m solve .serac dts (startA b m solve r) = runA b m solve .serac dts r := by
  rcases dts with - | ⟨dt, l⟩
  · exact absurd rfl h
  · change runA b m solve .serac l _ = runA b m solve .serac l _
    congr 1
    beta_reduce
    unfold stepA
    rw [start_old (start_first r)]

/-! ### Values of constrained dofs -/

variable {g : ℝ → Fin n → ℝ}

/-- **C101, direct control.**  What is prescribed is met by the mean of the old value (one third) and the new one (two thirds), at two thirds of the step. -/
theorem C101_direct_partial (hg : Prescribes b g) (hk : Keeps b solve) {dt : ℝ} (hdt : dt ≠ 0) (r : RunA n) {l : Fin n} (hl : l ∈ b.allDofs) :
    1 / 3 * r.x l + 2 / 3 * (stepA b .direct solve .serac dt r).x l = g (r.t + 2 / 3 * dt) l := by
  have h0 : 8 / 15 * dt ≠ 0 := mul_ne_zero (by norm_num) hdt
  unfold stepA
  rw [(move_eq dt _).1]
  have e := (C21.C21_stage hg hk (startA b .direct solve r).st ((startA b .direct solve r).t + 2 / 3 * dt) (8 / 15 * dt)
    (fun i => (startA b .direct solve r).x i + 2 / 15 * dt * (startA b .direct solve r).xdot i) h0 l hl).1
  rw [((solve1_spec (m := .direct) hk _ _ _ _).1 l hl).1] at e
  unfold constraint1 at e
  simp only [ne_eq, h0, not_false_eq_true, if_true] at e
  rw [start_t] at e
  rw [← e, ← start_t (b := b) (m := .direct) (solve := solve) r]
  unfold rateOf
  beta_reduce
  rw [start_x]
  ring

/-- What a step adds to the error of a constrained dof that followed the history so far. -/
def defect (g : ℝ → Fin n → ℝ) (t dt : ℝ) (l : Fin n) : ℝ := 3 / 2 * g (t + 2 / 3 * dt) l - 1 / 2 * g t l - g (t + dt) l

theorem error_step (hg : Prescribes b g) (hk : Keeps b solve) {dt : ℝ} (hdt : dt ≠ 0) (r : RunA n) {l : Fin n} (hl : l ∈ b.allDofs) :
    (stepA b .direct solve .serac dt r).x l - g (r.t + dt) l = -1 / 2 * (r.x l - g r.t l) + defect g r.t dt l := by
  have := C101_direct_partial hg hk hdt r hl
  unfold defect
  linarith

/-- **C101, direct control, violated.**  The value after a step is the prescribed one exactly if half the old error is what the history contributes. -/
theorem C101_direct_wrong (hg : Prescribes b g) (hk : Keeps b solve) {dt : ℝ} (hdt : dt ≠ 0) (r : RunA n) {l : Fin n} (hl : l ∈ b.allDofs) :
    (stepA b .direct solve .serac dt r).x l = g (r.t + dt) l ↔ 1 / 2 * (r.x l - g r.t l) = defect g r.t dt l := by
  have := error_step hg hk hdt r hl
  constructor <;> intro h <;> linarith

/-- In particular it is wrong for a dof that starts right and follows `t²`. -/
theorem C101_square_wrong (hg : Prescribes b fun t _ => t ^ 2) (hk : Keeps b solve) {dt : ℝ} (hdt : dt ≠ 0) (r : RunA n) {l : Fin n} (hl : l ∈ b.allDofs)
    (h0 : r.x l = r.t ^ 2) : (stepA b .direct solve .serac dt r).x l = (r.t + dt) ^ 2 - dt ^ 2 / 3 ∧ (stepA b .direct solve .serac dt r).x l ≠ (r.t + dt) ^ 2 := by
  have := error_step hg hk hdt r hl
  rw [h0] at this
  unfold defect at this
  have e : (stepA b .direct solve .serac dt r).x l = (r.t + dt) ^ 2 - dt ^ 2 / 3 := by linear_combination this
  refine ⟨e, ?_⟩
  rw [e]
  intro h
  have : dt ^ 2 = 0 := by linarith
  exact hdt (pow_eq_zero_iff two_ne_zero |>.1 this)

/-- **C101, errors.**  Whatever the steps, an error in the value of a constrained dof is halved by every step and changes sign, and what the history adds stays below twice
what one step adds to it at most. -/
theorem C101_bounded (hg : Prescribes b g) (hk : Keeps b solve) {l : Fin n} (hl : l ∈ b.allDofs) {δ : ℝ} (dts : List ℝ) (r : RunA n)
    (hd : ∀ dt ∈ dts, dt ≠ 0 ∧ ∀ t, |defect g t dt l| ≤ δ) :
    |(runA b .direct solve .serac dts r).x l - g (r.t + dts.sum) l - (-1 / 2) ^ dts.length * (r.x l - g r.t l)| ≤ 2 * δ * (1 - (1 / 2) ^ dts.length) := by
  induction dts using List.reverseRecOn with
  | nil => simp [runA]
  | append_singleton dts dt ih =>
    have ih := ih fun d h => hd d (by simp [h])
    obtain ⟨h0, h1⟩ := hd dt (by simp)
    have h1 := h1 (r.t + dts.sum)
    have e := error_step hg hk h0 (runA b .direct solve .serac dts r) hl
    rw [run_t] at e
    rw [run_append, List.sum_append, List.sum_singleton, List.length_append, List.length_singleton, ← add_assoc, pow_succ, pow_succ]
    have e2 : (stepA b .direct solve .serac dt (runA b .direct solve .serac dts r)).x l - g (r.t + dts.sum + dt) l - (-1 / 2) ^ dts.length * (-1 / 2) * (r.x l - g r.t l) =
        -1 / 2 * ((runA b .direct solve .serac dts r).x l - g (r.t + dts.sum) l - (-1 / 2) ^ dts.length * (r.x l - g r.t l)) + defect g (r.t + dts.sum) dt l := by
      rw [e]
      ring
    rw [e2]
    rw [abs_le] at ih h1 ⊢
    constructor <;> linarith [ih.1, ih.2, h1.1, h1.2]

/-- **C101, histories linear in time.**  They are met exactly up to the initial error, which is halved in every step. -/
theorem C101_affine {p q : Fin n → ℝ} (hg : Prescribes b fun t l => p l + q l * t) (hk : Keeps b solve) {l : Fin n} (hl : l ∈ b.allDofs) (dts : List ℝ) (hd : ∀ dt ∈ dts, dt ≠ 0)
    (r : RunA n) : (runA b .direct solve .serac dts r).x l = p l + q l * (r.t + dts.sum) + (-1 / 2) ^ dts.length * (r.x l - (p l + q l * r.t)) := by
  have := C101_bounded hg hk hl (δ := 0) dts r fun dt h => ⟨hd dt h, fun t => by
    unfold defect
    rw [abs_nonpos_iff]
    ring⟩
  rw [mul_zero, zero_mul, abs_nonpos_iff] at this
  linarith

/-! ### The recurrence of values and rates -/

/-- A value `x` and a remembered rate `v` over equal steps in which the rates `k` are computed. -/
structure Rates (dt : ℝ) (k x v : ℕ → ℝ) : Prop where
  x : ∀ i, x (i + 1) = x i + dt * (1 / 5 * v i + 4 / 5 * k i)
  v : ∀ i, v (i + 1) = -1 / 5 * v i + 6 / 5 * k i

/-- With rates linear in time, the value is that of the exact integral plus what the first remembered rate was wrong by, with a weight of the order of one step. -/
theorem rates_affine {dt t p q : ℝ} {k x v : ℕ → ℝ} (h : Rates dt k x v) (hk : ∀ i, k i = p + q * (t + i * dt + 2 / 3 * dt)) (i : ℕ) :
    v i = p + q * (t + i * dt - dt / 6) + (-1 / 5) ^ i * (v 0 - p - q * (t - dt / 6)) ∧
    x i = x 0 + p * (i * dt) + q * ((t + i * dt) ^ 2 - t ^ 2) / 2 + dt / 6 * (1 - (-1 / 5) ^ i) * (v 0 - p - q * (t - dt / 6)) := by
  induction i with
  | zero => constructor <;> simp
  | succ i ih =>
    rw [h.x, h.v, hk, ih.1, ih.2, pow_succ]
    push_cast
    constructor <;> ring

/-- A quantity that is linear in the field follows the recurrence along a run with equal steps. -/
theorem run_rates (f : Vec n → ℝ) (hf : ∀ (a c : ℝ) (v w : Vec n), f (fun i => a * v i + c * w i) = a * f v + c * f w) (dt : ℝ) {r : RunA n} (h : r.first = false) :
    Rates dt (fun i => f (rateOf b m solve dt (runA b m solve .serac (List.replicate i dt) r))) (fun i => f (runA b m solve .serac (List.replicate i dt) r).x)
      fun i => f (runA b m solve .serac (List.replicate i dt) r).xdot := by
  have hs : ∀ i, (runA b m solve .serac (List.replicate i dt) r).first = false := by
    intro i
    rcases i with - | i
    · exact h
    · exact run_first (by simp) r
  have ha : ∀ i, runA b m solve .serac (List.replicate (i + 1) dt) r = moveA b m solve .serac dt (runA b m solve .serac (List.replicate i dt) r) := by
    intro i
    rw [List.replicate_succ', run_append]
    unfold stepA
    rw [start_old (hs i)]
  constructor
  · intro i
    beta_reduce
    rw [ha, (move_eq dt _).1]
    generalize runA b m solve .serac (List.replicate i dt) r = R
    have e1 := hf (1 / 5) (4 / 5) R.xdot (rateOf b m solve dt R)
    have e2 := hf 1 dt R.x fun i => 1 / 5 * R.xdot i + 4 / 5 * rateOf b m solve dt R i
    simp only [one_mul] at e2
    rw [e2, e1]
  · intro i
    beta_reduce
    rw [ha, (move_eq dt _).2.1]
    exact hf _ _ _ _

/-- **C101, rate control.**  Values prescribed by `p + q t + w t²` are met by equal steps up to a constant times the square of the step, if the first rate is taken at the time of
the first step; the initial error stays. -/
theorem C101_rate {p q w : Fin n → ℝ} (hg : Prescribes b fun t l => p l + q l * t + w l * t ^ 2) (hk : Keeps b solve) {l : Fin n} (hl : l ∈ b.allDofs) {dt : ℝ} (hdt : dt ≠ 0)
    {r : RunA n} (hr : r.first = true) (i : ℕ) : (runA b .rate solve .serac (List.replicate i dt) r).x l =
      p l + q l * (r.t + i * dt) + w l * (r.t + i * dt) ^ 2 + (r.x l - (p l + q l * r.t + w l * r.t ^ 2)) +
        dt / 3 * (1 - (-1 / 5) ^ i) * w l * (r.clock - r.t + dt / 6) := by
  rcases i.eq_zero_or_pos with rfl | hi
  · simp [runA]
  rw [← run_start (by rw [ne_eq, List.replicate_eq_nil_iff]; omega)]
  have hrate : ∀ t, C21.rate (fun t l => p l + q l * t + w l * t ^ 2) eps1 t l = q l + 2 * w l * t := by
    intro t
    have he : eps1 ≠ 0 := by norm_num [eps1]
    unfold C21.rate
    field_simp
    ring
  have h := run_rates (b := b) (m := .rate) (solve := solve) (fun v => v l) (fun a c v w => rfl) dt (start_first (b := b) (m := .rate) (solve := solve) r)
  have h0 : 8 / 15 * dt ≠ 0 := mul_ne_zero (by norm_num) hdt
  have hs : ∀ j, rateOf b .rate solve dt (runA b .rate solve .serac (List.replicate j dt) (startA b .rate solve r)) l = q l + 2 * w l * (r.t + j * dt + 2 / 3 * dt) := by
    intro j
    unfold rateOf
    rw [(C21.C21_stage hg hk _ _ _ _ h0 l hl).2.1, hrate, run_t, start_t, List.sum_replicate, nsmul_eq_mul]
  have hv : (startA b .rate solve r).xdot l = q l + 2 * w l * r.clock := by
    rw [start_new hr, ((solve1_spec hk _ _ _ _).1 l hl).2]
    unfold constraint1
    simp only [ne_eq, not_true_eq_false, if_false]
    rw [C21.rate_eq hg _ hl, hrate]
  have e := (rates_affine h (p := q l) (q := 2 * w l) (t := r.t) hs i).2
  change (runA b .rate solve .serac (List.replicate i dt) (startA b .rate solve r)).x l = (startA b .rate solve r).x l + _ + _ + _ * ((startA b .rate solve r).xdot l - _ - _) at e
  rw [e, hv, start_x]
  ring

end General

/-! ### Heat transfer -/

section Heat
open Serac.Transform Serac.Heat
open Serac.C71 (M Shapes)

variable {d : Dim} {X : Exchange d} {s sF : Shapes} {b : BCs X.S.nn} {m : Enforce} {solve : State1 X.S.nn → Ode.Vec X.S.nn → Ode.Vec X.S.nn}

/-- One call of `Solve` makes the residual vanish at the free nodes; `Y` is the field the residual sees. -/
theorem solve_residual (h : C91.Solves X b solve) (m : Enforce) (st : State1 X.S.nn) (time : ℝ) {dt : ℝ} (hdt : 0 ≤ dt) (u : X.S.Nodal) :
    ∃ Y : X.S.Nodal, (∀ n ∉ b.allDofs, Y n = u n + dt * (solve1 b m solve st time dt u).2 n) ∧
      (∀ n ∈ b.allDofs, Y n = (constraint1 b m time dt u).1 n + dt * (constraint1 b m time dt u).2 n) ∧
      ∀ n ∉ b.allDofs, X.residual time Y (solve1 b m solve st time dt u).2 n = 0 := by
  have hsp := solve1_spec (m := m) h.keeps st time dt u
  obtain ⟨st', gs, h1, h2, h3, h4⟩ : ∃ st' gs, (solve1 b m solve st time dt u).2 = solve st' gs ∧ st'.u = (solve1 b m solve st time dt u).1.u ∧ st'.time = time ∧ st'.dt = dt :=
    ⟨_, _, rfl, rfl, rfl, rfl⟩
  rw [← h2] at hsp
  refine ⟨fun n => 1 * st'.u n + st'.dt * solve st' gs n, fun n hn => ?_, fun n hn => ?_, fun n hn => ?_⟩
  · beta_reduce
    rw [hsp.2 n hn, h4, ← h1, one_mul]
  · beta_reduce
    rw [(hsp.1 n hn).1, h4, ← h1, (hsp.1 n hn).2, one_mul]
  · have hz := h.zero st' gs (by rw [h4]; exact hdt) n
    unfold Exchange.rateResidual at hz
    rw [if_neg hn, h3] at hz
    rw [h1]
    exact hz

theorem content_lin (a c : ℝ) (v w : X.S.Nodal) : C72.content X.S s (fun n => a * v n + c * w n) = a * C72.content X.S s v + c * C72.content X.S s w := by
  unfold C72.content
  rw [← C72.integral_lin]
  refine C72.integral_congr fun ee _ Q _ => ?_
  rw [C72.value_lin]
  ring

/-- What sources supply minus what leaves through the boundary. -/
def power (X : Exchange d) (s sF : Shapes) (t : ℝ) (Y : X.S.Nodal) : ℝ := (C72.supplied X.S s t Y fun _ => 1) - C75.outflow X sF t Y fun _ => 1

/-- The heat of the rate that `Solve` computes is what is supplied at its time and at the field it works at, plus what the fixed nodes exchange. -/
theorem solve_heat (hm : C72.Meaning X.S s) (hg : C72.AllGood X.S s) (hu : C72.Unity X.S s) (hF : C75.Meaning X.F sF d) (hl : C75.AllGoodHeat X sF) (ht : C72.Total X.S)
    (h : C91.Solves X b solve) (m : Enforce) (st : State1 X.S.nn) (time : ℝ) {dt : ℝ} (hdt : 0 ≤ dt) (u : X.S.Nodal) :
    ∃ Y : X.S.Nodal, (∀ n ∉ b.allDofs, Y n = u n + dt * (solve1 b m solve st time dt u).2 n) ∧
      C72.content X.S s (solve1 b m solve st time dt u).2 = power X s sF time Y + ∑ n with n ∈ b.allDofs, X.residual time Y (solve1 b m solve st time dt u).2 n := by
  obtain ⟨Y, h1, -, h2⟩ := solve_residual h m st time hdt u
  refine ⟨Y, h1, ?_⟩
  obtain ⟨q, hq⟩ := C72.total_flux (s := s) ht Y
  have hb := C75.C75_heat_balance hm hg hu hF hl time Y (solve1 b m solve st time dt u).2 q hq
  have hs : ∑ n, X.residual time Y (solve1 b m solve st time dt u).2 n = ∑ n with n ∈ b.allDofs, X.residual time Y (solve1 b m solve st time dt u).2 n := by
    rw [sum_filter]
    refine sum_congr rfl fun n _ => ?_
    split_ifs with hn
    · rfl
    · exact h2 n hn
  rw [← hs, hb]
  unfold power C72.content
  ring

/-- **C101, heat of a step.**  The heat content grows by the step times a fifth of the heat of the remembered rate and four fifths of what is supplied, minus what leaves, plus what
the fixed nodes exchange, at two thirds of the step and at a field that is, at the free nodes, one third of the old and two thirds of the new one. -/
theorem C101_heat (hm : C72.Meaning X.S s) (hg : C72.AllGood X.S s) (hu : C72.Unity X.S s) (hF : C75.Meaning X.F sF d) (hl : C75.AllGoodHeat X sF) (ht : C72.Total X.S)
    (h : C91.Solves X b solve) (m : Enforce) {dt : ℝ} (hdt : 0 ≤ dt) {r : RunA X.S.nn} (hr : r.first = false) :
    ∃ k Y : X.S.Nodal, ∃ P : ℝ, (∀ n ∉ b.allDofs, Y n = 1 / 3 * r.x n + 2 / 3 * (stepA b m solve .serac dt r).x n) ∧
      P = power X s sF (r.t + 2 / 3 * dt) Y + ∑ n with n ∈ b.allDofs, X.residual (r.t + 2 / 3 * dt) Y k n ∧
      C72.content X.S s (stepA b m solve .serac dt r).x = C72.content X.S s r.x + dt * (1 / 5 * C72.content X.S s r.xdot + 4 / 5 * P) ∧
      C72.content X.S s (stepA b m solve .serac dt r).xdot = -1 / 5 * C72.content X.S s r.xdot + 6 / 5 * P := by
  obtain ⟨Y, h1, h2⟩ := solve_heat hm hg hu hF hl ht h m r.st (r.t + 2 / 3 * dt) (dt := 8 / 15 * dt) (by positivity) fun i => r.x i + 2 / 15 * dt * r.xdot i
  change C72.content X.S s (rateOf b m solve dt r) = _ at h2
  change ∀ n ∉ b.allDofs, Y n = r.x n + 2 / 15 * dt * r.xdot n + 8 / 15 * dt * rateOf b m solve dt r n at h1
  refine ⟨rateOf b m solve dt r, Y, C72.content X.S s (rateOf b m solve dt r), fun n hn => ?_, h2, ?_, ?_⟩
  · unfold stepA
    rw [start_old hr, (move_eq dt r).1, h1 n hn]
    ring
  · unfold stepA
    rw [start_old hr, (move_eq dt r).1]
    have e1 := content_lin (s := s) (X := X) (1 / 5) (4 / 5) r.xdot (rateOf b m solve dt r)
    have e2 := content_lin (s := s) (X := X) 1 dt r.x fun i => 1 / 5 * r.xdot i + 4 / 5 * rateOf b m solve dt r i
    simp only [one_mul] at e2
    rw [e2, e1]
  · unfold stepA
    rw [start_old hr, (move_eq dt r).2.1]
    exact content_lin _ _ _ _

/-- **C101, the first rate.**  Its heat is what is supplied at the time of the operator. -/
theorem C101_first (hm : C72.Meaning X.S s) (hg : C72.AllGood X.S s) (hu : C72.Unity X.S s) (hF : C75.Meaning X.F sF d) (hl : C75.AllGoodHeat X sF) (ht : C72.Total X.S)
    (h : C91.Solves X b solve) (hb : b.allDofs = []) (m : Enforce) {r : RunA X.S.nn} (hr : r.first = true) :
    C72.content X.S s (startA b m solve r).xdot = power X s sF r.clock r.x := by
  obtain ⟨Y, h1, h2⟩ := solve_heat hm hg hu hF hl ht h m r.st r.clock le_rfl r.x
  have : Y = r.x := by
    funext n
    rw [h1 n (by simp [hb]), zero_mul, add_zero]
  rw [start_new hr, h2, hb, this]
  simp

/-- **C101, heat of a run.**  Without fixed nodes and with a power that is linear in time, the heat after equal steps is the exact one plus a term that does not grow: it is of second
order in the step if the operator's time is the time at the start, else of first order. -/
theorem C101_heat_run (hm : C72.Meaning X.S s) (hg : C72.AllGood X.S s) (hu : C72.Unity X.S s) (hF : C75.Meaning X.F sF d) (hl : C75.AllGoodHeat X sF) (ht : C72.Total X.S)
    (h : C91.Solves X b solve) (hb : b.allDofs = []) (m : Enforce) {p q : ℝ} (hp : ∀ t Y, power X s sF t Y = p + q * t) {dt : ℝ} (hdt : 0 ≤ dt) {r : RunA X.S.nn}
    (hr : r.first = true) (i : ℕ) : C72.content X.S s (runA b m solve .serac (List.replicate i dt) r).x =
      C72.content X.S s r.x + (∫ τ in r.t..(r.t + i * dt), (p + q * τ)) + dt / 6 * (1 - (-1 / 5) ^ i) * q * (r.clock - r.t + dt / 6) := by
  have hint : ∀ a c : ℝ, ∫ τ in a..c, (p + q * τ) = p * (c - a) + q * (c ^ 2 - a ^ 2) / 2 := by
    intro a c
    rw [intervalIntegral.integral_add (Continuous.intervalIntegrable (by fun_prop) _ _) (Continuous.intervalIntegrable (by fun_prop) _ _), intervalIntegral.integral_const,
      intervalIntegral.integral_const_mul, integral_id, smul_eq_mul]
    ring
  rw [hint]
  rcases i.eq_zero_or_pos with rfl | hi
  · simp [runA]
  rw [← run_start (by rw [ne_eq, List.replicate_eq_nil_iff]; omega)]
  have hR := run_rates (b := b) (m := m) (solve := solve) (C72.content X.S s) content_lin dt (start_first (b := b) (m := m) (solve := solve) r)
  have hk : ∀ j, C72.content X.S s (rateOf b m solve dt (runA b m solve .serac (List.replicate j dt) (startA b m solve r))) = p + q * (r.t + j * dt + 2 / 3 * dt) := by
    intro j
    generalize hRj : runA b m solve .serac (List.replicate j dt) (startA b m solve r) = R
    have ht' : R.t = r.t + j * dt := by rw [← hRj, run_t, start_t, List.sum_replicate, nsmul_eq_mul]
    obtain ⟨Y, -, h2⟩ := solve_heat hm hg hu hF hl ht h m R.st (R.t + 2 / 3 * dt) (dt := 8 / 15 * dt) (by positivity) fun i => R.x i + 2 / 15 * dt * R.xdot i
    refine h2.trans ?_
    rw [hp, hb, ht']
    simp
  have e := (rates_affine hR (p := p) (q := q) (t := r.t) hk i).2
  change C72.content X.S s (runA b m solve .serac (List.replicate i dt) (startA b m solve r)).x = C72.content X.S s (startA b m solve r).x + _ + _ +
    _ * (C72.content X.S s (startA b m solve r).xdot - _ - _) at e
  rw [e, C101_first hm hg hu hF hl ht h hb m hr, hp, start_x]
  ring

/-- **C101, constant power.**  Then the heat is exact for steps of any lengths. -/
theorem C101_constant (hm : C72.Meaning X.S s) (hg : C72.AllGood X.S s) (hu : C72.Unity X.S s) (hF : C75.Meaning X.F sF d) (hl : C75.AllGoodHeat X sF) (ht : C72.Total X.S)
    (h : C91.Solves X b solve) (hb : b.allDofs = []) (m : Enforce) {p : ℝ} (hp : ∀ t Y, power X s sF t Y = p) (dts : List ℝ) (hdt : ∀ dt ∈ dts, 0 ≤ dt) {r : RunA X.S.nn}
    (hr : r.first = true) : C72.content X.S s (runA b m solve .serac dts r).x = C72.content X.S s r.x + p * dts.sum := by
  have key : ∀ (dts : List ℝ), (∀ dt ∈ dts, 0 ≤ dt) → ∀ r : RunA X.S.nn, r.first = false → C72.content X.S s r.xdot = p →
      C72.content X.S s (runA b m solve .serac dts r).x = C72.content X.S s r.x + p * dts.sum := by
    intro dts
    induction dts with
    | nil => intro _ r _ _; simp [runA]
    | cons dt l ih =>
      intro hd r hr hv
      obtain ⟨k, Y, P, -, h2, h3, h4⟩ := C101_heat hm hg hu hF hl ht h m (hd dt List.mem_cons_self) hr
      rw [hp, hb] at h2
      simp only [List.not_mem_nil, filter_false, sum_empty, add_zero] at h2
      rw [h2, hv] at h3 h4
      refine (ih (fun x hx => hd x (List.mem_cons_of_mem _ hx)) _ (step_first dt r) (h4.trans (by ring))).trans ?_
      rw [h3, List.sum_cons]
      ring
  rcases dts with - | ⟨dt, l⟩
  · simp [runA]
  · rw [← run_start (by simp)]
    refine (key _ hdt _ (start_first r) ?_).trans ?_
    · rw [C101_first hm hg hu hF hl ht h hb m hr, hp]
    · rw [start_x]

/-- **C101, a late start, violated.**  A module that starts at a time other than zero, with a power linear in time: equal steps are wrong by the given amount, whose part of first
order in the step is not there for a start at zero. -/
theorem C101_late_wrong (hm : C72.Meaning X.S s) (hg : C72.AllGood X.S s) (hu : C72.Unity X.S s) (hF : C75.Meaning X.F sF d) (hl : C75.AllGoodHeat X sF) (ht : C72.Total X.S)
    (h : C91.Solves X b solve) (hb : b.allDofs = []) (m : Enforce) {p q : ℝ} (hp : ∀ t Y, power X s sF t Y = p + q * t) {dt : ℝ} (hdt : 0 ≤ dt) (t : ℝ) (x : X.S.Nodal) (i : ℕ) :
    C72.content X.S s (runA b m solve .serac (List.replicate i dt) (newA t x)).x =
      C72.content X.S s x + (∫ τ in t..(t + i * dt), (p + q * τ)) + (1 - (-1 / 5) ^ i) * q * (dt ^ 2 / 36 - dt / 6 * t) := by
  refine (C101_heat_run hm hg hu hF hl ht h hb m hp hdt (r := newA t x) rfl i).trans ?_
  change C72.content X.S s x + (∫ τ in t..(t + i * dt), (p + q * τ)) + dt / 6 * (1 - (-1 / 5) ^ i) * q * (0 - t + dt / 6) = _
  ring

/-- **C101, running again, violated.**  A module is run, its states are reset to the same start, and it makes one step: with a power that grows with time its heat is not that of the
first step before. -/
theorem C101_reset_wrong (hm : C72.Meaning X.S s) (hg : C72.AllGood X.S s) (hu : C72.Unity X.S s) (hF : C75.Meaning X.F sF d) (hl : C75.AllGoodHeat X sF) (ht : C72.Total X.S)
    (h : C91.Solves X b solve) (hb : b.allDofs = []) (m : Enforce) {p q : ℝ} (hp : ∀ t Y, power X s sF t Y = p + q * t) (hq : 0 < q) {dt : ℝ} (hdt : 0 < dt) (x : X.S.Nodal) {i : ℕ}
    (hi : 0 < i) : C72.content X.S s (stepA b m solve .serac dt (newA 0 x)).x <
      C72.content X.S s (stepA b m solve .serac dt (resetA 0 x (runA b m solve .serac (List.replicate i dt) (newA 0 x)))).x := by
  have hne : List.replicate i dt ≠ [] := by rw [ne_eq, List.replicate_eq_nil_iff]; omega
  have hv : 0 < C72.content X.S s (runA b m solve .serac (List.replicate i dt) (newA 0 x)).xdot - p := by
    rw [← run_start hne]
    have hR := run_rates (b := b) (m := m) (solve := solve) (C72.content X.S s) content_lin dt (start_first (b := b) (m := m) (solve := solve) (newA 0 x))
    have hk : ∀ j : ℕ, C72.content X.S s (rateOf b m solve dt (runA b m solve .serac (List.replicate j dt) (startA b m solve (newA 0 x)))) = p + q * (0 + j * dt + 2 / 3 * dt) := by
      intro j
      generalize hRj : runA b m solve .serac (List.replicate j dt) (startA b m solve (newA 0 x)) = R
      have ht' : R.t = 0 + j * dt := by
        rw [← hRj, run_t, start_t, List.sum_replicate, nsmul_eq_mul]
        rfl
      obtain ⟨Y, -, h2⟩ := solve_heat hm hg hu hF hl ht h m R.st (R.t + 2 / 3 * dt) (dt := 8 / 15 * dt) (by positivity) fun i => R.x i + 2 / 15 * dt * R.xdot i
      refine h2.trans ?_
      rw [hp, hb, ht']
      simp
    have e := (rates_affine hR (p := p) (q := q) (t := 0) hk i).1
    change C72.content X.S s (runA b m solve .serac (List.replicate i dt) (startA b m solve (newA 0 x))).xdot = _ + _ * (C72.content X.S s (startA b m solve (newA 0 x)).xdot - _ - _) at e
    rw [e, C101_first hm hg hu hF hl ht h hb m rfl, hp]
    change 0 < p + q * (0 + i * dt - dt / 6) + (-1 / 5) ^ i * (p + q * 0 - p - q * (0 - dt / 6)) - p
    have h1 : (1 : ℝ) ≤ i := by exact_mod_cast hi
    have h2 : |((-1 / 5) ^ i : ℝ)| ≤ 1 := by
      rw [abs_pow]
      exact pow_le_one₀ (abs_nonneg _) (by rw [abs_le]; norm_num)
    have h3 := (abs_le.1 h2).1
    have e' : p + q * (0 + i * dt - dt / 6) + (-1 / 5) ^ i * (p + q * 0 - p - q * (0 - dt / 6)) - p = q * dt * (i - 1 / 6 + (-1 / 5) ^ i / 6) := by ring
    rw [e']
    exact mul_pos (mul_pos hq hdt) (by linarith)
  have hstep : ∀ r : RunA X.S.nn, r.first = false → r.t = 0 → C72.content X.S s (stepA b m solve .serac dt r).x =
      C72.content X.S s r.x + dt * (1 / 5 * C72.content X.S s r.xdot + 4 / 5 * (p + q * (0 + 2 / 3 * dt))) := by
    intro r hr h0
    obtain ⟨k, Y, P, -, h2, h3, -⟩ := C101_heat hm hg hu hF hl ht h m hdt.le hr
    rw [hp, hb, h0] at h2
    simp only [List.not_mem_nil, filter_false, sum_empty, add_zero] at h2
    rw [h3, h2]
  have e1 : stepA b m solve .serac dt (newA 0 x) = stepA b m solve .serac dt (startA b m solve (newA 0 x)) := by
    unfold stepA
    rw [start_old (start_first (newA 0 x))]
  rw [e1, hstep _ (start_first _) (start_t _), hstep (resetA 0 x _) (run_first hne _) rfl, start_x, C101_first hm hg hu hF hl ht h hb m rfl, hp]
  change C72.content X.S s x + dt * (1 / 5 * (p + q * 0) + _) < C72.content X.S s x + dt * (1 / 5 * C72.content X.S s (runA b m solve .serac (List.replicate i dt) (newA 0 x)).xdot + _)
  have := mul_pos hdt hv
  linarith

/-! ### Stability -/

/-- Half the square of a difference of temperatures and half that of its prediction by a third of a step. -/
def energy (X : Exchange d) (s : Shapes) (dt : ℝ) (x v : X.S.Nodal) : ℝ := C72.square X.S s x / 2 + C72.square X.S s (fun n => x n + dt / 3 * v n) / 2

/-- The equations of a step with direct control. -/
theorem step_direct (h : C91.Solves X b solve) {g : ℝ → Fin X.S.nn → ℝ} (hg : Prescribes b g) {dt : ℝ} (hdt : 0 < dt) {r : RunA X.S.nn} (hr : r.first = false) :
    ∃ Y : X.S.Nodal, (∀ n, Y n = r.x n + 2 / 15 * dt * r.xdot n + 8 / 15 * dt * rateOf b .direct solve dt r n) ∧ (∀ n ∈ b.allDofs, Y n = g (r.t + 2 / 3 * dt) n) ∧
      ∀ n ∉ b.allDofs, X.residual (r.t + 2 / 3 * dt) Y (rateOf b .direct solve dt r) n = 0 := by
  have h0 : 8 / 15 * dt ≠ 0 := by positivity
  obtain ⟨Y, h1, h2, h3⟩ := solve_residual h .direct r.st (r.t + 2 / 3 * dt) (dt := 8 / 15 * dt) (by positivity) fun i => r.x i + 2 / 15 * dt * r.xdot i
  have hsp := solve1_spec (m := .direct) h.keeps r.st (r.t + 2 / 3 * dt) (8 / 15 * dt) fun i => r.x i + 2 / 15 * dt * r.xdot i
  have hY : ∀ n, Y n = r.x n + 2 / 15 * dt * r.xdot n + 8 / 15 * dt * rateOf b .direct solve dt r n := by
    intro n
    by_cases hn : n ∈ b.allDofs
    · rw [h2 n hn, ← (hsp.1 n hn).2]
      congr 1
      unfold constraint1
      simp only [ne_eq, h0, not_false_eq_true, if_true]
    · exact h1 n hn
  refine ⟨Y, hY, fun n hn => ?_, h3⟩
  have := C101_direct_partial hg h.keeps hdt.ne' r hn
  rw [← this, hY]
  unfold stepA
  rw [start_old hr, (move_eq dt r).1]
  ring

/-- **C101, stability of a step.**  With linear conduction, sources independent of the temperature and cooling in proportion to it, the energy of the difference of two runs does not
grow in a step with direct control. -/
theorem C101_contraction (hm : C72.Meaning X.S s) (hg : C72.AllGood X.S s) (hv : C72.Volumes X.S s X.S.elements) (hF : C75.Meaning X.F sF d) (hl : C75.AllGoodHeat X sF)
    (hw : ∀ Q < X.F.E.npts, 0 ≤ sF.wt Q) {A : ℕ → M d.n} (hA : C72.Linear X.S A) (hd : ∀ p, C49.Dissipates (X.S.material p)) (hc : ∀ p, 0 ≤ (X.S.material p).capacity)
    (hsrc : ∀ src ∈ X.S.sources, ∀ t p T T' g g', src.value t p T g = src.value t p T' g') {g h : Flux d → Tensor.Vec ℝ d.n → Tensor.Vec ℝ d.n → ℝ → ℝ} (hN : C75.Newton X g h)
    {G : ℝ → Fin X.S.nn → ℝ} (hb : Prescribes b G) {solve' : State1 X.S.nn → Ode.Vec X.S.nn → Ode.Vec X.S.nn} (h1 : C91.Solves X b solve) (h2 : C91.Solves X b solve')
    {dt : ℝ} (hdt : 0 < dt) {r r' : RunA X.S.nn} (hr : r.first = false) (hr' : r'.first = false) (ht : r.t = r'.t) :
    energy X s dt (fun n => (stepA b .direct solve .serac dt r).x n - (stepA b .direct solve' .serac dt r').x n)
        (fun n => (stepA b .direct solve .serac dt r).xdot n - (stepA b .direct solve' .serac dt r').xdot n) ≤
      energy X s dt (fun n => r.x n - r'.x n) fun n => r.xdot n - r'.xdot n := by
  obtain ⟨Y, hY, hf, hz⟩ := step_direct h1 hb hdt hr
  obtain ⟨Y', hY', hf', hz'⟩ := step_direct h2 hb hdt hr'
  rw [← ht] at hf' hz'
  have key := C91.stage_difference hm hg hv hF hl hw hA hd hsrc hN (r.t + 2 / 3 * dt) Y Y' _ _ hz hz' fun n hn => (hf n hn).trans (hf' n hn).symm
  unfold stepA
  rw [start_old hr, start_old hr', (move_eq dt r).1, (move_eq dt r').1, (move_eq dt r).2.1, (move_eq dt r').2.1]
  generalize hk : rateOf b .direct solve dt r = k at *
  generalize hk' : rateOf b .direct solve' dt r' = k' at *
  generalize hx : (fun n => r.x n - r'.x n : X.S.Nodal) = x
  generalize hvv : (fun n => r.xdot n - r'.xdot n : X.S.Nodal) = v
  generalize hkk : (fun n => k n - k' n : X.S.Nodal) = κ at key
  have ex : (fun n => r.x n + dt * (1 / 5 * r.xdot n + 4 / 5 * k n) - (r'.x n + dt * (1 / 5 * r'.xdot n + 4 / 5 * k' n)) : X.S.Nodal) =
      fun n => 1 * x n + dt * (1 / 5 * v n + 4 / 5 * κ n) := by
    funext n
    rw [← hx, ← hvv, ← hkk]
    ring
  have ev : (fun n => -1 / 5 * r.xdot n + 6 / 5 * k n - (-1 / 5 * r'.xdot n + 6 / 5 * k' n) : X.S.Nodal) = fun n => -1 / 5 * v n + 6 / 5 * κ n := by
    funext n
    rw [← hvv, ← hkk]
    ring
  have eY : (fun n => Y n - Y' n : X.S.Nodal) = fun n => 1 * x n + dt * (2 / 15 * v n + 8 / 15 * κ n) := by
    funext n
    rw [hY, hY', ← hx, ← hvv, ← hkk]
    ring
  have ep : (fun n => (fun n => 1 * x n + dt * (1 / 5 * v n + 4 / 5 * κ n) : X.S.Nodal) n + dt / 3 * (fun n => -1 / 5 * v n + 6 / 5 * κ n : X.S.Nodal) n : X.S.Nodal) =
      fun n => 1 * x n + dt * (2 / 15 * v n + 6 / 5 * κ n) := by
    funext n
    ring
  have eq : (fun n => x n + dt / 3 * v n : X.S.Nodal) = fun n => 1 * x n + dt / 3 * v n := by
    funext n
    ring
  rw [ex, ev]
  rw [eY] at key
  unfold energy
  rw [ep, eq]
  have hval : ∀ (a c : ℝ) e Q, C72.value X.S s (fun n => 1 * x n + dt * (a * v n + c * κ n)) e Q =
      C72.value X.S s x e Q + dt * (a * C72.value X.S s v e Q + c * C72.value X.S s κ e Q) := by
    intro a c e Q
    rw [C72.value_lin 1 dt x fun n => a * v n + c * κ n, C72.value_lin a c v κ, one_mul]
  have hpos : 0 ≤ C72.integral X.S s X.S.elements fun ee Q => C72.capacity X.S ee Q * (dt * (C72.value X.S s v ee.1 Q - C72.value X.S s κ ee.1 Q)) ^ 2 :=
    C72.integral_nonneg hv fun ee _ Q _ => mul_nonneg (hc _) (sq_nonneg _)
  have e0 : C72.square X.S s (fun n => 1 * x n + dt * (1 / 5 * v n + 4 / 5 * κ n)) / 2 + C72.square X.S s (fun n => 1 * x n + dt * (2 / 15 * v n + 6 / 5 * κ n)) / 2 -
      (C72.square X.S s x / 2 + C72.square X.S s (fun n => 1 * x n + dt / 3 * v n) / 2) =
      2 * dt * C72.integral X.S s X.S.elements (fun ee Q => C72.capacity X.S ee Q * C72.value X.S s κ ee.1 Q *
        C72.value X.S s (fun n => 1 * x n + dt * (2 / 15 * v n + 8 / 15 * κ n)) ee.1 Q) -
      2 / 75 * C72.integral X.S s X.S.elements fun ee Q => C72.capacity X.S ee Q * (dt * (C72.value X.S s v ee.1 Q - C72.value X.S s κ ee.1 Q)) ^ 2 := by
    unfold C72.square
    have i1 := C72.integral_lin (S := X.S) (s := s) X.S.elements (1 / 2) (1 / 2)
      (fun ee Q => C72.capacity X.S ee Q * C72.value X.S s (fun n => 1 * x n + dt * (1 / 5 * v n + 4 / 5 * κ n)) ee.1 Q ^ 2)
      fun ee Q => C72.capacity X.S ee Q * C72.value X.S s (fun n => 1 * x n + dt * (2 / 15 * v n + 6 / 5 * κ n)) ee.1 Q ^ 2
    have i2 := C72.integral_lin (S := X.S) (s := s) X.S.elements (1 / 2) (1 / 2) (fun ee Q => C72.capacity X.S ee Q * C72.value X.S s x ee.1 Q ^ 2)
      fun ee Q => C72.capacity X.S ee Q * C72.value X.S s (fun n => 1 * x n + dt / 3 * v n) ee.1 Q ^ 2
    have i3 := C72.integral_lin (S := X.S) (s := s) X.S.elements (2 * dt) (-2 / 75) (fun ee Q => C72.capacity X.S ee Q * C72.value X.S s κ ee.1 Q *
        C72.value X.S s (fun n => 1 * x n + dt * (2 / 15 * v n + 8 / 15 * κ n)) ee.1 Q)
      fun ee Q => C72.capacity X.S ee Q * (dt * (C72.value X.S s v ee.1 Q - C72.value X.S s κ ee.1 Q)) ^ 2
    have i4 := C72.integral_lin (S := X.S) (s := s) X.S.elements 1 1
      (fun ee Q => 1 / 2 * (C72.capacity X.S ee Q * C72.value X.S s x ee.1 Q ^ 2) + 1 / 2 * (C72.capacity X.S ee Q * C72.value X.S s (fun n => 1 * x n + dt / 3 * v n) ee.1 Q ^ 2))
      fun ee Q => 2 * dt * (C72.capacity X.S ee Q * C72.value X.S s κ ee.1 Q * C72.value X.S s (fun n => 1 * x n + dt * (2 / 15 * v n + 8 / 15 * κ n)) ee.1 Q) +
        -2 / 75 * (C72.capacity X.S ee Q * (dt * (C72.value X.S s v ee.1 Q - C72.value X.S s κ ee.1 Q)) ^ 2)
    have i5 : C72.integral X.S s X.S.elements (fun ee Q =>
        1 / 2 * (C72.capacity X.S ee Q * C72.value X.S s (fun n => 1 * x n + dt * (1 / 5 * v n + 4 / 5 * κ n)) ee.1 Q ^ 2) +
        1 / 2 * (C72.capacity X.S ee Q * C72.value X.S s (fun n => 1 * x n + dt * (2 / 15 * v n + 6 / 5 * κ n)) ee.1 Q ^ 2)) =
        C72.integral X.S s X.S.elements fun ee Q =>
        1 * (1 / 2 * (C72.capacity X.S ee Q * C72.value X.S s x ee.1 Q ^ 2) + 1 / 2 * (C72.capacity X.S ee Q * C72.value X.S s (fun n => 1 * x n + dt / 3 * v n) ee.1 Q ^ 2)) +
        1 * (2 * dt * (C72.capacity X.S ee Q * C72.value X.S s κ ee.1 Q * C72.value X.S s (fun n => 1 * x n + dt * (2 / 15 * v n + 8 / 15 * κ n)) ee.1 Q) +
        -2 / 75 * (C72.capacity X.S ee Q * (dt * (C72.value X.S s v ee.1 Q - C72.value X.S s κ ee.1 Q)) ^ 2)) := by
      refine C72.integral_congr fun ee _ Q _ => ?_
      rw [hval, hval, hval, C72.value_lin 1 (dt / 3) x v]
      ring
    rw [i1, i4, i2, i3] at i5
    linarith
  have := mul_nonneg_of_nonpos_of_nonpos (by linarith : -(2 * dt) ≤ 0) key
  linarith

/-- **C101, stability of runs.**  Over any number of equal steps, whatever the solvers and the states they carry, the energy of the difference of two runs does not grow; the square
of the difference of the temperatures stays below twice its first value. -/
theorem C101_contraction_run (hm : C72.Meaning X.S s) (hg : C72.AllGood X.S s) (hv : C72.Volumes X.S s X.S.elements) (hF : C75.Meaning X.F sF d) (hl : C75.AllGoodHeat X sF)
    (hw : ∀ Q < X.F.E.npts, 0 ≤ sF.wt Q) {A : ℕ → M d.n} (hA : C72.Linear X.S A) (hd : ∀ p, C49.Dissipates (X.S.material p)) (hc : ∀ p, 0 ≤ (X.S.material p).capacity)
    (hsrc : ∀ src ∈ X.S.sources, ∀ t p T T' g g', src.value t p T g = src.value t p T' g') {g h : Flux d → Tensor.Vec ℝ d.n → Tensor.Vec ℝ d.n → ℝ → ℝ} (hN : C75.Newton X g h)
    {G : ℝ → Fin X.S.nn → ℝ} (hb : Prescribes b G) {solve' : State1 X.S.nn → Ode.Vec X.S.nn → Ode.Vec X.S.nn} (h1 : C91.Solves X b solve) (h2 : C91.Solves X b solve')
    {dt : ℝ} (hdt : 0 < dt) (i : ℕ) (r r' : RunA X.S.nn) (ht : r.t = r'.t) :
    C72.square X.S s (fun n => (runA b .direct solve .serac (List.replicate i dt) r).x n - (runA b .direct solve' .serac (List.replicate i dt) r').x n) ≤
      2 * energy X s dt (fun n => r.x n - r'.x n) fun n => (startA b .direct solve r).xdot n - (startA b .direct solve' r').xdot n := by
  have hsq : ∀ x : X.S.Nodal, 0 ≤ C72.square X.S s x := fun x => C72.integral_nonneg hv fun ee _ Q _ => mul_nonneg (hc _) (sq_nonneg _)
  have hE : ∀ x v : X.S.Nodal, C72.square X.S s x ≤ 2 * energy X s dt x v := by
    intro x v
    unfold energy
    linarith [hsq fun n => x n + dt / 3 * v n]
  rcases i.eq_zero_or_pos with rfl | hi
  · exact hE _ _
  have hne : List.replicate i dt ≠ [] := by rw [ne_eq, List.replicate_eq_nil_iff]; omega
  rw [← run_start hne r, ← run_start hne r']
  have key : ∀ (i : ℕ) (r r' : RunA X.S.nn), r.first = false → r'.first = false → r.t = r'.t →
      energy X s dt (fun n => (runA b .direct solve .serac (List.replicate i dt) r).x n - (runA b .direct solve' .serac (List.replicate i dt) r').x n)
        (fun n => (runA b .direct solve .serac (List.replicate i dt) r).xdot n - (runA b .direct solve' .serac (List.replicate i dt) r').xdot n) ≤
      energy X s dt (fun n => r.x n - r'.x n) fun n => r.xdot n - r'.xdot n := by
    intro i
    induction i with
    | zero => intro r r' _ _ _; exact le_rfl
    | succ i ih =>
      intro r r' hr hr' ht
      exact (ih _ _ (step_first dt r) (step_first dt r') (by rw [step_t, step_t, ht])).trans
        (C101_contraction hm hg hv hF hl hw hA hd hc hsrc hN hb h1 h2 hdt hr hr' ht)
  have := key i _ _ (start_first (b := b) (m := .direct) (solve := solve) r) (start_first (b := b) (m := .direct) (solve := solve') r') (by rw [start_t, start_t, ht])
  refine (hE _ fun n => (runA b .direct solve .serac (List.replicate i dt) (startA b .direct solve r)).xdot n -
    (runA b .direct solve' .serac (List.replicate i dt) (startA b .direct solve' r')).xdot n).trans ?_
  rw [start_x, start_x] at this
  linarith

/-- Rates of length zero at the same field are the same, if the heat capacity is definite. -/
theorem rate_unique (hm : C72.Meaning X.S s) (hg : C72.AllGood X.S s) (hF : C75.Meaning X.F sF d) (hl : C75.AllGoodHeat X sF) {A : ℕ → M d.n} (hA : C72.Linear X.S A)
    (hsq : ∀ x : X.S.Nodal, C72.square X.S s x = 0 → x = 0) {dofs : List (Fin X.S.nn)} {t : ℝ} {u k : X.S.Nodal} (h1 : ∀ n ∉ dofs, X.residual t u k n = 0)
    (h2 : ∀ n ∉ dofs, X.residual t u 0 n = 0) (h3 : ∀ n ∈ dofs, k n = 0) : k = 0 := by
  have e1 := C75.C75_heat_weak_form hm hg hF hl t u k k _ (C72.linear_flux hA u)
  have e2 := C75.C75_heat_weak_form hm hg hF hl t u 0 k _ (C72.linear_flux hA u)
  have z : ∀ c : X.S.Nodal, (∀ n ∉ dofs, X.residual t u c n = 0) → ∑ n, X.residual t u c n * k n = 0 := by
    intro c hz
    refine sum_eq_zero fun n _ => ?_
    by_cases hn : n ∈ dofs
    · rw [h3 n hn, mul_zero]
    · rw [hz n hn, zero_mul]
  rw [z k h1] at e1
  rw [z 0 h2] at e2
  have e := C72.integral_lin (S := X.S) (s := s) X.S.elements 1 (-1) (fun ee Q => C72.capacity X.S ee Q * C72.value X.S s k ee.1 Q * C72.value X.S s k ee.1 Q -
      ∑ j, C72.linearFlux X.S s A u ee Q j * C72.grad X.S s k ee.1 Q j)
    (fun ee Q => C72.capacity X.S ee Q * C72.value X.S s 0 ee.1 Q * C72.value X.S s k ee.1 Q - ∑ j, C72.linearFlux X.S s A u ee Q j * C72.grad X.S s k ee.1 Q j)
  have h0 : ∀ e Q, C72.value X.S s (0 : X.S.Nodal) e Q = 0 := by
    intro e Q
    have := C72.value_lin (S := X.S) (s := s) 0 0 k k e Q
    simp only [zero_mul, add_zero] at this
    exact this
  refine hsq k ?_
  have e' : C72.square X.S s k = C72.integral X.S s X.S.elements fun ee Q => 1 * (C72.capacity X.S ee Q * C72.value X.S s k ee.1 Q * C72.value X.S s k ee.1 Q -
      ∑ j, C72.linearFlux X.S s A u ee Q j * C72.grad X.S s k ee.1 Q j) +
      -1 * (C72.capacity X.S ee Q * C72.value X.S s 0 ee.1 Q * C72.value X.S s k ee.1 Q - ∑ j, C72.linearFlux X.S s A u ee Q j * C72.grad X.S s k ee.1 Q j) := by
    unfold C72.square
    refine C72.integral_congr fun ee _ Q _ => ?_
    rw [h0]
    ring
  rw [e', e]
  linarith

/-- **C101, equilibrium.**  A steady temperature field that has the prescribed values stays as it is over any run, with any steps. -/
theorem C101_equilibrium (hm : C72.Meaning X.S s) (hg : C72.AllGood X.S s) (hv : C72.Volumes X.S s X.S.elements) (hF : C75.Meaning X.F sF d) (hl : C75.AllGoodHeat X sF)
    (hw : ∀ Q < X.F.E.npts, 0 ≤ sF.wt Q) {A : ℕ → M d.n} (hA : C72.Linear X.S A) (hd : ∀ p, C49.Dissipates (X.S.material p)) (hc : ∀ p, 0 ≤ (X.S.material p).capacity)
    (hsrc : ∀ src ∈ X.S.sources, ∀ t p T T' g g', src.value t p T g = src.value t p T' g') {g h : Flux d → Tensor.Vec ℝ d.n → Tensor.Vec ℝ d.n → ℝ → ℝ} (hN : C75.Newton X g h)
    (hsq : ∀ x : X.S.Nodal, C72.square X.S s x = 0 → x = 0) {u : X.S.Nodal} (hb : Prescribes b fun _ => u) (hu : ∀ t, ∀ n ∉ b.allDofs, X.residual t u 0 n = 0)
    (h1 : C91.Solves X b solve) (dts : List ℝ) (hdt : ∀ dt ∈ dts, 0 < dt) {r : RunA X.S.nn} (hr : r.first = true) (hx : r.x = u) :
    (runA b .direct solve .serac dts r).x = u := by
  have h0 : (startA b .direct solve r).xdot = 0 := by
    rw [start_new hr]
    have hsp := solve1_spec (m := .direct) h1.keeps r.st r.clock 0 r.x
    obtain ⟨Y, e1, e2, e3⟩ := solve_residual h1 .direct r.st r.clock le_rfl r.x
    have hY : Y = u := by
      funext n
      by_cases hn : n ∈ b.allDofs
      · rw [e2 n hn, zero_mul, add_zero]
        unfold constraint1
        simp only [ne_eq, not_true_eq_false, if_false]
        exact eval_mem hb _ hn
      · rw [e1 n hn, zero_mul, add_zero, hx]
    rw [hY] at e3
    refine rate_unique hm hg hF hl hA hsq e3 (hu r.clock) fun n hn => ?_
    rw [(hsp.1 n hn).2]
    unfold constraint1
    simp only [ne_eq, not_true_eq_false, if_false]
    rw [C21.rate_eq hb _ hn]
    unfold C21.rate
    simp
  have key : ∀ (dts : List ℝ), (∀ dt ∈ dts, 0 < dt) → ∀ r : RunA X.S.nn, r.first = false → r.x = u → r.xdot = 0 → (runA b .direct solve .serac dts r).x = u := by
    intro dts
    induction dts with
    | nil => intro _ r _ h _; exact h
    | cons dt l ih =>
      intro hdt r hr hx hv0
      have hp := hdt dt List.mem_cons_self
      obtain ⟨Y, hY, hf, hz⟩ := step_direct h1 hb hp hr
      have hY' : ∀ n, Y n = u n + 8 / 15 * dt * rateOf b .direct solve dt r n := by
        intro n
        rw [hY, hx, hv0]
        simp
      have key := C91.stage_difference hm hg hv hF hl hw hA hd hsrc hN (r.t + 2 / 3 * dt) Y u _ 0 hz (hu _) hf
      generalize hk : rateOf b .direct solve dt r = k at *
      have hk0 : k = 0 := by
        refine hsq k ?_
        have e1 : (fun n => k n - (0 : X.S.Nodal) n : X.S.Nodal) = k := by
          funext n
          simp
        have e2 : (fun n => Y n - u n : X.S.Nodal) = fun n => 8 / 15 * dt * k n + 0 * k n := by
          funext n
          rw [hY']
          ring
        rw [e1, e2] at key
        have e3 : C72.integral X.S s X.S.elements (fun ee Q => C72.capacity X.S ee Q * C72.value X.S s k ee.1 Q * C72.value X.S s (fun n => 8 / 15 * dt * k n + 0 * k n) ee.1 Q) =
            8 / 15 * dt * C72.square X.S s k := by
          unfold C72.square
          rw [← C72.integral_mul]
          refine C72.integral_congr fun ee _ Q _ => ?_
          rw [C72.value_lin]
          ring
        rw [e3] at key
        have hn : 0 ≤ C72.square X.S s k := C72.integral_nonneg hv fun ee _ Q _ => mul_nonneg (hc _) (sq_nonneg _)
        by_contra hne
        have := mul_pos (mul_pos (by norm_num : (0 : ℝ) < 8 / 15) hp) (lt_of_le_of_ne hn (Ne.symm hne))
        linarith
      have hm1 := move_eq (b := b) (m := .direct) (solve := solve) dt r
      rw [hk, hk0, hv0] at hm1
      refine ih (fun x hx => hdt x (List.mem_cons_of_mem _ hx)) _ (step_first dt r) ?_ ?_
      · beta_reduce
        unfold stepA
        rw [start_old hr, hm1.1, hx]
        simp
      · beta_reduce
        unfold stepA
        rw [start_old hr, hm1.2.1]
        funext n
        simp
  rcases dts with - | ⟨dt, l⟩
  · exact hx
  · rw [← run_start (by simp)]
    exact key _ hdt _ (start_first r) (by rw [start_x, hx]) h0

end Heat

/-! ## Examples -/

section Examples

/-- Two dofs, one prescribed as `t²`: wrong after the first step, within twice a third of the square of the step for ever. -/
example (r : RunA 2) (h0 : r.x 1 = r.t ^ 2) : (stepA C21.exB .direct (fun _ v => v) .serac 1 r).x 1 ≠ (r.t + 1) ^ 2 :=
  (C101_square_wrong C91.ex_prescribes (fun _ _ _ _ => rfl) one_ne_zero r (by simp [C21.exB]) h0).2

example (r : RunA 2) (h0 : r.x 1 = r.t ^ 2) (i : ℕ) : |(runA C21.exB .direct (fun _ v => v) .serac (List.replicate i 1) r).x 1 - (r.t + i) ^ 2| ≤ 2 / 3 := by
  have := C101_bounded C91.ex_prescribes (solve := fun _ v => v) (fun _ _ _ _ => rfl) (l := 1) (by simp [C21.exB]) (δ := 1 / 3) (List.replicate i 1) r fun dt h => by
    rw [List.eq_of_mem_replicate h]
    refine ⟨one_ne_zero, fun t => ?_⟩
    unfold defect
    rw [show 3 / 2 * (t + 2 / 3 * 1) ^ 2 - 1 / 2 * t ^ 2 - (t + 1) ^ 2 = -(1 / 3 : ℝ) by ring, abs_neg, abs_of_nonneg (by norm_num)]
  rw [List.sum_replicate, h0, sub_self, mul_zero, sub_zero, nsmul_eq_mul, mul_one] at this
  refine this.trans ?_
  have : (0 : ℝ) ≤ (1 / 2) ^ (List.replicate i (1 : ℝ)).length := by positivity
  linarith

/-- With rate control, a new module that starts at zero: off by less than a twelfth of the square of the step. -/
example (x : Vec 2) (h0 : x 1 = 0) (i : ℕ) : (runA C21.exB .rate (fun _ v => v) .serac (List.replicate i 1) (newA 0 x)).x 1 = (i : ℝ) ^ 2 + (1 - (-1 / 5) ^ i) / 18 := by
  have := C101_rate (b := C21.exB) (solve := fun _ v => v) (p := fun _ => 0) (q := fun _ => 0) (w := fun _ => 1) (by simpa using C91.ex_prescribes) (fun _ _ _ _ => rfl) (l := 1)
    (by simp [C21.exB]) one_ne_zero (r := newA 0 x) rfl i
  rw [this]
  simp only [newA, h0]
  ring

/-- A source whose power grows with time. -/
def exGrowing : Heat.Source .two := ⟨[1, 3], fun t _ _ _ => t⟩
def exWarm : Heat.Exchange .two := ⟨C72.exHeat [exGrowing], C75.exFaces, []⟩

theorem ex_good : C72.AllGood (C72.exHeat [exGrowing]) C72.exShapes := by
  refine ⟨fun e he => ?_, fun src hsrc e he => ?_⟩
  · have he : e = 0 ∨ e = 1 ∨ e = 2 ∨ e = 3 := by simpa [C72.exHeat] using he
    exact ⟨by change e < 4; omega, fun Q hQ => (C72.ex_det _ he hQ).ne'⟩
  · rw [List.mem_singleton.1 (show src ∈ [exGrowing] from hsrc)] at he
    have he : e = 1 ∨ e = 3 := by simpa [exGrowing] using he
    exact ⟨by change e < 4; omega, fun Q hQ => (C72.ex_det _ (by tauto) hQ).ne'⟩

theorem ex_power (t : ℝ) (u : exWarm.S.Nodal) : power exWarm C72.exShapes C75.exSF t u = 0 + 1 / 2 * t := by
  have hv : ∀ e, ∀ Q < 3, C72.value (C72.exHeat [exGrowing]) C72.exShapes (fun _ => 1) e Q = 1 := by
    intro e Q hQ
    unfold C72.value
    simp only [one_mul]
    exact (C72.ex_unity [exGrowing] Q hQ).1
  have hj : ∀ e, ∀ Q < 3, e = 1 ∨ e = 3 → (C72.jac (C72.exHeat [exGrowing]) C72.exShapes e Q).det = if e = 1 then 3 / 5 else 2 / 5 := by
    intro e Q hQ he
    have h := C71.triangle_jac (C72.ex_triangles [exGrowing]) (e := e) (by change e ∈ [0, 1, 2, 3]; rcases he with rfl | rfl <;> simp) hQ
    change C72.jac (C72.exHeat [exGrowing]) C72.exShapes e Q = _ at h
    rw [h]
    refine (Matrix.det_fin_two _).trans ?_
    rcases he with rfl | rfl <;> simp [C72.body, C72.exHeat, C71.exConn, C71.exPos, Fin.ofNat] <;> norm_num
  have e : C72.supplied (C72.exHeat [exGrowing]) C72.exShapes t u (fun _ => 1) = t * (1 / 2) := by
    unfold C72.supplied C72.integral
    change ([exGrowing].map _).sum = _
    simp only [List.map_cons, List.map_nil, List.sum_cons, List.sum_nil, exGrowing, List.zipIdx_cons, List.zipIdx_nil, add_zero]
    have h3 : (C72.exHeat [exGrowing]).E.npts = 3 := rfl
    have hw : ∀ Q, C72.exShapes.wt Q = 1 / 6 := fun _ => rfl
    simp only [exGrowing] at hv hj h3
    rw [h3]
    simp only [sum_range_succ, range_zero, sum_empty, hv _ 0 (by norm_num), hv _ 1 (by norm_num), hv _ 2 (by norm_num), hj _ 0 (by norm_num) (Or.inl rfl),
      hj _ 1 (by norm_num) (Or.inl rfl), hj _ 2 (by norm_num) (Or.inl rfl), hj _ 0 (by norm_num) (Or.inr rfl), hj _ 1 (by norm_num) (Or.inr rfl),
      hj _ 2 (by norm_num) (Or.inr rfl), hw]
    norm_num
    ring
  unfold power
  change C72.supplied (C72.exHeat [exGrowing]) C72.exShapes t u (fun _ => 1) - ([] : List ℝ).sum = _
  rw [e]
  simp
  ring

/-- Heated with the power `t/2` from zero on: off by a bounded amount; and warmer in a step after a reset. -/
example : ∃ solve, ∀ dt : ℝ, 0 < dt → ∀ (x : exWarm.S.Nodal) (i : ℕ),
    C72.content (C72.exHeat [exGrowing]) C72.exShapes (runA ⟨[], []⟩ .direct solve .serac (List.replicate i dt) (newA 0 x)).x =
      C72.content (C72.exHeat [exGrowing]) C72.exShapes x + (i * dt) ^ 2 / 4 + (1 - (-1 / 5) ^ i) * dt ^ 2 / 72 ∧
    (0 < i → C72.content (C72.exHeat [exGrowing]) C72.exShapes (stepA ⟨[], []⟩ .direct solve .serac dt (newA 0 x)).x <
      C72.content (C72.exHeat [exGrowing]) C72.exShapes
        (stepA ⟨[], []⟩ .direct solve .serac dt (resetA 0 x (runA ⟨[], []⟩ .direct solve .serac (List.replicate i dt) (newA 0 x)))).x) := by
  obtain ⟨-, h2, h3, h4, -⟩ := C72.C72_conductors 2 1 3 2 _ C72.ex_material
  obtain ⟨solve, h5, h6⟩ := C75.heat_solvable_all (X := exWarm) (sF := C75.exSF) (C72.ex_meaning _) ex_good (C72.ex_volumes _) C75.ex_faces
      (fun l hl => absurd hl List.not_mem_nil) (fun _ _ => by simp [C75.exSF, C75.exRule]) (C72.ex_linear _) (fun _ => h3) (C72.ex_definite _)
      (fun _ => h4) (fun src hs => by rw [List.mem_singleton.1 (show src ∈ [_] from hs)]; intros; rfl) (g := fun _ _ _ _ => 0) (h := fun _ _ _ _ => 0)
      ⟨fun l hl => absurd hl List.not_mem_nil, fun _ _ _ _ _ => le_rfl⟩ (⟨[], []⟩ : BCs 5)
  have hs : C91.Solves exWarm (⟨[], []⟩ : BCs 5) solve := ⟨h5, h6⟩
  refine ⟨solve, fun dt hdt x i => ⟨?_, fun hi => ?_⟩⟩
  · have := C101_late_wrong (X := exWarm) (sF := C75.exSF) (C72.ex_meaning _) ex_good (C72.ex_unity _) C75.ex_faces (fun l hl => absurd hl List.not_mem_nil) (fun _ => h2) hs rfl
      .direct ex_power hdt.le 0 x i
    refine this.trans ?_
    rw [intervalIntegral.integral_add (Continuous.intervalIntegrable (by fun_prop) _ _) (Continuous.intervalIntegrable (by fun_prop) _ _), intervalIntegral.integral_const,
      intervalIntegral.integral_const_mul, integral_id, smul_eq_mul]
    change C72.content (C72.exHeat [exGrowing]) C72.exShapes x + _ + _ = _
    ring
  · exact C101_reset_wrong (X := exWarm) (sF := C75.exSF) (C72.ex_meaning _) ex_good (C72.ex_unity _) C75.ex_faces (fun l hl => absurd hl List.not_mem_nil) (fun _ => h2) hs rfl
      .direct ex_power (by norm_num) hdt x hi

/-- Cooled on two sides and held at two corners: runs stay near each other; the steady field zero stays. -/
example : ∃ solve, ∀ dt : ℝ, 0 < dt → (∀ (i : ℕ) (r r' : RunA 5), r.t = r'.t →
    C72.square (C72.exHeat []) C72.exShapes (fun n => (runA C72.exWalls .direct solve .serac (List.replicate i dt) r).x n -
        (runA C72.exWalls .direct solve .serac (List.replicate i dt) r').x n) ≤
      2 * energy C75.exExchange C72.exShapes dt (fun n => r.x n - r'.x n) fun n => (startA C72.exWalls .direct solve r).xdot n - (startA C72.exWalls .direct solve r').xdot n) := by
  obtain ⟨-, h2, h3, h4, -⟩ := C72.C72_conductors 2 1 3 2 _ C72.ex_material
  obtain ⟨solve, hs⟩ := C91.ex_solves (.inr rfl) C72.exWalls
  have hl : C75.AllGoodHeat C75.exExchange C75.exSF := by
    intro l hl
    rw [List.mem_singleton.1 (show l ∈ [C75.exCooling] from hl)]
    exact C75.ex_faces_good _ (by simp [C75.exCooling])
  refine ⟨solve, fun dt hdt i r r' ht => C101_contraction_run (X := C75.exExchange) (C72.ex_meaning []) (C72.ex_good [] (by simp)) (C72.ex_volumes _) C75.ex_faces hl
      (fun _ _ => by simp [C75.exSF, C75.exRule]) (C72.ex_linear _) (fun _ => h3) (fun _ => h4) (by simp [C75.exExchange, C72.exHeat]) C75.ex_newton
      (G := fun _ _ => 0) ⟨?_, ?_⟩ hs hs hdt i r r' ht⟩
  · intro bc hbc i hi t
    rw [List.mem_singleton.1 (show bc ∈ [_] from hbc)]
  · change ∀ i : Fin 5, i ∈ C72.exWalls.allDofs ↔ ∃ bc ∈ C72.exWalls.essentials, i ∈ bc.dofs
    simp [C72.exWalls]

end Examples

end Serac.C101
