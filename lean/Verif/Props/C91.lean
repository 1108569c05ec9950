import Verif.Model.RungeKutta
import Verif.Props.C21
import Verif.Props.C75
import Mathlib.Analysis.SpecialFunctions.Integrals.Basic
import Mathlib.Algebra.Polynomial.AlgebraMap
import Mathlib.Topology.Algebra.Polynomial
/-!
# C91: what a step of every first-order method does

Spec, independent of the model: the values of a method are described by its coefficients only.  `at i` is the field a stage works at, `x + dt Σ_{j ≤ i} a_ij k_j`.  The
theorems are about values that `FirstOrderODE` leaves in the solution vector and about the heat the temperature field contains (C72, C75).

Violation found: with `DirectControl` (documented to enforce `u(t+dt) = U(t+dt)`, solver_config.hpp:62-70) the values the constrained dofs have after a step of implicit
midpoint, SDIRK23 or SDIRK34 are not the prescribed ones (`C91_midpoint_wrong`, `C91_sdirk23_wrong`, `C91_sdirk34_wrong`): the constraint holds at the stages, not at the end of the step.  With implicit
midpoint a wrong initial value is never forgotten.
-/

noncomputable section
namespace Serac.C91
open Finset Serac.Ode

section General
variable {n : ℕ} {T : Tableau} {b : BCs n} {m : Enforce} {solve : State1 n → Vec n → Vec n}

/-- The field a stage works at. -/
def at' (T : Tableau) (dt : ℝ) (x : Vec n) (k : ℕ → Vec n) (i : ℕ) : Vec n := fun m => x m + dt * ∑ j ∈ range (i + 1), T.a i j * k j m
/-- The field after the step. -/
def after (T : Tableau) (dt : ℝ) (x : Vec n) (k : ℕ → Vec n) : Vec n := fun m => x m + dt * ∑ i ∈ range T.s, T.b i * k i m

/-- The rates of a step. -/
def rates (T : Tableau) (b : BCs n) (m : Enforce) (solve : State1 n → Vec n → Vec n) (dt : ℝ) (r : Run1 n) : ℕ → Vec n := (T.stages b m solve dt r T.s).2

theorem stages_stable (dt : ℝ) (r : Run1 n) {i l : ℕ} (h : i < l) :
    (T.stages b m solve dt r l).2 i = (T.stages b m solve dt r (i + 1)).2 i := by
  induction l with
  | zero => omega
  | succ l ih =>
    rcases Nat.lt_succ_iff_lt_or_eq.1 h with h | rfl
    · rw [← ih h]
      change Function.update _ _ _ i = _
      rw [Function.update_of_ne (by omega)]
    · rfl

theorem predictor_congr (dt : ℝ) (x : Vec n) {k k' : ℕ → Vec n} {i : ℕ} (h : ∀ j < i, k j = k' j) : T.predictor dt x k i = T.predictor dt x k' i := by
  funext m
  unfold Tableau.predictor
  congr 2
  exact sum_congr rfl fun j hj => by rw [h j (mem_range.1 hj)]

/-- A stage of the step is one call of `Solve`. -/
theorem stage_eq (dt : ℝ) (r : Run1 n) {i : ℕ} (h : i < T.s) : rates T b m solve dt r i =
    (solve1 b m solve (T.stages b m solve dt r i).1 (r.t + T.c i * dt) (T.a i i * dt) (T.predictor dt r.x (rates T b m solve dt r) i)).2 := by
  have e : T.predictor dt r.x (rates T b m solve dt r) i = T.predictor dt r.x (T.stages b m solve dt r i).2 i := predictor_congr dt r.x fun j hj => by
    unfold rates
    rw [stages_stable dt r (hj.trans h), stages_stable dt r hj]
  rw [e]
  unfold rates
  rw [stages_stable dt r h]
  change Function.update _ _ _ i = _
  rw [Function.update_self]

theorem at_eq (dt : ℝ) (x : Vec n) (k : ℕ → Vec n) (i : ℕ) : at' T dt x k i = fun m => T.predictor dt x k i m + T.a i i * dt * k i m := by
  funext m
  unfold at' Tableau.predictor
  rw [sum_range_succ]
  ring

theorem step_x (dt : ℝ) (r : Run1 n) : (T.step b m solve dt r).x = after T dt r.x (rates T b m solve dt r) := rfl
theorem step_t (dt : ℝ) (r : Run1 n) : (T.step b m solve dt r).t = r.t + dt := rfl

theorem run_t (dts : List ℝ) (r : Run1 n) : (T.run b m solve dts r).t = r.t + dts.sum := by
  induction dts generalizing r with
  | nil => simp [Tableau.run]
  | cons dt l ih =>
    rw [List.sum_cons, ← add_assoc]
    exact ih _

theorem run_append (dts : List ℝ) (dt : ℝ) (r : Run1 n) : T.run b m solve (dts ++ [dt]) r = T.step b m solve dt (T.run b m solve dts r) := by
  rw [Tableau.run, List.foldl_append]
  rfl

/-! ### Values of constrained dofs -/

variable {g : ℝ → Fin n → ℝ}

/-- **C91, stages.**  With direct control every implicit stage works at the prescribed values of its own time. -/
theorem C91_stages (hg : Prescribes b g) (hk : Keeps b solve) {dt : ℝ} (r : Run1 n) {i : ℕ} (h : i < T.s) (ha : T.a i i * dt ≠ 0) {l : Fin n} (hl : l ∈ b.allDofs) :
    at' T dt r.x (rates T b .direct solve dt r) i l = g (r.t + T.c i * dt) l := by
  have := (C21.C21_stage hg hk (T.stages b .direct solve dt r i).1 (r.t + T.c i * dt) (T.a i i * dt) (T.predictor dt r.x (rates T b .direct solve dt r) i) ha l hl).1
  rw [← stage_eq dt r h] at this
  rw [at_eq]
  refine Eq.trans ?_ this
  congr 1
  rw [((solve1_spec (m := .direct) hk _ _ _ _).1 l hl).1]
  unfold constraint1
  simp only [ne_eq, ha, not_false_eq_true, if_true]

/-- The last stage is the end of the step. -/
structure StifflyAccurate (T : Tableau) : Prop where
  pos : 0 < T.s
  last : ∀ j < T.s, T.b j = T.a (T.s - 1) j
  time : T.c (T.s - 1) = 1
  diag : T.a (T.s - 1) (T.s - 1) ≠ 0

/-- **C91, direct control.**  With a stiffly accurate method the constrained dofs have the prescribed values after every run that ends with a step of nonzero length. -/
theorem C91_direct (hT : StifflyAccurate T) (hg : Prescribes b g) (hk : Keeps b solve) (dts : List ℝ) {dt : ℝ} (hdt : dt ≠ 0) (r : Run1 n) {l : Fin n}
    (hl : l ∈ b.allDofs) : (T.run b .direct solve (dts ++ [dt]) r).x l = g (r.t + dts.sum + dt) l := by
  rw [run_append, step_x]
  have hs : T.s - 1 < T.s := Nat.sub_lt hT.pos one_pos
  have := C91_stages (T := T) hg hk (T.run b .direct solve dts r) hs (mul_ne_zero hT.diag hdt) hl
  rw [hT.time, one_mul, run_t] at this
  rw [← this]
  unfold after at'
  rw [Nat.sub_add_cancel hT.pos]
  congr 2
  exact sum_congr rfl fun j hj => by rw [hT.last j (mem_range.1 hj)]

/-- The coefficients are consistent: a stage is at the time its coefficients say, and the weights add up to one. -/
structure Consistent (T : Tableau) : Prop where
  rows : ∀ i < T.s, T.c i = ∑ j ∈ range (i + 1), T.a i j
  weights : ∑ i ∈ range T.s, T.b i = 1

/-- The implicit stages have the rates of an affine history. -/
theorem rates_affine (hT : Consistent T) (ha : ∀ i < T.s, T.a i i ≠ 0) {p q : Fin n → ℝ} (hg : Prescribes b fun t l => p l + q l * t) (hk : Keeps b solve) {dt : ℝ}
    (hdt : dt ≠ 0) (r : Run1 n) {l : Fin n} (hl : l ∈ b.allDofs) (h0 : r.x l = p l + q l * r.t) {i : ℕ} (h : i < T.s) : rates T b .direct solve dt r i l = q l := by
  induction i using Nat.strong_induction_on with
  | _ i ih =>
    have := C91_stages (T := T) hg hk r h (mul_ne_zero (ha i h) hdt) hl
    unfold at' at this
    rw [sum_range_succ, sum_congr rfl fun j hj => by rw [ih j (mem_range.1 hj) ((mem_range.1 hj).trans h)], ← sum_mul, h0] at this
    have e := hT.rows i h
    rw [sum_range_succ] at e
    have e' : ∑ j ∈ range i, T.a i j = T.c i - T.a i i := by linarith
    rw [e'] at this
    have h2 : T.a i i * dt * (rates T b .direct solve dt r i l - q l) = 0 := by linear_combination this
    rcases mul_eq_zero.1 h2 with h3 | h3
    · exact absurd h3 (mul_ne_zero (ha i h) hdt)
    · linarith

/-- **C91, affine histories.**  With direct control and any consistent method with implicit stages, boundary values that start right and grow at a constant rate stay right
over any run. -/
theorem C91_affine (hT : Consistent T) (ha : ∀ i < T.s, T.a i i ≠ 0) {p q : Fin n → ℝ} (hg : Prescribes b fun t l => p l + q l * t) (hk : Keeps b solve) (dts : List ℝ)
    (hdt : ∀ dt ∈ dts, dt ≠ 0) (r : Run1 n) {l : Fin n} (hl : l ∈ b.allDofs) (h0 : r.x l = p l + q l * r.t) :
    (T.run b .direct solve dts r).x l = p l + q l * (r.t + dts.sum) := by
  induction dts generalizing r with
  | nil => simpa [Tableau.run] using h0
  | cons dt dts ih =>
    rw [List.sum_cons, ← add_assoc]
    refine ih (fun d hd => hdt d (List.mem_cons_of_mem _ hd)) (T.step b .direct solve dt r) ?_
    rw [step_x, after, sum_congr rfl fun i hi => by rw [rates_affine hT ha hg hk (hdt dt List.mem_cons_self) r hl h0 (mem_range.1 hi)], ← sum_mul, hT.weights, h0, step_t]
    ring

/-- **C91, rates.**  With rate and full control, and for explicit methods whichever control, a step adds to a constrained dof the weighted sum of the prescribed rates
at the times of the stages. -/
theorem C91_rates (hg : Prescribes b g) (hk : Keeps b solve) {dt : ℝ} (hm : m ≠ .direct ∨ ∀ i < T.s, T.a i i * dt = 0) (r : Run1 n) {l : Fin n} (hl : l ∈ b.allDofs) :
    (T.step b m solve dt r).x l = r.x l + dt * ∑ i ∈ range T.s, T.b i * C21.rate g eps1 (r.t + T.c i * dt) l := by
  rw [step_x, after]
  congr 2
  refine sum_congr rfl fun i hi => ?_
  rw [stage_eq dt r (mem_range.1 hi)]
  congr 1
  by_cases h0 : T.a i i * dt = 0
  · rw [h0]
    exact (C21.C21_explicit hg hk m _ _ _ l hl).2
  · rcases m with _ | _ | _
    · rcases hm with hm | hm
      · exact absurd rfl hm
      · exact absurd (hm i (mem_range.1 hi)) h0
    · exact (C21.C21_stage hg hk _ _ _ _ h0 l hl).2.1
    · exact (C21.C21_stage hg hk _ _ _ _ h0 l hl).2.2.2

/-- **C91, quadratic histories.**  With rate and full control (and explicit methods), a boundary value that is quadratic in time and starts right is after the step off by
its second coefficient times `dt² (2 Σ b_i c_i - 1)`. -/
theorem C91_quadratic (hT : ∑ i ∈ range T.s, T.b i = 1) {p q w : Fin n → ℝ} (hg : Prescribes b fun t l => p l + q l * t + w l * t ^ 2) (hk : Keeps b solve) {dt : ℝ}
    (hm : m ≠ .direct ∨ ∀ i < T.s, T.a i i * dt = 0) (r : Run1 n) {l : Fin n} (hl : l ∈ b.allDofs) (h0 : r.x l = p l + q l * r.t + w l * r.t ^ 2) :
    (T.step b m solve dt r).x l = p l + q l * (r.t + dt) + w l * (r.t + dt) ^ 2 + w l * dt ^ 2 * (2 * ∑ i ∈ range T.s, T.b i * T.c i - 1) := by
  rw [C91_rates hg hk hm r hl, h0]
  have he : eps1 ≠ 0 := by norm_num [eps1]
  have hr : ∀ t, C21.rate (fun t l => p l + q l * t + w l * t ^ 2) eps1 t l = q l + 2 * w l * t := by
    intro t
    unfold C21.rate
    field_simp
    ring
  have : ∑ i ∈ range T.s, T.b i * C21.rate (fun t l => p l + q l * t + w l * t ^ 2) eps1 (r.t + T.c i * dt) l =
      (q l + 2 * w l * r.t) * ∑ i ∈ range T.s, T.b i + 2 * w l * dt * ∑ i ∈ range T.s, T.b i * T.c i := by
    rw [mul_sum, mul_sum, ← sum_add_distrib]
    refine sum_congr rfl fun i _ => ?_
    rw [hr]
    ring
  rw [this, hT]
  ring

/-- **C91, rate control of second order.**  Methods with `Σ b_i c_i = 1/2` keep quadratic boundary values right over any run of rate or full control. -/
theorem C91_quadratic_run (hT : ∑ i ∈ range T.s, T.b i = 1) (hT2 : ∑ i ∈ range T.s, T.b i * T.c i = 1 / 2) {p q w : Fin n → ℝ}
    (hg : Prescribes b fun t l => p l + q l * t + w l * t ^ 2) (hk : Keeps b solve) (hm : m ≠ .direct ∨ ∀ i < T.s, T.a i i = 0) (dts : List ℝ) (r : Run1 n)
    {l : Fin n} (hl : l ∈ b.allDofs) (h0 : r.x l = p l + q l * r.t + w l * r.t ^ 2) :
    (T.run b m solve dts r).x l = p l + q l * (r.t + dts.sum) + w l * (r.t + dts.sum) ^ 2 := by
  induction dts generalizing r with
  | nil => simpa [Tableau.run] using h0
  | cons dt dts ih =>
    rw [List.sum_cons, ← add_assoc]
    refine ih (T.step b m solve dt r) ?_
    rw [C91_quadratic hT hg hk (hm.imp_right fun h i hi => by rw [h i hi, zero_mul]) r hl h0, hT2, step_t]
    ring

end General

/-! ### The methods -/

theorem method_of {k : Method} {T : Tableau} (h : tableau1 k = some T) {T' : Tableau} (h' : tableau1 k = some T') : T = T' := Option.some.inj (h.symm.trans h')

theorem gamma23_eq : gamma23 ^ 2 = gamma23 - 1 / 6 := by
  have h3 : √3 ^ 2 = 3 := Real.sq_sqrt (by norm_num)
  unfold gamma23
  linear_combination h3 / 36

theorem gamma23_pos : 3 / 4 < gamma23 := by
  have : (3 / 2 : ℝ) < √3 := Real.lt_sqrt_of_sq_lt (by norm_num)
  unfold gamma23
  linarith

/-- `gamma` of SDIRK34 is a root of the cubic that makes the method of fourth order. -/
theorem gamma34_cubic : 24 * gamma34 ^ 3 - 36 * gamma34 ^ 2 + 12 * gamma34 - 1 = 0 := by
  have h3 : √3 ^ 2 = 3 := Real.sq_sqrt (by norm_num)
  have h0 : √3 ≠ 0 := by positivity
  have hc := Real.cos_three_mul (Real.pi / 18)
  rw [show 3 * (Real.pi / 18) = Real.pi / 6 by ring, Real.cos_pi_div_six] at hc
  unfold gamma34
  generalize Real.cos (Real.pi / 18) = y at hc ⊢
  have hi : (1 / √3) ^ 2 = 1 / 3 := by rw [div_pow, h3, one_pow]
  have hs : √3 * (1 / √3) = 1 := by field_simp
  generalize 1 / √3 = z at hi hs ⊢
  have hz3 : z ^ 3 = z / 3 := by rw [pow_succ, hi]; ring
  have : √3 = 3 * z := by
    have : √3 ^ 2 * z = √3 := by rw [pow_two, mul_assoc, hs, mul_one]
    rw [h3] at this
    linarith
  rw [this] at hc
  linear_combination 24 * y ^ 3 * hz3 - 2 * z * hc + 3 * hi

theorem gamma34_pos : 1 < gamma34 := by
  have h3 : √3 ^ 2 = 3 := Real.sq_sqrt (by norm_num)
  have hlt : Real.cos (Real.pi / 6) < Real.cos (Real.pi / 18) :=
    Real.cos_lt_cos_of_nonneg_of_le_pi (by positivity) (by linarith [Real.pi_pos]) (by linarith [Real.pi_pos])
  rw [Real.cos_pi_div_six] at hlt
  have hp : (0 : ℝ) < √3 := by positivity
  unfold gamma34
  have : 1 / √3 * (√3 / 2) = 1 / 2 := by field_simp
  have h2 := mul_lt_mul_of_pos_left hlt (show (0 : ℝ) < 1 / √3 by positivity)
  linarith

theorem delta34_eq : 2 * gamma34 - 1 + 4 * delta34 - 12 * delta34 * gamma34 = 0 := by
  have h := gamma34_cubic
  have h0 : 2 * gamma34 - 1 ≠ 0 := by linarith [gamma34_pos]
  unfold delta34
  field_simp
  linear_combination 2 * h

theorem delta34_bounds : 0 < delta34 ∧ delta34 < 1 / 6 := by
  have h0 : 1 < (2 * gamma34 - 1) ^ 2 := by nlinarith [gamma34_pos]
  unfold delta34
  refine ⟨by positivity, ?_⟩
  rw [div_lt_div_iff₀ (by positivity) (by norm_num)]
  linarith

theorem delta34_sq : delta34 * (2 * gamma34 - 1) ^ 2 = 1 / 6 := by
  have h0 : 2 * gamma34 - 1 ≠ 0 := by linarith [gamma34_pos]
  unfold delta34
  field_simp

/-- **C91, consistency.**  Every method is consistent. -/
theorem C91_consistent {k : Method} {T : Tableau} (h : tableau1 k = some T) : Consistent T := by
  cases k <;> cases h
  all_goals
    constructor
    · simp only [Tableau.ofRows, List.length_cons, List.length_nil]
      intro i hi
      interval_cases i <;> simp [entry, sum_range_succ] <;> norm_num <;> ring
    · simp [Tableau.ofRows, entry, sum_range_succ]
      try norm_num
      try ring

/-- The methods that solve an equation in every stage. -/
def Implicit (k : Method) : Prop := k = .BackwardEuler ∨ k = .SDIRK33 ∨ k = .ImplicitMidpoint ∨ k = .SDIRK23 ∨ k = .SDIRK34
/-- The methods that only evaluate the rate. -/
def Explicit (k : Method) : Prop := k = .ForwardEuler ∨ k = .RK2 ∨ k = .RK3SSP ∨ k = .RK4

theorem C91_implicit {k : Method} (hk : Implicit k) {T : Tableau} (h : tableau1 k = some T) : ∀ i < T.s, 0 < T.a i i := by
  have h1 := gamma23_pos
  have h2 := gamma34_pos
  rcases hk with rfl | rfl | rfl | rfl | rfl <;> cases h
  all_goals
    simp only [Tableau.ofRows, List.length_cons, List.length_nil]
    intro i hi
    interval_cases i <;> simp [entry, a33] <;> first | (norm_num; done) | linarith

theorem C91_explicit {k : Method} (hk : Explicit k) {T : Tableau} (h : tableau1 k = some T) : ∀ i < T.s, T.a i i = 0 := by
  rcases hk with rfl | rfl | rfl | rfl <;> cases h
  all_goals
    simp only [Tableau.ofRows, List.length_cons, List.length_nil]
    intro i hi
    interval_cases i <;> simp [entry]

/-- **C91, stiff accuracy.**  Of the methods with implicit stages, backward Euler and SDIRK33 end with their last stage. -/
theorem C91_accurate {k : Method} (hk : k = .BackwardEuler ∨ k = .SDIRK33) {T : Tableau} (h : tableau1 k = some T) : StifflyAccurate T := by
  have hd := C91_implicit (hk.elim .inl fun h => .inr (.inl h)) h
  have hpos : 0 < T.s := by rcases hk with rfl | rfl <;> cases h <;> simp [Tableau.ofRows]
  refine ⟨hpos, ?_, ?_, (hd _ (Nat.sub_lt hpos one_pos)).ne'⟩
  · rcases hk with rfl | rfl <;> cases h
    all_goals
      simp only [Tableau.ofRows, List.length_cons, List.length_nil]
      intro i hi
      interval_cases i <;> simp [entry]
  · rcases hk with rfl | rfl <;> cases h <;> simp [Tableau.ofRows, entry]

/-- The two Euler methods are those of C21. -/
theorem euler_step {n : ℕ} {T : Tableau} (b : BCs n) (m : Enforce) (solve : State1 n → Vec n → Vec n) (dt : ℝ) (r : Run1 n) :
    (tableau1 .BackwardEuler = some T → T.step b m solve dt r = stepBE1 b m solve dt r) ∧
    (tableau1 .ForwardEuler = some T → T.step b m solve dt r = stepFE1 b m solve dt r) := by
  have hp : ∀ (T : Tableau) (k : ℕ → Vec n), T.predictor dt r.x k 0 = r.x := fun T k => by
    funext l
    simp [Tableau.predictor]
  constructor <;> intro h <;> cases h
  all_goals
    simp only [Tableau.step, Tableau.ofRows, List.length_cons, List.length_nil, Tableau.stages, stepBE1, stepFE1, sum_range_succ, sum_range_zero, zero_add, entry,
      Function.update_self, List.getD_cons_zero, one_mul, zero_mul, add_zero]
    rw [hp]

section Wrong
variable {n : ℕ} {T : Tableau} {b : BCs n} {solve : State1 n → Vec n → Vec n} {g : ℝ → Fin n → ℝ}

/-- **C91, implicit midpoint.**  With direct control the value after a step is twice the prescribed value at the middle of the step minus the value before: right only if the
three are collinear. -/
theorem C91_midpoint_wrong (h : tableau1 .ImplicitMidpoint = some T) (hg : Prescribes b g) (hk : Keeps b solve) {dt : ℝ} (hdt : dt ≠ 0) (r : Run1 n) {l : Fin n}
    (hl : l ∈ b.allDofs) : (T.step b .direct solve dt r).x l = 2 * g (r.t + dt / 2) l - r.x l ∧
      ((T.step b .direct solve dt r).x l = g (r.t + dt) l ↔ r.x l + g (r.t + dt) l = 2 * g (r.t + dt / 2) l) := by
  have hs := C91_stages (T := T) hg hk (dt := dt) r (i := 0) (by cases h; simp [Tableau.ofRows]) (by cases h; simp [Tableau.ofRows, entry, hdt]) hl
  have e : (T.step b .direct solve dt r).x l = 2 * g (r.t + dt / 2) l - r.x l := by
    rw [step_x]
    generalize rates T b .direct solve dt r = k at hs ⊢
    cases h
    simp only [at', after, Tableau.ofRows, entry, List.length_cons, List.length_nil, sum_range_succ, sum_range_zero, zero_add, List.getD_cons_zero, one_mul] at hs ⊢
    rw [show r.t + 1 / 2 * dt = r.t + dt / 2 by ring] at hs
    linear_combination 2 * hs
  refine ⟨e, ?_⟩
  rw [e]
  constructor <;> intro h <;> linarith

/-- Starting from the right value, quadratic boundary values come out wrong. -/
theorem C91_midpoint_square (h : tableau1 .ImplicitMidpoint = some T) (hg : Prescribes b fun t _ => t ^ 2) (hk : Keeps b solve) {dt : ℝ} (hdt : dt ≠ 0) (r : Run1 n)
    {l : Fin n} (hl : l ∈ b.allDofs) (h0 : r.x l = r.t ^ 2) : (T.step b .direct solve dt r).x l ≠ (r.t + dt) ^ 2 := by
  rw [(C91_midpoint_wrong h hg hk hdt r hl).1, h0]
  intro h
  have : dt ^ 2 = 0 := by linear_combination -2 * h
  exact hdt (pow_eq_zero_iff two_ne_zero |>.1 this)

/-- **C91, memory of implicit midpoint.**  With direct control and constant boundary values, the error of a wrong initial value only changes its sign in every step. -/
theorem C91_midpoint_memory {q : Fin n → ℝ} (h : tableau1 .ImplicitMidpoint = some T) (hg : Prescribes b fun _ l => q l) (hk : Keeps b solve) (dts : List ℝ)
    (hdt : ∀ dt ∈ dts, dt ≠ 0) (r : Run1 n) {l : Fin n} (hl : l ∈ b.allDofs) :
    (T.run b .direct solve dts r).x l - q l = (-1) ^ dts.length * (r.x l - q l) := by
  induction dts generalizing r with
  | nil => simp [Tableau.run]
  | cons dt dts ih =>
    have := ih (fun d hd => hdt d (List.mem_cons_of_mem _ hd)) (T.step b .direct solve dt r)
    rw [(C91_midpoint_wrong h hg hk (hdt dt List.mem_cons_self) r hl).1] at this
    refine this.trans ?_
    rw [List.length_cons, pow_succ]
    ring

/-- The value after a step of SDIRK23. -/
theorem sdirk23_value (h : tableau1 .SDIRK23 = some T) (hg : Prescribes b g) (hk : Keeps b solve) {dt : ℝ} (hdt : dt ≠ 0) (r : Run1 n) {l : Fin n} (hl : l ∈ b.allDofs) :
    2 * gamma23 ^ 2 * (T.step b .direct solve dt r).x l = (2 * gamma23 ^ 2 - 4 * gamma23 + 1) * r.x l + (3 * gamma23 - 1) * g (r.t + gamma23 * dt) l +
      gamma23 * g (r.t + (1 - gamma23) * dt) l := by
  have hp := gamma23_pos
  have h1 := C91_stages (T := T) hg hk (dt := dt) r (i := 0) (by cases h; simp [Tableau.ofRows]) (mul_ne_zero (C91_implicit (by simp [Implicit]) h 0 (by cases h; simp [Tableau.ofRows])).ne' hdt) hl
  have h2 := C91_stages (T := T) hg hk (dt := dt) r (i := 1) (by cases h; simp [Tableau.ofRows]) (mul_ne_zero (C91_implicit (by simp [Implicit]) h 1 (by cases h; simp [Tableau.ofRows])).ne' hdt) hl
  rw [step_x]
  generalize rates T b .direct solve dt r = k at h1 h2 ⊢
  cases h
  simp only [at', after, Tableau.ofRows, entry, List.length_cons, List.length_nil, sum_range_succ, sum_range_zero, zero_add, List.getD_cons_zero, List.getD_cons_succ] at h1 h2 ⊢
  linear_combination (3 * gamma23 - 1) * h1 + gamma23 * h2

/-- **C91, SDIRK23.**  With direct control and constant boundary values, the error of a wrong initial value is multiplied by `1 - √3` in every step. -/
theorem C91_sdirk23_memory {q : Fin n → ℝ} (h : tableau1 .SDIRK23 = some T) (hg : Prescribes b fun _ l => q l) (hk : Keeps b solve) (dts : List ℝ)
    (hdt : ∀ dt ∈ dts, dt ≠ 0) (r : Run1 n) {l : Fin n} (hl : l ∈ b.allDofs) :
    (T.run b .direct solve dts r).x l - q l = (1 - √3) ^ dts.length * (r.x l - q l) := by
  induction dts generalizing r with
  | nil => simp [Tableau.run]
  | cons dt dts ih =>
    have h1 := ih (fun d hd => hdt d (List.mem_cons_of_mem _ hd)) (T.step b .direct solve dt r)
    have h2 := sdirk23_value h hg hk (hdt dt List.mem_cons_self) r hl
    have h3 : √3 ^ 2 = 3 := Real.sq_sqrt (by norm_num)
    have hp := gamma23_pos
    have h4 : (T.step b .direct solve dt r).x l - q l = (1 - √3) * (r.x l - q l) := by
      have h5 : 2 * gamma23 ^ 2 * ((T.step b .direct solve dt r).x l - q l) = 2 * gamma23 ^ 2 * ((1 - √3) * (r.x l - q l)) := by
        generalize (T.step b .direct solve dt r).x l = y at h2 ⊢
        have e : 2 * gamma23 ^ 2 - 4 * gamma23 + 1 = 2 * gamma23 ^ 2 * (1 - √3) := by
          unfold gamma23
          linear_combination (√3 / 18 + 1 / 3) * h3
        linear_combination h2 + e * (r.x l - q l)
      exact mul_left_cancel₀ (by positivity) h5
    rw [h4] at h1
    refine h1.trans ?_
    rw [List.length_cons, pow_succ]
    ring

/-- Starting from the right value, quadratic boundary values come out wrong. -/
theorem C91_sdirk23_wrong (h : tableau1 .SDIRK23 = some T) (hg : Prescribes b fun t _ => t ^ 2) (hk : Keeps b solve) {dt : ℝ} (hdt : dt ≠ 0) (r : Run1 n)
    {l : Fin n} (hl : l ∈ b.allDofs) (h0 : r.x l = r.t ^ 2) : (T.step b .direct solve dt r).x l ≠ (r.t + dt) ^ 2 := by
  intro h1
  have h2 := sdirk23_value h hg hk hdt r hl
  have hp := gamma23_pos
  have h3 := gamma23_eq
  rw [h1, h0] at h2
  have h4 : dt ^ 2 * (gamma23 * (1 / 3 - gamma23)) = 0 := by
    linear_combination -h2 - 4 * dt ^ 2 * gamma23 * h3
  rcases mul_eq_zero.1 h4 with h5 | h5
  · exact hdt (pow_eq_zero_iff two_ne_zero |>.1 h5)
  · rcases mul_eq_zero.1 h5 with h6 | h6 <;> linarith

theorem gamma34_lt : gamma34 < 13 / 10 := by
  have h3 : √3 ^ 2 = 3 := Real.sq_sqrt (by norm_num)
  have hp : (0 : ℝ) < √3 := by positivity
  have h1 : 1 / √3 < 8 / 10 := by
    rw [div_lt_div_iff₀ hp (by norm_num)]
    nlinarith
  have h2 := mul_le_mul_of_nonneg_left (Real.cos_le_one (Real.pi / 18)) (show (0 : ℝ) ≤ 1 / √3 by positivity)
  unfold gamma34
  linarith

/-- The value after a step of SDIRK34. -/
theorem sdirk34_value (h : tableau1 .SDIRK34 = some T) (hg : Prescribes b g) (hk : Keeps b solve) {dt : ℝ} (hdt : dt ≠ 0) (r : Run1 n) {l : Fin n} (hl : l ∈ b.allDofs) :
    gamma34 ^ 3 * ((T.step b .direct solve dt r).x l - r.x l) = delta34 * gamma34 ^ 2 * (g (r.t + (1 - gamma34) * dt) l - g (r.t + gamma34 * dt) l) +
      ((1 - 2 * delta34) * gamma34 + delta34 * (4 * gamma34 - 1)) *
        (gamma34 * (g (r.t + 1 / 2 * dt) l - r.x l) + (gamma34 - 1 / 2) * (g (r.t + gamma34 * dt) l - r.x l)) := by
  have h1 := C91_stages (T := T) hg hk (dt := dt) r (i := 0) (by cases h; simp [Tableau.ofRows]) (mul_ne_zero (C91_implicit (by simp [Implicit]) h 0 (by cases h; simp [Tableau.ofRows])).ne' hdt) hl
  have h2 := C91_stages (T := T) hg hk (dt := dt) r (i := 1) (by cases h; simp [Tableau.ofRows]) (mul_ne_zero (C91_implicit (by simp [Implicit]) h 1 (by cases h; simp [Tableau.ofRows])).ne' hdt) hl
  have h3 := C91_stages (T := T) hg hk (dt := dt) r (i := 2) (by cases h; simp [Tableau.ofRows]) (mul_ne_zero (C91_implicit (by simp [Implicit]) h 2 (by cases h; simp [Tableau.ofRows])).ne' hdt) hl
  rw [step_x]
  generalize rates T b .direct solve dt r = k at h1 h2 h3 ⊢
  cases h
  simp only [at', after, Tableau.ofRows, entry, List.length_cons, List.length_nil, sum_range_succ, sum_range_zero, zero_add, List.getD_cons_zero, List.getD_cons_succ] at h1 h2 h3 ⊢
  linear_combination delta34 * gamma34 ^ 2 * h1 + (1 - 2 * delta34) * gamma34 * (gamma34 * h2 - (1 / 2 - gamma34) * h1) +
    delta34 * (gamma34 ^ 2 * h3 - 2 * gamma34 ^ 2 * h1 - (1 - 4 * gamma34) * (gamma34 * h2 - (1 / 2 - gamma34) * h1))

/-- Starting from the right value, quadratic boundary values come out wrong. -/
theorem C91_sdirk34_wrong (h : tableau1 .SDIRK34 = some T) (hg : Prescribes b fun t _ => t ^ 2) (hk : Keeps b solve) {dt : ℝ} (hdt : dt ≠ 0) (r : Run1 n)
    {l : Fin n} (hl : l ∈ b.allDofs) (h0 : r.x l = r.t ^ 2) : (T.step b .direct solve dt r).x l ≠ (r.t + dt) ^ 2 := by
  intro h1
  have h2 := sdirk34_value h hg hk hdt r hl
  have hp := gamma34_pos
  have hq := gamma34_lt
  have hd := delta34_bounds
  rw [h1, h0] at h2
  generalize gamma34 = c at *
  generalize delta34 = d at *
  have h4 : dt ^ 2 * ((c - (c ^ 2 - c / 2 + 1 / 4)) * (c + d * (2 * c - 1)) * c) = 0 := by
    linear_combination h2
  have h5 : 0 < c - (c ^ 2 - c / 2 + 1 / 4) := by nlinarith
  have h6 : 0 < c + d * (2 * c - 1) := by nlinarith
  have h7 : 0 < dt ^ 2 := by positivity
  have h8 : 0 < dt ^ 2 * ((c - (c ^ 2 - c / 2 + 1 / 4)) * (c + d * (2 * c - 1)) * c) := by
    have : 0 < c := by linarith
    positivity
  linarith

/-- What a step of SDIRK34 with constant boundary values multiplies the error of a constrained value with. -/
def factor34 : ℝ := 1 - (4 * gamma34 - 1) * (gamma34 + delta34 * (2 * gamma34 - 1)) / (2 * gamma34 ^ 3)

/-- **C91, SDIRK34.**  With direct control and constant boundary values, the error of a wrong initial value is multiplied by the same factor in every step; the factor lies strictly
between -1 and 1: the error is forgotten, but not at once. -/
theorem C91_sdirk34_memory {q : Fin n → ℝ} (h : tableau1 .SDIRK34 = some T) (hg : Prescribes b fun _ l => q l) (hk : Keeps b solve) (dts : List ℝ)
    (hdt : ∀ dt ∈ dts, dt ≠ 0) (r : Run1 n) {l : Fin n} (hl : l ∈ b.allDofs) :
    (T.run b .direct solve dts r).x l - q l = factor34 ^ dts.length * (r.x l - q l) ∧ -1 < factor34 ∧ factor34 < 0 := by
  have hp := gamma34_pos
  have hq := gamma34_lt
  have hd := delta34_bounds
  have hc : 0 < gamma34 := by linarith
  refine ⟨?_, ?_, ?_⟩
  · induction dts generalizing r with
    | nil => simp [Tableau.run]
    | cons dt dts ih =>
      have h1 := ih (fun d hd => hdt d (List.mem_cons_of_mem _ hd)) (T.step b .direct solve dt r)
      have h2 := sdirk34_value h hg hk (hdt dt List.mem_cons_self) r hl
      have h4 : (T.step b .direct solve dt r).x l - q l = factor34 * (r.x l - q l) := by
        generalize (T.step b .direct solve dt r).x l = y at h2 ⊢
        unfold factor34
        field_simp
        linear_combination 2 * h2
      rw [h4] at h1
      refine h1.trans ?_
      rw [List.length_cons, pow_succ]
      ring
  · unfold factor34
    have : (4 * gamma34 - 1) * (gamma34 + delta34 * (2 * gamma34 - 1)) / (2 * gamma34 ^ 3) < 2 := by
      rw [div_lt_iff₀ (by positivity)]
      have h1 : (4 * gamma34 - 1) * (gamma34 + delta34 * (2 * gamma34 - 1)) ≤ (4 * gamma34 - 1) * (gamma34 + 1 / 6 * (2 * gamma34 - 1)) := by
        apply mul_le_mul_of_nonneg_left _ (by linarith)
        have := mul_le_mul_of_nonneg_right hd.2.le (show 0 ≤ 2 * gamma34 - 1 by linarith)
        linarith
      nlinarith [mul_pos (sub_pos.2 hp) hc, mul_pos (sub_pos.2 hp) (mul_pos hc hc)]
    linarith
  · unfold factor34
    have : 1 < (4 * gamma34 - 1) * (gamma34 + delta34 * (2 * gamma34 - 1)) / (2 * gamma34 ^ 3) := by
      rw [lt_div_iff₀ (by positivity)]
      have h0 : 0 ≤ delta34 * (2 * gamma34 - 1) := mul_nonneg hd.1.le (by linarith)
      have h1 : (4 * gamma34 - 1) * gamma34 ≤ (4 * gamma34 - 1) * (gamma34 + delta34 * (2 * gamma34 - 1)) :=
        mul_le_mul_of_nonneg_left (by linarith) (by linarith)
      have h2 : 2 * gamma34 ^ 2 < 4 * gamma34 - 1 := by nlinarith
      nlinarith
    linarith

end Wrong

/-! ### Weights -/

/-- The weights integrate polynomials in time of degree below `p` exactly over a step. -/
def Order (T : Tableau) (p : ℕ) : Prop := ∀ k < p, ∑ i ∈ range T.s, T.b i * T.c i ^ k = 1 / (k + 1)

theorem C91_order {k : Method} {T : Tableau} (h : tableau1 k = some T) :
    Order T 1 ∧ (k = .RK2 ∨ k = .ImplicitMidpoint → Order T 2) ∧ (k = .SDIRK23 → Order T 3) ∧ (k = .RK3SSP ∨ k = .RK4 ∨ k = .SDIRK34 → Order T 4) := by
  refine ⟨fun l hl => ?_, fun hk l hl => ?_, fun hk l hl => ?_, fun hk l hl => ?_⟩
  · interval_cases l
    simpa using (C91_consistent h).weights
  · rcases hk with rfl | rfl <;> cases h <;> interval_cases l <;> simp [Tableau.ofRows, entry, sum_range_succ] <;> norm_num
  · subst hk
    cases h
    have := gamma23_eq
    interval_cases l <;> simp [Tableau.ofRows, entry, sum_range_succ]
    · norm_num
    · ring
    · linear_combination this
  · rcases hk with rfl | rfl | rfl <;> cases h
    · interval_cases l <;> simp [Tableau.ofRows, entry, sum_range_succ] <;> norm_num
    · interval_cases l <;> simp [Tableau.ofRows, entry, sum_range_succ] <;> norm_num
    · have := delta34_sq
      interval_cases l <;> simp [Tableau.ofRows, entry, sum_range_succ]
      · ring
      · ring
      · linear_combination this / 2
      · linear_combination 3 / 4 * this

/-- Exactness for polynomials. -/
theorem quadrature {T : Tableau} {p : ℕ} (hT : Order T p) (f : Polynomial ℝ) (hf : f.natDegree < p) (t dt : ℝ) :
    dt * ∑ i ∈ range T.s, T.b i * f.eval (t + T.c i * dt) = ∫ τ in t..(t + dt), f.eval τ := by
  have hF : (f.comp (Polynomial.C dt * Polynomial.X + Polynomial.C t)).natDegree < p := by
    refine lt_of_le_of_lt ?_ hf
    refine Polynomial.natDegree_comp_le.trans ?_
    calc f.natDegree * _ ≤ f.natDegree * 1 := Nat.mul_le_mul_left _ Polynomial.natDegree_linear_le
      _ = _ := mul_one _
  have he : ∀ c, f.eval (t + c * dt) = (f.comp (Polynomial.C dt * Polynomial.X + Polynomial.C t)).eval c := fun c => by
    simp only [Polynomial.eval_comp, Polynomial.eval_add, Polynomial.eval_mul, Polynomial.eval_C, Polynomial.eval_X]
    congr 1
    ring
  have h1 : ∫ τ in t..(t + dt), f.eval τ = dt * ∫ c in (0 : ℝ)..1, f.eval (t + c * dt) := by
    have := intervalIntegral.smul_integral_comp_add_mul (fun x => f.eval x) dt t (a := 0) (b := 1)
    simp only [mul_zero, add_zero, mul_one, smul_eq_mul] at this
    rw [← this]
    simp only [mul_comm]
  rw [h1]
  congr 1
  simp only [he]
  generalize f.comp (Polynomial.C dt * Polynomial.X + Polynomial.C t) = F at hF
  simp only [Polynomial.eval_eq_sum_range' hF]
  rw [intervalIntegral.integral_finsetSum fun i _ => (by fun_prop : Continuous fun c : ℝ => F.coeff i * c ^ i).intervalIntegrable _ _]
  simp only [mul_sum]
  rw [sum_comm]
  refine sum_congr rfl fun k hk => ?_
  have e : ((1 : ℝ) ^ (k + 1) - 0 ^ (k + 1)) / (k + 1) = ∑ i ∈ range T.s, T.b i * T.c i ^ k := by rw [hT k (mem_range.1 hk)]; simp
  rw [intervalIntegral.integral_const_mul, integral_pow, e, mul_sum]
  refine sum_congr rfl fun i _ => by ring

/-- Algebraic stability (Burrage and Butcher). -/
structure Stable (T : Tableau) : Prop where
  nonneg : ∀ i < T.s, 0 ≤ T.b i
  form : ∀ ξ : ℕ → ℝ, (∑ i ∈ range T.s, T.b i * ξ i) ^ 2 ≤ 2 * ∑ i ∈ range T.s, T.b i * ξ i * ∑ j ∈ range (i + 1), T.a i j * ξ j

/-- **C91, stability.**  Backward Euler, implicit midpoint, SDIRK23 and SDIRK34 are algebraically stable. -/
theorem C91_stable {k : Method} (hk : k = .BackwardEuler ∨ k = .ImplicitMidpoint ∨ k = .SDIRK23 ∨ k = .SDIRK34) {T : Tableau} (h : tableau1 k = some T) : Stable T := by
  have h1 := gamma23_pos
  have h2 := gamma34_pos
  have h3 := delta34_bounds
  have h4 := delta34_eq
  constructor
  · rcases hk with rfl | rfl | rfl | rfl <;> cases h
    all_goals
      simp only [Tableau.ofRows, List.length_cons, List.length_nil]
      intro i hi
      interval_cases i <;> simp [entry] <;> linarith
  · intro ξ
    rcases hk with rfl | rfl | rfl | rfl <;> cases h <;>
      simp only [Tableau.ofRows, entry, List.length_cons, List.length_nil, sum_range_succ, sum_range_zero, zero_add, List.getD_cons_zero, List.getD_cons_succ]
    · nlinarith [sq_nonneg (ξ 0)]
    · nlinarith [sq_nonneg (ξ 0)]
    · nlinarith [mul_nonneg (by linarith : 0 ≤ gamma23 - 1 / 4) (sq_nonneg (ξ 0 - ξ 1))]
    · have := mul_nonneg (mul_nonneg h3.1.le (by linarith : 0 ≤ 2 * gamma34 - delta34)) (sq_nonneg (ξ 0 - 2 * ξ 1 + ξ 2))
      linear_combination this - (ξ 1 ^ 2 - ξ 0 * ξ 1) * h4

/-- SDIRK33 is not: one of its weights is negative. -/
theorem sdirk33_not {T : Tableau} (h : tableau1 .SDIRK33 = some T) : ¬Stable T := by
  intro hs
  have := hs.nonneg 1 (by cases h; simp [Tableau.ofRows])
  cases h
  simp [Tableau.ofRows, entry, a33, b33] at this
  norm_num at this

/-! ### Heat transfer -/

section Heat
open Serac.Transform Serac.Heat
open Serac.C71 (M Shapes)

variable {d : Dim} {X : Exchange d} {s sF : Shapes} {T : Tableau}

/-- Assumption on the nonlinear solver: as in C75, and also for the stages of explicit methods, which have length zero. -/
structure Solves (X : Exchange d) (b : BCs X.S.nn) (solve : State1 X.S.nn → Ode.Vec X.S.nn → Ode.Vec X.S.nn) : Prop where
  zero : ∀ st guess, 0 ≤ st.dt → ∀ n, X.rateResidual b.allDofs st (solve st guess) n = 0
  keeps : Keeps b solve

/-- A stage makes the residual at its own time vanish at the free nodes; `Y` is the field the residual sees. -/
theorem stage_residual {b : BCs X.S.nn} {solve : State1 X.S.nn → Ode.Vec X.S.nn → Ode.Vec X.S.nn} (h : Solves X b solve) (m : Enforce) {dt : ℝ} (r : Run1 X.S.nn) {i : ℕ}
    (hi : i < T.s) (ha : 0 ≤ T.a i i * dt) : ∃ Y : X.S.Nodal, (∀ n ∉ b.allDofs, Y n = at' T dt r.x (rates T b m solve dt r) i n) ∧
      (m = .direct ∨ m = .rate → T.a i i * dt ≠ 0 → Y = at' T dt r.x (rates T b m solve dt r) i) ∧
      ∀ n ∉ b.allDofs, X.residual (r.t + T.c i * dt) Y (rates T b m solve dt r i) n = 0 := by
  have hsp := solve1_spec (m := m) h.keeps (T.stages b m solve dt r i).1 (r.t + T.c i * dt) (T.a i i * dt) (T.predictor dt r.x (rates T b m solve dt r) i)
  obtain ⟨st', gs, h1, h2, h3, h4⟩ : ∃ st' gs, (solve1 b m solve (T.stages b m solve dt r i).1 (r.t + T.c i * dt) (T.a i i * dt)
      (T.predictor dt r.x (rates T b m solve dt r) i)).2 = solve st' gs ∧ st'.u = (solve1 b m solve (T.stages b m solve dt r i).1 (r.t + T.c i * dt) (T.a i i * dt)
      (T.predictor dt r.x (rates T b m solve dt r) i)).1.u ∧ st'.time = r.t + T.c i * dt ∧ st'.dt = T.a i i * dt := ⟨_, _, rfl, rfl, rfl, rfl⟩
  rw [← stage_eq dt r hi] at h1
  rw [← h2] at hsp
  refine ⟨fun n => 1 * st'.u n + st'.dt * solve st' gs n, fun n hn => ?_, fun hm h0 => ?_, fun n hn => ?_⟩
  · beta_reduce
    rw [hsp.2 n hn, h4, ← h1, at_eq, one_mul]
  · funext n
    rw [at_eq, h4, ← h1, one_mul]
    congr 1
    by_cases hn : n ∈ b.allDofs
    · rw [(hsp.1 n hn).1]
      unfold constraint1
      simp only [ne_eq, h0, not_false_eq_true, if_true]
      rcases hm with rfl | rfl <;> rfl
    · exact hsp.2 n hn
  · have hz := h.zero st' gs (by rw [h4]; exact ha) n
    unfold Exchange.rateResidual at hz
    rw [if_neg hn, h3] at hz
    rw [h1]
    exact hz

theorem value_sum (x : X.S.Nodal) (dt : ℝ) (w : ℕ → ℝ) (k : ℕ → X.S.Nodal) (l e Q : ℕ) :
    C72.value X.S s (fun n => x n + dt * ∑ i ∈ range l, w i * k i n) e Q = C72.value X.S s x e Q + dt * ∑ i ∈ range l, w i * C72.value X.S s (k i) e Q := by
  induction l with
  | zero => simp
  | succ l ih =>
    rw [sum_range_succ, mul_add, ← add_assoc, ← ih]
    have : (fun n => x n + dt * ∑ i ∈ range (l + 1), w i * k i n) = fun n => 1 * (fun n => x n + dt * ∑ i ∈ range l, w i * k i n) n + dt * w l * k l n := by
      funext n
      rw [sum_range_succ]
      ring
    rw [this, C72.value_lin]
    ring

theorem integral_sum (l : List ℕ) (m : ℕ) (w : ℕ → ℝ) (f : ℕ → ℕ × ℕ → ℕ → ℝ) :
    C72.integral X.S s l (fun ee Q => ∑ i ∈ range m, w i * f i ee Q) = ∑ i ∈ range m, w i * C72.integral X.S s l (f i) := by
  induction m with
  | zero => simpa using C72.integral_zero (S := X.S) (s := s) l
  | succ m ih =>
    simp only [sum_range_succ]
    rw [← ih]
    have := C72.integral_lin (S := X.S) (s := s) l 1 (w m) (fun ee Q => ∑ i ∈ range m, w i * f i ee Q) (f m)
    simpa only [one_mul] using this

theorem content_after (x : X.S.Nodal) (dt : ℝ) (k : ℕ → X.S.Nodal) : C72.content X.S s (after T dt x k) = C72.content X.S s x +
    dt * ∑ i ∈ range T.s, T.b i * C72.integral X.S s X.S.elements fun ee Q => C72.capacity X.S ee Q * C72.value X.S s (k i) ee.1 Q := by
  rw [← integral_sum]
  unfold C72.content
  have := C72.integral_lin (S := X.S) (s := s) X.S.elements 1 dt (fun ee Q => C72.capacity X.S ee Q * C72.value X.S s x ee.1 Q)
    fun ee Q => ∑ i ∈ range T.s, T.b i * (C72.capacity X.S ee Q * C72.value X.S s (k i) ee.1 Q)
  rw [one_mul] at this
  rw [← this]
  refine C72.integral_congr fun ee _ Q _ => ?_
  unfold after
  rw [value_sum, mul_add, one_mul]
  congr 1
  rw [mul_left_comm, mul_sum (a := C72.capacity X.S ee Q)]
  congr 1
  exact sum_congr rfl fun i _ => by ring

/-- **C91, heat of a step.**  For every method and every control, the heat content changes by the weighted sum, over the stages, of what the sources supply minus what leaves
through the boundary plus what the fixed nodes exchange, at the times of the stages and at fields `Y` which are those of the method at all free nodes. -/
theorem C91_heat (hm : C72.Meaning X.S s) (hg : C72.AllGood X.S s) (hu : C72.Unity X.S s) (hF : C75.Meaning X.F sF d) (hl : C75.AllGoodHeat X sF) (ht : C72.Total X.S)
    {b : BCs X.S.nn} {solve : State1 X.S.nn → Ode.Vec X.S.nn → Ode.Vec X.S.nn} (h : Solves X b solve) (m : Enforce) {dt : ℝ}
    (ha : ∀ i < T.s, 0 ≤ T.a i i * dt) (r : Run1 X.S.nn) :
    ∃ k Y : ℕ → X.S.Nodal, (T.step b m solve dt r).x = after T dt r.x k ∧ (∀ i < T.s, ∀ n ∉ b.allDofs, Y i n = at' T dt r.x k i n) ∧
      C72.content X.S s (T.step b m solve dt r).x = C72.content X.S s r.x + dt * ∑ i ∈ range T.s, T.b i *
        ((C72.supplied X.S s (r.t + T.c i * dt) (Y i) fun _ => 1) - (C75.outflow X sF (r.t + T.c i * dt) (Y i) fun _ => 1) +
          ∑ n with n ∈ b.allDofs, X.residual (r.t + T.c i * dt) (Y i) (k i) n) := by
  have hst : ∀ i, ∃ Y : X.S.Nodal, i < T.s → (∀ n ∉ b.allDofs, Y n = at' T dt r.x (rates T b m solve dt r) i n) ∧
      ∀ n ∉ b.allDofs, X.residual (r.t + T.c i * dt) Y (rates T b m solve dt r i) n = 0 := by
    intro i
    by_cases hi : i < T.s
    · obtain ⟨Y, h1, -, h2⟩ := stage_residual h m r hi (ha i hi)
      exact ⟨Y, fun _ => ⟨h1, h2⟩⟩
    · exact ⟨0, fun h => absurd h hi⟩
  choose Y hY using hst
  refine ⟨rates T b m solve dt r, Y, step_x dt r, fun i hi => (hY i hi).1, ?_⟩
  refine (congrArg (C72.content X.S s) (step_x dt r)).trans ((content_after _ _ _).trans ?_)
  congr 2
  refine sum_congr rfl fun i hi => ?_
  congr 1
  obtain ⟨q, hq⟩ := C72.total_flux (s := s) ht (Y i)
  have hb := C75.C75_heat_balance hm hg hu hF hl (r.t + T.c i * dt) (Y i) (rates T b m solve dt r i) q hq
  have hs : ∑ n, X.residual (r.t + T.c i * dt) (Y i) (rates T b m solve dt r i) n =
      ∑ n with n ∈ b.allDofs, X.residual (r.t + T.c i * dt) (Y i) (rates T b m solve dt r i) n := by
    rw [sum_filter]
    refine sum_congr rfl fun n _ => ?_
    split_ifs with hn
    · rfl
    · exact (hY i (mem_range.1 hi)).2 n hn
  rw [← hs, hb]
  ring

/-- **C91, heat of a run.**  Without fixed nodes, with sources and fluxes that do not depend on the temperature and whose balance is a polynomial in time of degree below the
order of the method, the heat content after any run is that at the start plus the integral over time of what was supplied minus what left. -/
theorem C91_heat_run (hm : C72.Meaning X.S s) (hg : C72.AllGood X.S s) (hu : C72.Unity X.S s) (hF : C75.Meaning X.F sF d) (hl : C75.AllGoodHeat X sF) (ht : C72.Total X.S)
    {b : BCs X.S.nn} (hb : b.allDofs = []) {solve : State1 X.S.nn → Ode.Vec X.S.nn → Ode.Vec X.S.nn} (h : Solves X b solve) (m : Enforce)
    (ha : ∀ i < T.s, 0 ≤ T.a i i) {p : ℕ} (hT : Order T p) (f : Polynomial ℝ) (hf : f.natDegree < p)
    (hp : ∀ t u, C72.supplied X.S s t u (fun _ => 1) - C75.outflow X sF t u (fun _ => 1) = f.eval t)
    (dts : List ℝ) (hdt : ∀ dt ∈ dts, 0 ≤ dt) (r : Run1 X.S.nn) :
    C72.content X.S s (T.run b m solve dts r).x = C72.content X.S s r.x + ∫ τ in r.t..(r.t + dts.sum), f.eval τ := by
  induction dts generalizing r with
  | nil => simp [Tableau.run]
  | cons dt l ih =>
    have h1 := ih (fun x hx => hdt x (List.mem_cons_of_mem _ hx)) (T.step b m solve dt r)
    obtain ⟨k, Y, -, -, h2⟩ := C91_heat hm hg hu hF hl ht h m (dt := dt) (fun i hi => mul_nonneg (ha i hi) (hdt dt List.mem_cons_self)) r
    rw [hb] at h2
    simp only [List.not_mem_nil, filter_false, sum_empty, add_zero, hp] at h2
    rw [quadrature hT f hf] at h2
    rw [h2, step_t] at h1
    refine h1.trans ?_
    have := intervalIntegral.integral_add_adjacent_intervals (μ := MeasureTheory.volume) (f := fun τ => f.eval τ) (f.continuous.intervalIntegrable r.t (r.t + dt))
      (f.continuous.intervalIntegrable (r.t + dt) (r.t + dt + l.sum))
    rw [add_assoc, this, List.sum_cons, ← add_assoc r.t]

/-! ### Contraction -/

/-- The equations of a step with direct control. -/
structure Step (X : Exchange d) (T : Tableau) (b : BCs X.S.nn) (g : ℝ → Fin X.S.nn → ℝ) (t dt : ℝ) (x : X.S.Nodal) (k : ℕ → X.S.Nodal) : Prop where
  free : ∀ i < T.s, ∀ n ∉ b.allDofs, X.residual (t + T.c i * dt) (at' T dt x k i) (k i) n = 0
  fixed : ∀ i < T.s, ∀ n ∈ b.allDofs, at' T dt x k i n = g (t + T.c i * dt) n

/-- **C91, equations of a step.**  With implicit stages and direct control the rates of a step satisfy them. -/
theorem C91_step {b : BCs X.S.nn} {g : ℝ → Fin X.S.nn → ℝ} {solve : State1 X.S.nn → Ode.Vec X.S.nn → Ode.Vec X.S.nn} (h : Solves X b solve) (hg : Prescribes b g)
    (ha : ∀ i < T.s, 0 < T.a i i) {dt : ℝ} (hdt : 0 < dt) (r : Run1 X.S.nn) : Step X T b g r.t dt r.x (rates T b .direct solve dt r) := by
  refine ⟨fun i hi n hn => ?_, fun i hi n hn => C91_stages hg h.keeps r hi (mul_pos (ha i hi) hdt).ne' hn⟩
  obtain ⟨Y, -, h1, h2⟩ := stage_residual (m := .direct) (T := T) h r hi (mul_pos (ha i hi) hdt).le
  rw [← h1 (.inl rfl) (mul_pos (ha i hi) hdt).ne']
  exact h2 n hn

theorem outflow_difference {g h : Flux d → Tensor.Vec ℝ d.n → Tensor.Vec ℝ d.n → ℝ → ℝ} (hN : C75.Newton X g h) (t : ℝ) (u u' v : X.S.Nodal) :
    C75.outflow X sF t u v = C75.outflow X sF t u' v + C75.cooling X sF h t (fun n => u n - u' n) v := by
  have := C75.outflow_affine (sF := sF) hN t 1 u' (fun n => u n - u' n) v
  rw [one_mul] at this
  rw [← this]
  congr 1
  funext n
  ring

/-- The difference of two stages loses heat: tested with itself, the difference of the rates is not positive. -/
theorem stage_difference (hm : C72.Meaning X.S s) (hg : C72.AllGood X.S s) (hv : C72.Volumes X.S s X.S.elements) (hF : C75.Meaning X.F sF d) (hl : C75.AllGoodHeat X sF)
    (hw : ∀ Q < X.F.E.npts, 0 ≤ sF.wt Q) {A : ℕ → M d.n} (hA : C72.Linear X.S A) (hd : ∀ p, C49.Dissipates (X.S.material p))
    (hsrc : ∀ src ∈ X.S.sources, ∀ t p T T' g g', src.value t p T g = src.value t p T' g') {g h : Flux d → Tensor.Vec ℝ d.n → Tensor.Vec ℝ d.n → ℝ → ℝ} (hN : C75.Newton X g h)
    {dofs : List (Fin X.S.nn)} (t : ℝ) (Y Y' k k' : X.S.Nodal) (h1 : ∀ n ∉ dofs, X.residual t Y k n = 0) (h2 : ∀ n ∉ dofs, X.residual t Y' k' n = 0)
    (h3 : ∀ n ∈ dofs, Y n = Y' n) : C72.integral X.S s X.S.elements (fun ee Q => C72.capacity X.S ee Q *
      C72.value X.S s (fun n => k n - k' n) ee.1 Q * C72.value X.S s (fun n => Y n - Y' n) ee.1 Q) ≤ 0 := by
  have e1 := C75.C75_heat_weak_form hm hg hF hl t Y k (fun n => Y n - Y' n) _ (C72.linear_flux hA Y)
  have e2 := C75.C75_heat_weak_form hm hg hF hl t Y' k' (fun n => Y n - Y' n) _ (C72.linear_flux hA Y')
  have z : ∀ (Z c : X.S.Nodal), (∀ n ∉ dofs, X.residual t Z c n = 0) → ∑ n, X.residual t Z c n * (Y n - Y' n) = 0 := by
    intro Z c hz
    refine sum_eq_zero fun n _ => ?_
    by_cases hn : n ∈ dofs
    · rw [h3 n hn, sub_self, mul_zero]
    · rw [hz n hn, zero_mul]
  rw [z Y k h1] at e1
  rw [z Y' k' h2, outflow_difference hN t Y Y'] at *
  have hsup : C72.supplied X.S s t Y (fun n => Y n - Y' n) = C72.supplied X.S s t Y' fun n => Y n - Y' n := by
    unfold C72.supplied
    refine C75.sum_map_congr' _ fun src hsc => C72.integral_congr fun ee _ Q _ => ?_
    rw [hsrc src hsc]
  rw [hsup] at e1
  have hdis := C72.dissipation_nonneg hv hd (C72.linear_flux (s := s) hA fun n => Y n - Y' n)
  have hcool := C75.cooling_nonneg (sF := sF) hw hN t fun n => Y n - Y' n
  have e := C72.integral_lin (S := X.S) (s := s) X.S.elements 1 (-1)
    (fun ee Q => C72.capacity X.S ee Q * C72.value X.S s k ee.1 Q * C72.value X.S s (fun n => Y n - Y' n) ee.1 Q -
      ∑ j, C72.linearFlux X.S s A Y ee Q j * C72.grad X.S s (fun n => Y n - Y' n) ee.1 Q j)
    (fun ee Q => C72.capacity X.S ee Q * C72.value X.S s k' ee.1 Q * C72.value X.S s (fun n => Y n - Y' n) ee.1 Q -
      ∑ j, C72.linearFlux X.S s A Y' ee Q j * C72.grad X.S s (fun n => Y n - Y' n) ee.1 Q j)
  have e' := C72.integral_lin (S := X.S) (s := s) X.S.elements 1 1 (fun ee Q => C72.capacity X.S ee Q *
      C72.value X.S s (fun n => k n - k' n) ee.1 Q * C72.value X.S s (fun n => Y n - Y' n) ee.1 Q)
    fun ee Q => -∑ j, C72.linearFlux X.S s A (fun n => Y n - Y' n) ee Q j * C72.grad X.S s (fun n => Y n - Y' n) ee.1 Q j
  have hval : ∀ (v w : X.S.Nodal) e Q, C72.value X.S s (fun n => v n - w n) e Q = C72.value X.S s v e Q - C72.value X.S s w e Q := by
    intro v w e Q
    have := C72.value_lin (S := X.S) (s := s) 1 (-1) v w e Q
    rw [show (fun n => v n - w n) = fun n => 1 * v n + -1 * w n by funext n; ring, this]
    ring
  have hflux : ∀ (v w : X.S.Nodal) ee Q j, C72.linearFlux X.S s A (fun n => v n - w n) ee Q j = C72.linearFlux X.S s A v ee Q j - C72.linearFlux X.S s A w ee Q j := by
    intro v w ee Q j
    have := C75.linearFlux_lin (X := X) (s := s) (A := A) 1 (-1) v w ee Q j
    rw [show (fun n => v n - w n) = fun n => 1 * v n + -1 * w n by funext n; ring, this]
    ring
  have e3 : ∀ ee Q, 1 * (C72.capacity X.S ee Q * C72.value X.S s k ee.1 Q * C72.value X.S s (fun n => Y n - Y' n) ee.1 Q -
      ∑ j, C72.linearFlux X.S s A Y ee Q j * C72.grad X.S s (fun n => Y n - Y' n) ee.1 Q j) +
      -1 * (C72.capacity X.S ee Q * C72.value X.S s k' ee.1 Q * C72.value X.S s (fun n => Y n - Y' n) ee.1 Q -
      ∑ j, C72.linearFlux X.S s A Y' ee Q j * C72.grad X.S s (fun n => Y n - Y' n) ee.1 Q j) =
      1 * (C72.capacity X.S ee Q * C72.value X.S s (fun n => k n - k' n) ee.1 Q * C72.value X.S s (fun n => Y n - Y' n) ee.1 Q) +
      1 * (-∑ j, C72.linearFlux X.S s A (fun n => Y n - Y' n) ee Q j * C72.grad X.S s (fun n => Y n - Y' n) ee.1 Q j) := by
    intro ee Q
    simp only [hflux, sub_mul, sum_sub_distrib]
    rw [hval k k']
    ring
  rw [C72.integral_congr fun ee _ Q _ => e3 ee Q, e'] at e
  change 1 * _ + 1 * C72.dissipation X.S s (fun n => Y n - Y' n) _ = _ at e
  linarith

theorem form_nonneg (hT : Stable T) {c : ℝ} (hc : 0 ≤ c) (v dt : ℝ) (ξ : ℕ → ℝ) :
    0 ≤ 1 * (1 * (c * v ^ 2) + 2 * dt * ∑ i ∈ range T.s, T.b i * (c * ξ i * (v + dt * ∑ j ∈ range (i + 1), T.a i j * ξ j))) +
      -1 * (c * (v + dt * ∑ i ∈ range T.s, T.b i * ξ i) ^ 2) := by
  have hf := mul_nonneg (mul_nonneg hc (sq_nonneg dt)) (sub_nonneg.2 (hT.form ξ))
  have e : ∑ i ∈ range T.s, T.b i * (c * ξ i * (v + dt * ∑ j ∈ range (i + 1), T.a i j * ξ j)) =
      c * v * ∑ i ∈ range T.s, T.b i * ξ i + c * dt * ∑ i ∈ range T.s, T.b i * ξ i * ∑ j ∈ range (i + 1), T.a i j * ξ j := by
    rw [mul_sum, mul_sum, ← sum_add_distrib]
    exact sum_congr rfl fun i _ => by ring
  rw [e]
  generalize ∑ i ∈ range T.s, T.b i * ξ i = B at hf ⊢
  generalize ∑ i ∈ range T.s, T.b i * ξ i * ∑ j ∈ range (i + 1), T.a i j * ξ j = C at hf ⊢
  linear_combination hf

/-- **C91, contraction.**  With linear conduction, sources independent of the temperature and cooling in proportion to it, the difference of two temperature fields,
measured with the heat capacity, does not grow in a step of an algebraically stable method with direct control. -/
theorem C91_contraction (hm : C72.Meaning X.S s) (hg : C72.AllGood X.S s) (hv : C72.Volumes X.S s X.S.elements) (hF : C75.Meaning X.F sF d) (hl : C75.AllGoodHeat X sF)
    (hw : ∀ Q < X.F.E.npts, 0 ≤ sF.wt Q) {A : ℕ → M d.n} (hA : C72.Linear X.S A) (hd : ∀ p, C49.Dissipates (X.S.material p)) (hc : ∀ p, 0 ≤ (X.S.material p).capacity)
    (hsrc : ∀ src ∈ X.S.sources, ∀ t p T T' g g', src.value t p T g = src.value t p T' g') {g h : Flux d → Tensor.Vec ℝ d.n → Tensor.Vec ℝ d.n → ℝ → ℝ} (hN : C75.Newton X g h)
    (hT : Stable T) {b : BCs X.S.nn} {G : ℝ → Fin X.S.nn → ℝ} {t dt : ℝ} (hdt : 0 ≤ dt) {x x' : X.S.Nodal} {k k' : ℕ → X.S.Nodal}
    (h1 : Step X T b G t dt x k) (h2 : Step X T b G t dt x' k') :
    C72.square X.S s (fun n => after T dt x k n - after T dt x' k' n) ≤ C72.square X.S s fun n => x n - x' n := by
  have key : ∀ i < T.s, C72.integral X.S s X.S.elements (fun ee Q => C72.capacity X.S ee Q * C72.value X.S s (fun n => k i n - k' i n) ee.1 Q *
      C72.value X.S s (fun n => at' T dt x k i n - at' T dt x' k' i n) ee.1 Q) ≤ 0 := fun i hi =>
    stage_difference hm hg hv hF hl hw hA hd hsrc hN (t + T.c i * dt) _ _ _ _ (h1.free i hi) (h2.free i hi) fun n hn => (h1.fixed i hi n hn).trans (h2.fixed i hi n hn).symm
  have hat : ∀ i, (fun n => at' T dt x k i n - at' T dt x' k' i n) = fun n => (x n - x' n) + dt * ∑ j ∈ range (i + 1), T.a i j * (k j n - k' j n) := by
    intro i
    funext n
    simp only [at', mul_sub, sum_sub_distrib]
    ring
  have haf : (fun n => after T dt x k n - after T dt x' k' n) = fun n => (x n - x' n) + dt * ∑ i ∈ range T.s, T.b i * (k i n - k' i n) := by
    funext n
    simp only [after, mul_sub, sum_sub_distrib]
    ring
  have hneg : ∑ i ∈ range T.s, T.b i * C72.integral X.S s X.S.elements (fun ee Q => C72.capacity X.S ee Q * C72.value X.S s (fun n => k i n - k' i n) ee.1 Q *
      C72.value X.S s (fun n => at' T dt x k i n - at' T dt x' k' i n) ee.1 Q) ≤ 0 :=
    sum_nonpos fun i hi => mul_nonpos_of_nonneg_of_nonpos (hT.nonneg i (mem_range.1 hi)) (key i (mem_range.1 hi))
  rw [← integral_sum] at hneg
  have hpos : 0 ≤ C72.square X.S s (fun n => x n - x' n) + (2 * dt) * C72.integral X.S s X.S.elements (fun ee Q => ∑ i ∈ range T.s, T.b i * (C72.capacity X.S ee Q *
      C72.value X.S s (fun n => k i n - k' i n) ee.1 Q * C72.value X.S s (fun n => at' T dt x k i n - at' T dt x' k' i n) ee.1 Q)) -
      C72.square X.S s (fun n => after T dt x k n - after T dt x' k' n) := by
    unfold C72.square
    have e1 := C72.integral_lin (S := X.S) (s := s) X.S.elements 1 (2 * dt) (fun ee Q => C72.capacity X.S ee Q * C72.value X.S s (fun n => x n - x' n) ee.1 Q ^ 2)
      fun ee Q => ∑ i ∈ range T.s, T.b i * (C72.capacity X.S ee Q *
      C72.value X.S s (fun n => k i n - k' i n) ee.1 Q * C72.value X.S s (fun n => at' T dt x k i n - at' T dt x' k' i n) ee.1 Q)
    rw [one_mul] at e1
    rw [← e1]
    have e2 := C72.integral_lin (S := X.S) (s := s) X.S.elements 1 (-1) (fun ee Q => 1 * (C72.capacity X.S ee Q * C72.value X.S s (fun n => x n - x' n) ee.1 Q ^ 2) +
      2 * dt * ∑ i ∈ range T.s, T.b i * (C72.capacity X.S ee Q *
      C72.value X.S s (fun n => k i n - k' i n) ee.1 Q * C72.value X.S s (fun n => at' T dt x k i n - at' T dt x' k' i n) ee.1 Q))
      fun ee Q => C72.capacity X.S ee Q * C72.value X.S s (fun n => after T dt x k n - after T dt x' k' n) ee.1 Q ^ 2
    have e3 : ∀ a b : ℝ, a - b = 1 * a + -1 * b := fun a b => by ring
    rw [e3, ← e2]
    refine C72.integral_nonneg hv fun ee _ Q _ => ?_
    rw [haf, value_sum (fun n => x n - x' n) dt T.b (fun i n => k i n - k' i n)]
    simp only [hat]
    rw [sum_congr rfl fun i _ => by rw [value_sum (fun n => x n - x' n) dt (T.a i) (fun i n => k i n - k' i n)]]
    exact form_nonneg hT (hc _) (C72.value X.S s (fun n => x n - x' n) ee.1 Q) dt fun i => C72.value X.S s (fun n => k i n - k' i n) ee.1 Q
  have := mul_nonneg_of_nonpos_of_nonpos (by linarith : -(2 * dt) ≤ 0) hneg
  linarith

/-- **C91, contraction of runs.**  Over any run, whatever the solvers and the states they carry, the difference of two temperature fields does not grow. -/
theorem C91_contraction_run (hm : C72.Meaning X.S s) (hg : C72.AllGood X.S s) (hv : C72.Volumes X.S s X.S.elements) (hF : C75.Meaning X.F sF d) (hl : C75.AllGoodHeat X sF)
    (hw : ∀ Q < X.F.E.npts, 0 ≤ sF.wt Q) {A : ℕ → M d.n} (hA : C72.Linear X.S A) (hd : ∀ p, C49.Dissipates (X.S.material p)) (hc : ∀ p, 0 ≤ (X.S.material p).capacity)
    (hsrc : ∀ src ∈ X.S.sources, ∀ t p T T' g g', src.value t p T g = src.value t p T' g') {g h : Flux d → Tensor.Vec ℝ d.n → Tensor.Vec ℝ d.n → ℝ → ℝ} (hN : C75.Newton X g h)
    (hT : Stable T) (ha : ∀ i < T.s, 0 < T.a i i) {b : BCs X.S.nn} {G : ℝ → Fin X.S.nn → ℝ} (hb : Prescribes b G)
    {solve solve' : State1 X.S.nn → Ode.Vec X.S.nn → Ode.Vec X.S.nn} (h1 : Solves X b solve) (h2 : Solves X b solve') (dts : List ℝ) (hdt : ∀ dt ∈ dts, 0 < dt)
    (r r' : Run1 X.S.nn) (ht : r.t = r'.t) :
    C72.square X.S s (fun n => (T.run b .direct solve dts r).x n - (T.run b .direct solve' dts r').x n) ≤ C72.square X.S s fun n => r.x n - r'.x n := by
  induction dts generalizing r r' with
  | nil => exact le_refl _
  | cons dt l ih =>
    have hp := hdt dt List.mem_cons_self
    refine (ih (fun x hx => hdt x (List.mem_cons_of_mem _ hx)) (T.step b .direct solve dt r) (T.step b .direct solve' dt r') (by rw [step_t, step_t, ht])).trans ?_
    have e2 := C91_step (T := T) h2 hb ha hp r'
    rw [← ht] at e2
    exact C91_contraction hm hg hv hF hl hw hA hd hc hsrc hN hT hp.le (C91_step (T := T) h1 hb ha hp r) e2

/-- **C91, uniqueness.**  If the heat capacity is definite, the rates of a step of any method with implicit stages are determined by the field before. -/
theorem C91_unique (hm : C72.Meaning X.S s) (hg : C72.AllGood X.S s) (hv : C72.Volumes X.S s X.S.elements) (hF : C75.Meaning X.F sF d) (hl : C75.AllGoodHeat X sF)
    (hw : ∀ Q < X.F.E.npts, 0 ≤ sF.wt Q) {A : ℕ → M d.n} (hA : C72.Linear X.S A) (hd : ∀ p, C49.Dissipates (X.S.material p)) (hc : ∀ p, 0 ≤ (X.S.material p).capacity)
    (hsrc : ∀ src ∈ X.S.sources, ∀ t p T T' g g', src.value t p T g = src.value t p T' g') {g h : Flux d → Tensor.Vec ℝ d.n → Tensor.Vec ℝ d.n → ℝ → ℝ} (hN : C75.Newton X g h)
    (hsq : ∀ x : X.S.Nodal, C72.square X.S s x = 0 → x = 0)
    (ha : ∀ i < T.s, 0 < T.a i i) {b : BCs X.S.nn} {G : ℝ → Fin X.S.nn → ℝ} {t dt : ℝ} (hdt : 0 < dt) {x : X.S.Nodal} {k k' : ℕ → X.S.Nodal}
    (h1 : Step X T b G t dt x k) (h2 : Step X T b G t dt x k') : ∀ i < T.s, k i = k' i := by
  intro i
  induction i using Nat.strong_induction_on with
  | _ i ih =>
    intro hi
    have hdiff := stage_difference hm hg hv hF hl hw hA hd hsrc hN (t + T.c i * dt) _ _ _ _ (h1.free i hi) (h2.free i hi) fun n hn =>
      (h1.fixed i hi n hn).trans (h2.fixed i hi n hn).symm
    have hat : (fun n => at' T dt x k i n - at' T dt x k' i n) = fun n => T.a i i * dt * (k i n - k' i n) + 0 * (0 : ℝ) := by
      funext n
      rw [at_eq, at_eq, predictor_congr dt x fun j hj => ih j hj (hj.trans hi)]
      ring
    rw [hat] at hdiff
    have hval : ∀ e Q, C72.value X.S s (fun n => T.a i i * dt * (k i n - k' i n) + 0 * (0 : ℝ)) e Q = T.a i i * dt * C72.value X.S s (fun n => k i n - k' i n) e Q := by
      intro e Q
      rw [C72.value_lin (T.a i i * dt) 0 (fun n => k i n - k' i n) fun _ => 0, zero_mul, add_zero]
    have e : C72.integral X.S s X.S.elements (fun ee Q => C72.capacity X.S ee Q * C72.value X.S s (fun n => k i n - k' i n) ee.1 Q *
        C72.value X.S s (fun n => T.a i i * dt * (k i n - k' i n) + 0 * (0 : ℝ)) ee.1 Q) = T.a i i * dt * C72.square X.S s fun n => k i n - k' i n := by
      unfold C72.square
      rw [← C72.integral_mul]
      refine C72.integral_congr fun ee _ Q _ => ?_
      rw [hval]
      ring
    rw [e] at hdiff
    have h0 : 0 ≤ C72.square X.S s fun n => k i n - k' i n := C72.integral_nonneg hv fun ee _ Q _ => mul_nonneg (hc _) (sq_nonneg _)
    have hz : C72.square X.S s (fun n => k i n - k' i n) = 0 := by
      have hpos := mul_pos (ha i hi) hdt
      by_contra hne
      have := mul_pos hpos (lt_of_le_of_ne h0 (Ne.symm hne))
      linarith
    have := hsq _ hz
    funext n
    have hn := congrFun this n
    exact sub_eq_zero.1 hn

theorem after_congr {n : ℕ} {T : Tableau} {dt : ℝ} {x : Ode.Vec n} {k k' : ℕ → Ode.Vec n} (h : ∀ i < T.s, k i = k' i) : after T dt x k = after T dt x k' := by
  funext m
  unfold after
  congr 2
  exact sum_congr rfl fun i hi => by rw [h i (mem_range.1 hi)]

/-- **C91, independence of the solver.**  The temperatures of a run depend neither on the solver nor on the state it carries. -/
theorem C91_determined (hm : C72.Meaning X.S s) (hg : C72.AllGood X.S s) (hv : C72.Volumes X.S s X.S.elements) (hF : C75.Meaning X.F sF d) (hl : C75.AllGoodHeat X sF)
    (hw : ∀ Q < X.F.E.npts, 0 ≤ sF.wt Q) {A : ℕ → M d.n} (hA : C72.Linear X.S A) (hd : ∀ p, C49.Dissipates (X.S.material p)) (hc : ∀ p, 0 ≤ (X.S.material p).capacity)
    (hsrc : ∀ src ∈ X.S.sources, ∀ t p T T' g g', src.value t p T g = src.value t p T' g') {g h : Flux d → Tensor.Vec ℝ d.n → Tensor.Vec ℝ d.n → ℝ → ℝ} (hN : C75.Newton X g h)
    (hsq : ∀ x : X.S.Nodal, C72.square X.S s x = 0 → x = 0)
    (ha : ∀ i < T.s, 0 < T.a i i) {b : BCs X.S.nn} {G : ℝ → Fin X.S.nn → ℝ} (hb : Prescribes b G)
    {solve solve' : State1 X.S.nn → Ode.Vec X.S.nn → Ode.Vec X.S.nn} (h1 : Solves X b solve) (h2 : Solves X b solve') (dts : List ℝ) (hdt : ∀ dt ∈ dts, 0 < dt)
    (r r' : Run1 X.S.nn) (ht : r.t = r'.t) (hx : r.x = r'.x) : (T.run b .direct solve dts r).x = (T.run b .direct solve' dts r').x := by
  induction dts generalizing r r' with
  | nil => exact hx
  | cons dt l ih =>
    have hp := hdt dt List.mem_cons_self
    refine ih (fun x hx => hdt x (List.mem_cons_of_mem _ hx)) (T.step b .direct solve dt r) (T.step b .direct solve' dt r') (by rw [step_t, step_t, ht]) ?_
    have e2 := C91_step (T := T) h2 hb ha hp r'
    rw [← ht, ← hx] at e2
    have := C91_unique hm hg hv hF hl hw hA hd hc hsrc hN hsq ha hp (C91_step (T := T) h1 hb ha hp r) e2
    refine (step_x dt r).trans (Eq.trans ?_ (step_x dt r').symm)
    rw [← hx]
    exact after_congr this

/-- **C91, equilibrium.**  A steady temperature field that has the prescribed values stays as it is over any run, with every method with implicit stages. -/
theorem C91_equilibrium (hm : C72.Meaning X.S s) (hg : C72.AllGood X.S s) (hv : C72.Volumes X.S s X.S.elements) (hF : C75.Meaning X.F sF d) (hl : C75.AllGoodHeat X sF)
    (hw : ∀ Q < X.F.E.npts, 0 ≤ sF.wt Q) {A : ℕ → M d.n} (hA : C72.Linear X.S A) (hd : ∀ p, C49.Dissipates (X.S.material p)) (hc : ∀ p, 0 ≤ (X.S.material p).capacity)
    (hsrc : ∀ src ∈ X.S.sources, ∀ t p T T' g g', src.value t p T g = src.value t p T' g') {g h : Flux d → Tensor.Vec ℝ d.n → Tensor.Vec ℝ d.n → ℝ → ℝ} (hN : C75.Newton X g h)
    (hsq : ∀ x : X.S.Nodal, C72.square X.S s x = 0 → x = 0)
    (ha : ∀ i < T.s, 0 < T.a i i) {b : BCs X.S.nn} {u : X.S.Nodal} (hb : Prescribes b fun _ => u) (hu : ∀ t, ∀ n ∉ b.allDofs, X.residual t u 0 n = 0)
    {solve : State1 X.S.nn → Ode.Vec X.S.nn → Ode.Vec X.S.nn} (h1 : Solves X b solve) (dts : List ℝ) (hdt : ∀ dt ∈ dts, 0 < dt)
    (r : Run1 X.S.nn) (hx : r.x = u) : (T.run b .direct solve dts r).x = u := by
  induction dts generalizing r with
  | nil => exact hx
  | cons dt l ih =>
    have hp := hdt dt List.mem_cons_self
    refine ih (fun x hx => hdt x (List.mem_cons_of_mem _ hx)) (T.step b .direct solve dt r) ?_
    have hz : ∀ i, at' T dt r.x (fun _ _ => (0 : ℝ)) i = u := fun i => by
      rw [← hx]
      funext n
      simp [at']
    have e2 : Step X T b (fun _ => u) r.t dt r.x fun _ _ => 0 := ⟨fun i _ n hn => by rw [hz]; exact hu _ n hn, fun i _ n _ => by rw [hz]⟩
    have := C91_unique hm hg hv hF hl hw hA hd hc hsrc hN hsq ha hp (C91_step (T := T) h1 hb ha hp r) e2
    refine (step_x dt r).trans ((after_congr this).trans ?_)
    rw [← hx]
    funext n
    simp [after]

end Heat

/-! ## Examples -/

section Examples

theorem ex_prescribes : Prescribes C21.exB fun t _ => t ^ 2 := by
  refine ⟨fun bc hbc i _ t => ?_, fun i => by simp [C21.exB]⟩
  simp only [C21.exB, List.mem_singleton] at hbc
  subst hbc
  rfl

/-- Two dofs, one prescribed as `t²`: right after any run of SDIRK33 with direct control, wrong after a step of implicit midpoint or SDIRK23. -/
example (T : Tableau) (h : tableau1 .SDIRK33 = some T) (r : Run1 2) : (T.run C21.exB .direct (fun _ v => v) [1, 3, 1 / 2] r).x 1 = (r.t + (1 + (3 + 0)) + 1 / 2) ^ 2 := by
  have := C91_direct (C91_accurate (.inr rfl) h) ex_prescribes (solve := fun _ v => v) (fun _ _ _ _ => rfl) [1, 3] (dt := 1 / 2) (by norm_num) r (l := 1) (by simp [C21.exB])
  simpa using this

example (T : Tableau) (h : tableau1 .ImplicitMidpoint = some T) (r : Run1 2) (h0 : r.x 1 = r.t ^ 2) : (T.step C21.exB .direct (fun _ v => v) 1 r).x 1 ≠ (r.t + 1) ^ 2 :=
  C91_midpoint_square h ex_prescribes (fun _ _ _ _ => rfl) one_ne_zero r (by simp [C21.exB]) h0

example (T : Tableau) (h : tableau1 .SDIRK23 = some T) (r : Run1 2) (h0 : r.x 1 = r.t ^ 2) : (T.step C21.exB .direct (fun _ v => v) 1 r).x 1 ≠ (r.t + 1) ^ 2 :=
  C91_sdirk23_wrong h ex_prescribes (fun _ _ _ _ => rfl) one_ne_zero r (by simp [C21.exB]) h0

/-- With rate control implicit midpoint keeps it right. -/
example (T : Tableau) (h : tableau1 .ImplicitMidpoint = some T) (dts : List ℝ) (r : Run1 2) (h0 : r.x 1 = r.t ^ 2) :
    (T.run C21.exB .rate (fun _ v => v) dts r).x 1 = (r.t + dts.sum) ^ 2 := by
  have h2 := (C91_order h).2.1 (.inr rfl)
  have := C91_quadratic_run (T := T) (b := C21.exB) (m := .rate) (solve := fun _ v => v) (C91_consistent h).weights (by simpa [one_add_one_eq_two] using h2 1 (by norm_num))
    (p := fun _ => 0) (q := fun _ => 0) (w := fun _ => 1) (by simpa using ex_prescribes) (fun _ _ _ _ => rfl) (.inl (by simp)) dts r (l := 1) (by simp [C21.exB]) (by simpa using h0)
  simpa using this

/-- The square of four triangles without boundary fluxes. -/
def exHeated : Heat.Exchange .two := ⟨C72.exHeat [C72.exSource], C75.exFaces, []⟩

theorem ex_solves {X : Heat.Exchange .two} (hX : X = exHeated ∨ X = C75.exExchange) (b : BCs X.S.nn) : ∃ solve, Solves X b solve := by
  obtain ⟨-, h2, h3, h4, -⟩ := C72.C72_conductors 2 1 3 2 _ C72.ex_material
  rcases hX with rfl | rfl
  · obtain ⟨solve, h5, h6⟩ := C75.heat_solvable_all (X := exHeated) (sF := C75.exSF) (C72.ex_meaning _) (C72.ex_good _ (by simp)) (C72.ex_volumes _) C75.ex_faces
      (fun l hl => absurd hl List.not_mem_nil) (fun _ _ => by simp [C75.exSF, C75.exRule]) (C72.ex_linear _) (fun _ => h3) (C72.ex_definite _)
      (fun _ => h4) (fun src hs => by rw [List.mem_singleton.1 (show src ∈ [_] from hs)]; intros; rfl) (g := fun _ _ _ _ => 0) (h := fun _ _ _ _ => 0)
      ⟨fun l hl => absurd hl List.not_mem_nil, fun _ _ _ _ _ => le_rfl⟩ b
    exact ⟨solve, h5, h6⟩
  · have hl : C75.AllGoodHeat C75.exExchange C75.exSF := by
      intro l hl
      rw [List.mem_singleton.1 (show l ∈ [C75.exCooling] from hl)]
      exact C75.ex_faces_good _ (by simp [C75.exCooling])
    obtain ⟨solve, h5, h6⟩ := C75.heat_solvable_all (X := C75.exExchange) (C72.ex_meaning []) (C72.ex_good [] (by simp)) (C72.ex_volumes _) C75.ex_faces hl
      (fun _ _ => by simp [C75.exSF, C75.exRule]) (C72.ex_linear _) (fun _ => h3) (C72.ex_definite _) (fun _ => h4) (by simp [C75.exExchange, C72.exHeat]) C75.ex_newton b
    exact ⟨solve, h5, h6⟩

/-- Heated with the power `t²/2`, methods of third order and more give the exact heat, explicit or not. -/
example (k : Method) (hk : k = .SDIRK23 ∨ k = .SDIRK34 ∨ k = .RK4 ∨ k = .RK3SSP) (T : Tableau) (h : tableau1 k = some T) : ∃ solve, ∀ dts : List ℝ, (∀ dt ∈ dts, 0 ≤ dt) →
    ∀ r : Run1 5, C72.content (C72.exHeat [C72.exSource]) C72.exShapes (T.run ⟨[], []⟩ .direct solve dts r).x =
      C72.content (C72.exHeat [C72.exSource]) C72.exShapes r.x + ((r.t + dts.sum) ^ 3 - r.t ^ 3) / 6 := by
  obtain ⟨-, h2, -, -, -⟩ := C72.C72_conductors 2 1 3 2 _ C72.ex_material
  obtain ⟨solve, hs⟩ := ex_solves (.inl rfl) (⟨[], []⟩ : BCs 5)
  have hd : ∀ i < T.s, 0 ≤ T.a i i := by
    rcases hk with rfl | rfl | rfl | rfl
    · exact fun i hi => (C91_implicit (by simp [Implicit]) h i hi).le
    · exact fun i hi => (C91_implicit (by simp [Implicit]) h i hi).le
    · exact fun i hi => (C91_explicit (by simp [Explicit]) h i hi).ge
    · exact fun i hi => (C91_explicit (by simp [Explicit]) h i hi).ge
  have ho : Order T 3 := by
    rcases hk with rfl | rfl | rfl | rfl
    · exact (C91_order h).2.2.1 rfl
    all_goals exact fun l hl => (C91_order h).2.2.2 (by simp) l (by omega)
  refine ⟨solve, fun dts hdt r => ?_⟩
  have := C91_heat_run (X := exHeated) (T := T) (sF := C75.exSF) (C72.ex_meaning _) (C72.ex_good _ (by simp)) (C72.ex_unity _) C75.ex_faces
    (fun l hl => absurd hl List.not_mem_nil) (fun _ => h2) rfl hs .direct hd ho (Polynomial.C (1 / 2) * Polynomial.X ^ 2)
    (by rw [Polynomial.natDegree_C_mul_X_pow _ _ (by norm_num)]; norm_num) (fun t u => ?_) dts hdt r
  · refine this.trans ?_
    simp only [Polynomial.eval_mul, Polynomial.eval_C, Polynomial.eval_pow, Polynomial.eval_X, intervalIntegral.integral_const_mul, integral_pow]
    change _ + _ = _ + _
    congr 1
    push_cast
    ring
  · have e := C72.ex_supplied t u
    change C72.supplied (C72.exHeat [C72.exSource]) C72.exShapes t u (fun _ => 1) - ([] : List ℝ).sum = _
    rw [e]
    simp
    ring

/-- Cooled on two sides and held at two corners: runs of SDIRK34 approach each other. -/
example (T : Tableau) (h : tableau1 .SDIRK34 = some T) : ∃ solve, ∀ dts : List ℝ, (∀ dt ∈ dts, 0 < dt) → ∀ r r' : Run1 5, r.t = r'.t →
    C72.square (C72.exHeat []) C72.exShapes (fun n => (T.run C72.exWalls .direct solve dts r).x n - (T.run C72.exWalls .direct solve dts r').x n) ≤
      C72.square (C72.exHeat []) C72.exShapes fun n => r.x n - r'.x n := by
  obtain ⟨-, h2, h3, h4, -⟩ := C72.C72_conductors 2 1 3 2 _ C72.ex_material
  obtain ⟨solve, hs⟩ := ex_solves (.inr rfl) C72.exWalls
  have hl : C75.AllGoodHeat C75.exExchange C75.exSF := by
    intro l hl
    rw [List.mem_singleton.1 (show l ∈ [C75.exCooling] from hl)]
    exact C75.ex_faces_good _ (by simp [C75.exCooling])
  refine ⟨solve, fun dts hdt r r' ht => C91_contraction_run (X := C75.exExchange) (C72.ex_meaning []) (C72.ex_good [] (by simp)) (C72.ex_volumes _) C75.ex_faces hl
      (fun _ _ => by simp [C75.exSF, C75.exRule]) (C72.ex_linear _) (fun _ => h3) (fun _ => h4) (by simp [C75.exExchange, C72.exHeat]) C75.ex_newton
      (C91_stable (by simp) h) (C91_implicit (by simp [Implicit]) h) (G := fun _ _ => 0) ⟨?_, ?_⟩ hs hs dts hdt r r' ht⟩
  · intro bc hbc i hi t
    rw [List.mem_singleton.1 (show bc ∈ [_] from hbc)]
  · change ∀ i : Fin 5, i ∈ C72.exWalls.allDofs ↔ ∃ bc ∈ C72.exWalls.essentials, i ∈ bc.dofs
    simp [C72.exWalls]

end Examples

end Serac.C91
