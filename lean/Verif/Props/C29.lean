import Verif.Model.Adjoint
import Verif.Props.C26
import Mathlib.Data.Matrix.Mul
import Mathlib.Analysis.Calculus.FDeriv.Prod
import Mathlib.Analysis.Calculus.Deriv.Comp
import Mathlib.Analysis.Calculus.Deriv.Prod
import Mathlib.Analysis.Calculus.Deriv.Pi
import Mathlib.Analysis.Calculus.Deriv.Add
import Mathlib.Analysis.Calculus.Deriv.Mul
/-!
# C29: the dynamic (Newmark) adjoint gives the exact gradient

Spec.  A `Motion` is a family of forward solutions depending on a real parameter `s`: displacements, velocities and accelerations at every
time step that satisfy the Newmark relations (β = 1/4, γ = 1/2) and, on the free dofs, a residual equation `r(u, a, s) = 0` (any nonlinear
residual).  The objective is any differentiable function of all states.  The claim: its derivative with respect to `s` is what the adjoint
pass returns - the initial-displacement sensitivity times the variation of the initial displacement, plus the same for the velocity, plus the
adjoint displacements times the explicit variation of the residuals (parameter sensitivities).

Violations found: the returned initial-condition sensitivities belong to the first step's *predictors*, so they are right only if the first
step has size zero (`C29_first_step`, `C29_first_step_wrong`); velocity loads are dropped from the recursion (`C29_velocity_load`,
`C29_velocity_load_wrong`); a load that is not given again keeps acting (`C29_stale_load_wrong`); `resetAdjointStates` does not reset the
accumulated sensitivities, so a second pass starts from the first one's result (`C29_second_pass_wrong`).
-/

noncomputable section
namespace Serac.C29
open Serac.Elim
open Serac.Adj
open Serac.C26 (Constrained C26_apply)
open scoped Matrix

variable {n : ℕ}

/-! ## Spec -/

/-- Variation of a state: displacement, velocity, acceleration. -/
structure Var (n : ℕ) where
  u : Vec n
  v : Vec n
  a : Vec n

/-- Linearised Newmark step of size `dt` from `x` to `y`, with linearised residual `M a + K u + f = 0` on the free dofs; the motion of
constrained dofs is prescribed, so their acceleration does not vary. -/
structure Tangent (E : Fin n → Prop) (dt : ℝ) (M K : Mat n) (f : Vec n) (x y : Var n) : Prop where
  disp : y.u = x.u + dt • x.v + ((1 / 2 - 1 / 4) * dt ^ 2 : ℝ) • x.a + ((1 / 4) * dt ^ 2 : ℝ) • y.a
  velo : y.v = x.v + ((1 - 1 / 2) * dt : ℝ) • x.a + ((1 / 2) * dt : ℝ) • y.a
  bc : ∀ i, E i → y.a i = 0
  res : ∀ i, ¬ E i → mulVec M y.a i + mulVec K y.u i + f i = 0

/-- Variation of the objective over the steps. -/
def objective (g : List (Load n)) (x : ℕ → Var n) : ℝ :=
  match g with
  | [] => 0
  | l :: ls => l.gu ⬝ᵥ (x 1).u + (l.gv.getD 0) ⬝ᵥ (x 1).v + (l.ga.getD 0) ⬝ᵥ (x 1).a + objective ls (fun k => x (k + 1))

/-- `∑ₖ λₖ · fₖ`. -/
def paramPart (lams : List (Vec n)) (f : ℕ → Vec n) : ℝ :=
  match lams with
  | [] => 0
  | l :: ls => l ⬝ᵥ f 0 + paramPart ls (fun k => f (k + 1))

/-- The dofs named by some boundary condition. -/
def Ess (conds : List (List (Fin n))) (i : Fin n) : Prop := ∃ dofs ∈ conds, i ∈ dofs

/-- The system matrix of the reverse step. -/
def sysMat (conds : List (List (Fin n))) (st : Step n) : Mat n :=
  (applyAll conds 0 (transpose (addMat st.M (1 / 4 * st.dt * st.dt) st.K), 0)).1

/-- The linear solver is exact for the systems it is given. -/
def Exact (conds : List (List (Fin n))) (solve : Mat n → Vec n → Vec n) (steps : List (Step n)) : Prop :=
  ∀ st ∈ steps, ∀ b, mulVec (sysMat conds st) (solve (sysMat conds st) b) = b

/-! ## Linear algebra of one step -/

theorem mulVec_add (A : Mat n) (x y : Vec n) : mulVec A (x + y) = mulVec A x + mulVec A y := by
  funext i
  simp only [mulVec, Pi.add_apply, mul_add, Finset.sum_add_distrib]

theorem mulVec_smul (A : Mat n) (c : ℝ) (x : Vec n) : mulVec A (c • x) = c • mulVec A x := by
  funext i
  simp only [mulVec, Pi.smul_apply, smul_eq_mul, Finset.mul_sum]
  exact Finset.sum_congr rfl fun j _ => by ring

theorem mulVecT_dot (A : Mat n) (x y : Vec n) : mulVecT A x ⬝ᵥ y = x ⬝ᵥ mulVec A y := by
  simp only [mulVecT, mulVec, dotProduct, Finset.sum_mul, Finset.mul_sum]
  rw [Finset.sum_comm]
  exact Finset.sum_congr rfl fun j _ => Finset.sum_congr rfl fun i _ => by ring

/-- The matrix of the system does not depend on the right-hand side. -/
theorem applyAll_fst (conds : List (List (Fin n))) (A : Mat n) (b b' : Vec n) :
    (applyAll conds 0 (A, b)).1 = (applyAll conds 0 (A, b')).1 := by
  rw [(Serac.C26.applyAll_spec conds 0 A b).1, (Serac.C26.applyAll_spec conds 0 A b').1]

/-- An exact solve gives the adjoint equation on free dofs and zero on constrained ones. -/
theorem solve_spec (conds : List (List (Fin n))) (A : Mat n) (b lam : Vec n)
    (h : mulVec (applyAll conds 0 (A, b)).1 lam = (applyAll conds 0 (A, b)).2) :
    (∀ i, Ess conds i → lam i = 0) ∧ ∀ i, ¬ Ess conds i → mulVec A lam i = b i :=
  (C26_apply conds 0 A b lam).1 (fun i => congrFun h i)

/-- The adjoint equation tested with a tangent acceleration. -/
theorem adjoint_step (E : Fin n → Prop) (c : ℝ) (M K : Mat n) (f lam rhs x1 a : Vec n) (hl : ∀ i, E i → lam i = 0)
    (hr : ∀ i, ¬ E i → mulVec (transpose (addMat M c K)) lam i = rhs i) (ha : ∀ i, E i → a i = 0)
    (hres : ∀ i, ¬ E i → mulVec M a i + mulVec K (x1 + c • a) i + f i = 0) :
    -(rhs ⬝ᵥ a) = lam ⬝ᵥ f + mulVecT K lam ⬝ᵥ x1 := by
  have h1 : rhs ⬝ᵥ a = lam ⬝ᵥ (mulVec M a + c • mulVec K a) := by
    have e1 : rhs ⬝ᵥ a = mulVec (transpose (addMat M c K)) lam ⬝ᵥ a := by
      apply Finset.sum_congr rfl
      intro i _
      by_cases hi : E i
      · rw [ha i hi]; ring
      · rw [hr i hi]
    have e2 : mulVec (transpose (addMat M c K)) lam = mulVecT (addMat M c K) lam := rfl
    rw [e1, e2, mulVecT_dot]
    congr 1
    funext i
    simp only [mulVec, addMat, Pi.add_apply, Pi.smul_apply, smul_eq_mul, Finset.mul_sum, ← Finset.sum_add_distrib]
    exact Finset.sum_congr rfl fun j _ => by ring
  have h2 : lam ⬝ᵥ (mulVec M a + mulVec K (x1 + c • a) + f) = 0 := by
    apply Finset.sum_eq_zero
    intro i _
    by_cases hi : E i
    · rw [hl i hi, zero_mul]
    · have := hres i hi
      rw [Pi.add_apply, Pi.add_apply, this, mul_zero]
  rw [h1, mulVecT_dot]
  rw [mulVec_add, mulVec_smul, dotProduct_add, dotProduct_add, dotProduct_add] at h2
  rw [dotProduct_add]
  linarith

/-- Newmark predictors of a step of size `dt`. -/
def predU (dt : ℝ) (x : Var n) : Vec n := x.u + dt • x.v + ((1 / 2 - 1 / 4) * dt ^ 2 : ℝ) • x.a
def predV (dt : ℝ) (x : Var n) : Vec n := x.v + ((1 - 1 / 2) * dt : ℝ) • x.a

/-- One reverse step: what is known about the later steps (`s.D`, `s.V` acting on their predictors) and the loads of this step become `D` and
`V` acting on this step's predictors, except for the velocity load. -/
theorem step_identity (conds : List (List (Fin n))) (solve : Mat n → Vec n → Vec n) (dt dt2 : ℝ) (M K : Mat n) (s : State n) (f : Vec n)
    (x y : Var n)
    (hex : ∀ b, mulVec (applyAll conds 0 (transpose (addMat M (1 / 4 * dt * dt) K), 0)).1
      (solve (applyAll conds 0 (transpose (addMat M (1 / 4 * dt * dt) K), 0)).1 b) = b)
    (ht : Tangent (Ess conds) dt M K f x y) :
    let s' := adjointIntegrate conds solve dt dt2 M K s
    s.D ⬝ᵥ predU dt2 y + s.V ⬝ᵥ predV dt2 y - s.du ⬝ᵥ y.u - s.dv ⬝ᵥ y.v - s.da ⬝ᵥ y.a =
      s'.D ⬝ᵥ predU dt x + s'.V ⬝ᵥ predV dt x - s.dv ⬝ᵥ predV dt x + s'.lam ⬝ᵥ f := by
  intro s'
  obtain ⟨rhs, hrhs⟩ : ∃ rhs : Vec n, rhs = s.da + (1 / 2 * dt : ℝ) • s.dv + (1 / 4 * dt * dt : ℝ) • s.du
      + (-dt2 * (1 / 2) - dt * (1 / 2) : ℝ) • s.V + (-dt2 * dt2 * (1 / 4) - dt * dt * (1 / 4) - dt * dt2 * (1 / 2) : ℝ) • s.D := ⟨_, rfl⟩
  have hlam : s'.lam = solve (applyAll conds 0 (transpose (addMat M (1 / 4 * dt * dt) K), rhs)).1
      (applyAll conds 0 (transpose (addMat M (1 / 4 * dt * dt) K), rhs)).2 := by
    have : axpy (axpy (axpy (axpy s.da (1 / 2 * dt) s.dv) (1 / 4 * dt * dt) s.du) (-dt2 * (1 - 1 / 2) - dt * (1 / 2)) s.V)
        (-dt2 * dt2 * (1 / 2 - 1 / 4) - dt * dt * (1 / 4) - dt * dt2 * (1 / 2)) s.D = rhs := by
      rw [hrhs]
      funext i
      simp only [axpy, Pi.add_apply, Pi.smul_apply, smul_eq_mul]
      ring
    rw [← this]
    rfl
  have hsol := hex (applyAll conds 0 (transpose (addMat M (1 / 4 * dt * dt) K), rhs)).2
  rw [applyAll_fst conds _ 0 rhs, ← hlam] at hsol
  obtain ⟨hl0, hl1⟩ := solve_spec conds _ rhs s'.lam hsol
  have hyu : y.u = predU dt x + (1 / 4 * dt * dt : ℝ) • y.a := by
    rw [ht.disp, predU]
    congr 2
    ring
  have hyv : y.v = predV dt x + (1 / 2 * dt : ℝ) • y.a := by rw [ht.velo, predV]
  have hkey := adjoint_step (Ess conds) (1 / 4 * dt * dt) M K f s'.lam rhs (predU dt x) y.a hl0 hl1 ht.bc
    (fun i hi => by rw [← hyu]; exact ht.res i hi)
  have hV : s'.V = s.V + dt2 • s.D := rfl
  have hD : s'.D = mulVecT K s'.lam + s.D - s.du := by
    funext i
    show mulVecT K s'.lam i + s.D i + (-1) * s.du i = _
    simp only [Pi.add_apply, Pi.sub_apply]
    ring
  rw [hV, hD]
  have h2 : predU dt2 y = y.u + dt2 • y.v + (1 / 4 * dt2 * dt2 : ℝ) • y.a := by
    rw [predU]
    congr 2
    ring
  have h3 : predV dt2 y = y.v + (1 / 2 * dt2 : ℝ) • y.a := by
    rw [predV]
    congr 2
    ring
  rw [h2, h3, hyv, hyu]
  rw [hrhs] at hkey
  simp only [add_dotProduct, sub_dotProduct, smul_dotProduct, dotProduct_add, dotProduct_smul, smul_eq_mul] at hkey ⊢
  linarith

theorem predU_zero (x : Var n) : predU 0 x = x.u := by simp [predU]
theorem predV_zero (x : Var n) : predV 0 x = x.v := by simp [predV]

/-- No velocity loads, and an acceleration load is never left out once one was given (in the order of the reverse pass). -/
structure Fresh (steps : List (Step n)) : Prop where
  noVelo : ∀ st ∈ steps, st.load.gv = none ∨ st.load.gv = some 0
  acc : steps.Pairwise fun st later => st.load.ga = none → later.load.ga = none

theorem pass_dv (conds : List (List (Fin n))) (solve : Mat n → Vec n → Vec n) (steps : List (Step n)) (s : State n)
    (h : ∀ st ∈ steps, st.load.gv = none ∨ st.load.gv = some 0) (hs : s.dv = 0) : (reversePass conds solve steps s).2.dv = 0 := by
  induction steps with
  | nil => exact hs
  | cons st rest ih =>
    show (setAdjointLoad st.load (reversePass conds solve rest s).2).dv = 0
    have ih := ih fun t ht => h t (List.mem_cons_of_mem _ ht)
    rcases h st List.mem_cons_self with h | h
    · simp only [setAdjointLoad, h, ih]
    · funext i
      simp [setAdjointLoad, h]

theorem pass_da (conds : List (List (Fin n))) (solve : Mat n → Vec n → Vec n) (steps : List (Step n)) (s : State n)
    (h : ∀ st ∈ steps, st.load.ga = none) (hs : s.da = 0) : (reversePass conds solve steps s).2.da = 0 := by
  induction steps with
  | nil => exact hs
  | cons st rest ih =>
    show (setAdjointLoad st.load (reversePass conds solve rest s).2).da = 0
    have ih := ih fun t ht => h t (List.mem_cons_of_mem _ ht)
    simp only [setAdjointLoad, h st List.mem_cons_self, ih]

/-- The linearised motion over all steps. -/
def TangentMotion (conds : List (List (Fin n))) (steps : List (Step n)) (f : ℕ → Vec n) (x : ℕ → Var n) : Prop :=
  ∀ k (h : k < steps.length), Tangent (Ess conds) steps[k].dt steps[k].M steps[k].K (f k) (x k) (x (k + 1))

theorem TangentMotion.tail {conds : List (List (Fin n))} {st : Step n} {rest : List (Step n)} {f : ℕ → Vec n} {x : ℕ → Var n}
    (h : TangentMotion conds (st :: rest) f x) : TangentMotion conds rest (fun k => f (k + 1)) (fun k => x (k + 1)) :=
  fun k hk => h (k + 1) (by simpa using hk)

theorem pass_identity (conds : List (List (Fin n))) (solve : Mat n → Vec n → Vec n) (steps : List (Step n)) (s : State n)
    (f : ℕ → Vec n) (x : ℕ → Var n) (hex : Exact conds solve steps) (hf : Fresh steps) (hs : s.dv = 0 ∧ s.da = 0)
    (ht : TangentMotion conds steps f x) :
    objective (steps.map Step.load) x + s.D ⬝ᵥ (x steps.length).u + s.V ⬝ᵥ (x steps.length).v =
      (reversePass conds solve steps s).2.D ⬝ᵥ predU (nextDt steps) (x 0) + (reversePass conds solve steps s).2.V ⬝ᵥ predV (nextDt steps) (x 0)
        + paramPart (reversePass conds solve steps s).1 f := by
  induction steps generalizing f x with
  | nil => simp [objective, reversePass, nextDt, predU_zero, predV_zero, paramPart]
  | cons st rest ih =>
    have ih := ih (fun k => f (k + 1)) (fun k => x (k + 1)) (fun t h => hex t (List.mem_cons_of_mem _ h))
      ⟨fun t h => hf.noVelo t (List.mem_cons_of_mem _ h), (List.pairwise_cons.1 hf.acc).2⟩ ht.tail
    obtain ⟨s1, hs1⟩ : ∃ s1, s1 = (reversePass conds solve rest s).2 := ⟨_, rfl⟩
    have hstep := step_identity conds solve st.dt (nextDt rest) st.M st.K (setAdjointLoad st.load s1) (f 0) (x 0) (x 1)
      (hex st List.mem_cons_self) (ht 0 (by simp))
    have hdv1 : s1.dv = 0 := hs1 ▸ pass_dv conds solve rest s (fun t h => hf.noVelo t (List.mem_cons_of_mem _ h)) hs.1
    have hdv : (setAdjointLoad st.load s1).dv = 0 := by
      rcases hf.noVelo st List.mem_cons_self with h | h
      · simp only [setAdjointLoad, h, hdv1]
      · funext i
        simp [setAdjointLoad, h]
    have hgv : st.load.gv.getD 0 = 0 := by
      rcases hf.noVelo st List.mem_cons_self with h | h <;> simp [h]
    have hda : (setAdjointLoad st.load s1).da = - (st.load.ga.getD 0) := by
      cases hga : st.load.ga with
      | none =>
        have hz : s1.da = 0 := hs1 ▸ pass_da conds solve rest s (fun t h => (List.pairwise_cons.1 hf.acc).1 t h hga) hs.2
        simp only [setAdjointLoad, hga, hz]
        simp
      | some g =>
        funext i
        simp [setAdjointLoad, hga]
    have hdu : (setAdjointLoad st.load s1).du = - st.load.gu := by
      funext i
      simp [setAdjointLoad]
    rw [hdv, hda, hdu] at hstep
    have hpass : reversePass conds solve (st :: rest) s =
        ((adjointIntegrate conds solve st.dt (nextDt rest) st.M st.K (setAdjointLoad st.load s1)).lam :: (reversePass conds solve rest s).1,
          adjointIntegrate conds solve st.dt (nextDt rest) st.M st.K (setAdjointLoad st.load s1)) := by
      rw [hs1]
      rfl
    rw [hpass]
    have hD : (setAdjointLoad st.load s1).D = s1.D := rfl
    have hV : (setAdjointLoad st.load s1).V = s1.V := rfl
    rw [← hs1] at ih
    rw [hD, hV] at hstep
    have hnd : nextDt (st :: rest) = st.dt := rfl
    rw [hnd]
    simp only [List.map_cons, objective, paramPart, List.length_cons, hgv]
    simp only [neg_dotProduct, zero_dotProduct] at hstep ⊢
    simp only [zero_add] at ih
    linarith

theorem objective_sum (steps : List (Step n)) (x : ℕ → Var n) :
    objective (steps.map Step.load) x = ∑ k : Fin steps.length, ((steps.get k).load.gu ⬝ᵥ (x (k + 1)).u +
      ((steps.get k).load.gv.getD 0) ⬝ᵥ (x (k + 1)).v + ((steps.get k).load.ga.getD 0) ⬝ᵥ (x (k + 1)).a) := by
  induction steps generalizing x with
  | nil => simp [objective]
  | cons st rest ih =>
    simp only [List.map_cons, objective]
    rw [ih]
    exact (Fin.sum_univ_succ (n := rest.length) (fun k : Fin (rest.length + 1) => ((st :: rest).get k).load.gu ⬝ᵥ (x (k + 1)).u +
      (((st :: rest).get k).load.gv.getD 0) ⬝ᵥ (x (k + 1)).v + (((st :: rest).get k).load.ga.getD 0) ⬝ᵥ (x (k + 1)).a)).symm

/-! ## Families of nonlinear motions -/

/-- A family of Newmark solutions.  `r k (u, a, s)` is the residual of step `k` at the end-of-step displacement and acceleration and the
parameter; `u`, `v`, `a` are differentiable at `s0` with derivatives `x`. -/
structure Family (conds : List (List (Fin n))) (steps : List (Step n)) (r : ℕ → Vec n × Vec n × ℝ → Vec n) (u v a : ℕ → ℝ → Vec n)
    (x : ℕ → Var n) (s0 : ℝ) : Prop where
  disp : ∀ k (h : k < steps.length) s, u (k + 1) s = u k s + steps[k].dt • v k s + ((1 / 2 - 1 / 4) * steps[k].dt ^ 2 : ℝ) • a k s
    + ((1 / 4) * steps[k].dt ^ 2 : ℝ) • a (k + 1) s
  velo : ∀ k (h : k < steps.length) s, v (k + 1) s = v k s + ((1 - 1 / 2) * steps[k].dt : ℝ) • a k s
    + ((1 / 2) * steps[k].dt : ℝ) • a (k + 1) s
  /-- the motion of constrained dofs is prescribed -/
  bc : ∀ k, k < steps.length → ∀ i, Ess conds i → ∀ s, a (k + 1) s i = a (k + 1) s0 i
  res : ∀ k, k < steps.length → ∀ i, ¬ Ess conds i → ∀ s, r k (u (k + 1) s, a (k + 1) s, s) i = 0
  du : ∀ k, HasDerivAt (u k) (x k).u s0
  dv : ∀ k, HasDerivAt (v k) (x k).v s0
  da : ∀ k, HasDerivAt (a k) (x k).a s0

/-- The step matrices are the derivatives of the residual; `f` is its derivative with respect to the parameter. -/
def Linearises (steps : List (Step n)) (r : ℕ → Vec n × Vec n × ℝ → Vec n) (u a : ℕ → ℝ → Vec n) (f : ℕ → Vec n) (s0 : ℝ) : Prop :=
  ∀ k (h : k < steps.length), ∃ L : (Vec n × Vec n × ℝ) →L[ℝ] Vec n, HasFDerivAt (r k) L (u (k + 1) s0, a (k + 1) s0, s0) ∧
    ∀ du da ds, L (du, da, ds) = mulVec steps[k].K du + mulVec steps[k].M da + ds • f k

/-- The states of all steps. -/
def states (N : ℕ) (u v a : ℕ → ℝ → Vec n) (s : ℝ) : Fin N → Vec n × Vec n × Vec n := fun k => (u (k + 1) s, v (k + 1) s, a (k + 1) s)

/-- The adjoint loads are the gradient of the objective `J`. -/
def Loads (steps : List (Step n)) (J : (Fin steps.length → Vec n × Vec n × Vec n) → ℝ) (z : Fin steps.length → Vec n × Vec n × Vec n) : Prop :=
  ∃ L : (Fin steps.length → Vec n × Vec n × Vec n) →L[ℝ] ℝ, HasFDerivAt J L z ∧
    ∀ dz, L dz = ∑ k, ((steps.get k).load.gu ⬝ᵥ (dz k).1 + ((steps.get k).load.gv.getD 0) ⬝ᵥ (dz k).2.1 +
      ((steps.get k).load.ga.getD 0) ⬝ᵥ (dz k).2.2)

theorem Family.tangent {conds : List (List (Fin n))} {steps : List (Step n)} {r : ℕ → Vec n × Vec n × ℝ → Vec n} {u v a : ℕ → ℝ → Vec n}
    {x : ℕ → Var n} {s0 : ℝ} {f : ℕ → Vec n} (hF : Family conds steps r u v a x s0) (hL : Linearises steps r u a f s0) :
    TangentMotion conds steps f x := by
  intro k hk
  refine ⟨?_, ?_, ?_, ?_⟩
  · have h1 := (((hF.du k).add ((hF.dv k).const_smul steps[k].dt)).add
      ((hF.da k).const_smul ((1 / 2 - 1 / 4) * steps[k].dt ^ 2 : ℝ))).add ((hF.da (k + 1)).const_smul ((1 / 4) * steps[k].dt ^ 2 : ℝ))
    refine (hF.du (k + 1)).unique ?_
    have e : u (k + 1) = u k + steps[k].dt • v k + ((1 / 2 - 1 / 4) * steps[k].dt ^ 2 : ℝ) • a k
        + ((1 / 4) * steps[k].dt ^ 2 : ℝ) • a (k + 1) := funext fun s => hF.disp k hk s
    rw [e]
    exact h1
  · have h1 := ((hF.dv k).add ((hF.da k).const_smul ((1 - 1 / 2) * steps[k].dt : ℝ))).add
      ((hF.da (k + 1)).const_smul ((1 / 2) * steps[k].dt : ℝ))
    refine (hF.dv (k + 1)).unique ?_
    have e : v (k + 1) = v k + ((1 - 1 / 2) * steps[k].dt : ℝ) • a k + ((1 / 2) * steps[k].dt : ℝ) • a (k + 1) :=
      funext fun s => hF.velo k hk s
    rw [e]
    exact h1
  · intro i hi
    have h1 := hasDerivAt_pi.1 (hF.da (k + 1)) i
    refine h1.unique ?_
    have e : (fun s => a (k + 1) s i) = fun _ => a (k + 1) s0 i := funext fun s => hF.bc k hk i hi s
    rw [e]
    exact hasDerivAt_const _ _
  · intro i hi
    obtain ⟨L, hL1, hL2⟩ := hL k hk
    have h1 := hL1.comp_hasDerivAt s0 ((hF.du (k + 1)).prodMk ((hF.da (k + 1)).prodMk (hasDerivAt_id s0)))
    have h2 := hasDerivAt_pi.1 h1 i
    have e : (fun s => (r k ∘ fun s => (u (k + 1) s, a (k + 1) s, id s)) s i) = fun _ => (0 : ℝ) := funext fun s => hF.res k hk i hi s
    rw [e] at h2
    have h3 := h2.unique (hasDerivAt_const _ _)
    rw [hL2] at h3
    simp only [Pi.add_apply, Pi.smul_apply, smul_eq_mul, one_mul] at h3
    linarith

theorem Loads.deriv {steps : List (Step n)} {J : (Fin steps.length → Vec n × Vec n × Vec n) → ℝ} {u v a : ℕ → ℝ → Vec n}
    {x : ℕ → Var n} {s0 : ℝ} (hJ : Loads steps J (states steps.length u v a s0)) (du : ∀ k, HasDerivAt (u k) (x k).u s0)
    (dv : ∀ k, HasDerivAt (v k) (x k).v s0) (da : ∀ k, HasDerivAt (a k) (x k).a s0) :
    HasDerivAt (fun s => J (states steps.length u v a s)) (objective (steps.map Step.load) x) s0 := by
  obtain ⟨L, hL1, hL2⟩ := hJ
  have hst : HasDerivAt (states steps.length u v a) (fun k : Fin steps.length => ((x (k + 1)).u, (x (k + 1)).v, (x (k + 1)).a)) s0 := by
    rw [hasDerivAt_pi]
    intro k
    exact (du (k + 1)).prodMk ((dv (k + 1)).prodMk (da (k + 1)))
  have h := hL1.comp_hasDerivAt s0 hst
  rw [hL2] at h
  rw [objective_sum]
  exact h

/-! ## Theorems -/

/-- **C29**, for the case the code gets right: no velocity loads, acceleration loads always or never given, and a first step of size zero (used
to find the initial acceleration).  Any number of steps of any sizes, any nonlinear residual depending on displacement, acceleration and the
parameter, any differentiable objective of displacements and accelerations.

Missing from the full claim: velocity loads (`C29_velocity_load`), a first step of non-zero size (`C29_first_step`), loads left out after having
been given (`C29_stale_load_wrong`). -/
theorem C29_gradient_partial (conds : List (List (Fin n))) (solve : Mat n → Vec n → Vec n) (steps : List (Step n))
    (r : ℕ → Vec n × Vec n × ℝ → Vec n) (u v a : ℕ → ℝ → Vec n) (x : ℕ → Var n) (s0 : ℝ) (f : ℕ → Vec n)
    (J : (Fin steps.length → Vec n × Vec n × Vec n) → ℝ) (hex : Exact conds solve steps) (hfresh : Fresh steps) (h0 : nextDt steps = 0)
    (hF : Family conds steps r u v a x s0) (hL : Linearises steps r u a f s0) (hJ : Loads steps J (states steps.length u v a s0)) :
    HasDerivAt (fun s => J (states steps.length u v a s))
      ((reversePass conds solve steps (init n)).2.D ⬝ᵥ (x 0).u + (reversePass conds solve steps (init n)).2.V ⬝ᵥ (x 0).v
        + paramPart (reversePass conds solve steps (init n)).1 f) s0 := by
  have h := pass_identity conds solve steps (init n) f x hex hfresh ⟨rfl, rfl⟩ (hF.tangent hL)
  rw [h0, predU_zero, predV_zero] at h
  rw [← h]
  have hz : (init n).D = 0 := rfl
  have hz' : (init n).V = 0 := rfl
  rw [hz, hz', zero_dotProduct, zero_dotProduct, add_zero, add_zero]
  exact hJ.deriv hF.du hF.dv hF.da

/-- A first step of any size: the returned sensitivities belong to the first step's predictors. -/
theorem C29_first_step (conds : List (List (Fin n))) (solve : Mat n → Vec n → Vec n) (steps : List (Step n))
    (r : ℕ → Vec n × Vec n × ℝ → Vec n) (u v a : ℕ → ℝ → Vec n) (x : ℕ → Var n) (s0 : ℝ) (f : ℕ → Vec n)
    (J : (Fin steps.length → Vec n × Vec n × Vec n) → ℝ) (hex : Exact conds solve steps) (hfresh : Fresh steps)
    (hF : Family conds steps r u v a x s0) (hL : Linearises steps r u a f s0) (hJ : Loads steps J (states steps.length u v a s0)) :
    HasDerivAt (fun s => J (states steps.length u v a s))
      ((reversePass conds solve steps (init n)).2.D ⬝ᵥ ((x 0).u + nextDt steps • (x 0).v + (1 / 4 * nextDt steps ^ 2 : ℝ) • (x 0).a)
        + (reversePass conds solve steps (init n)).2.V ⬝ᵥ ((x 0).v + (1 / 2 * nextDt steps : ℝ) • (x 0).a)
        + paramPart (reversePass conds solve steps (init n)).1 f) s0 := by
  have h := pass_identity conds solve steps (init n) f x hex hfresh ⟨rfl, rfl⟩ (hF.tangent hL)
  have hz : (init n).D = 0 := rfl
  have hz' : (init n).V = 0 := rfl
  rw [hz, hz', zero_dotProduct, zero_dotProduct, add_zero, add_zero] at h
  have e1 : predU (nextDt steps) (x 0) = (x 0).u + nextDt steps • (x 0).v + (1 / 4 * nextDt steps ^ 2 : ℝ) • (x 0).a := by
    rw [predU]
    congr 2
    ring
  have e2 : predV (nextDt steps) (x 0) = (x 0).v + (1 / 2 * nextDt steps : ℝ) • (x 0).a := by
    rw [predV]
    congr 2
    ring
  rw [e1, e2] at h
  rw [← h]
  exact hJ.deriv hF.du hF.dv hF.da

/-- **Violation**: varying the initial velocity (with zero initial acceleration, say a force-free start) when the first step has non-zero size,
the returned sensitivity is wrong whenever the displacement sensitivity does not vanish in that direction. -/
theorem C29_first_step_wrong (conds : List (List (Fin n))) (solve : Mat n → Vec n → Vec n) (steps : List (Step n))
    (r : ℕ → Vec n × Vec n × ℝ → Vec n) (u v a : ℕ → ℝ → Vec n) (x : ℕ → Var n) (s0 : ℝ) (f : ℕ → Vec n)
    (J : (Fin steps.length → Vec n × Vec n × Vec n) → ℝ) (hex : Exact conds solve steps) (hfresh : Fresh steps) (h0 : nextDt steps ≠ 0)
    (ha : (x 0).a = 0) (hD : (reversePass conds solve steps (init n)).2.D ⬝ᵥ (x 0).v ≠ 0)
    (hF : Family conds steps r u v a x s0) (hL : Linearises steps r u a f s0) (hJ : Loads steps J (states steps.length u v a s0)) :
    ¬ HasDerivAt (fun s => J (states steps.length u v a s))
      ((reversePass conds solve steps (init n)).2.D ⬝ᵥ (x 0).u + (reversePass conds solve steps (init n)).2.V ⬝ᵥ (x 0).v
        + paramPart (reversePass conds solve steps (init n)).1 f) s0 := by
  intro h
  have h1 := C29_first_step conds solve steps r u v a x s0 f J hex hfresh hF hL hJ
  have h2 := h.unique h1
  rw [ha] at h2
  simp only [smul_zero, add_zero, dotProduct_add, dotProduct_smul, smul_eq_mul] at h2
  exact mul_ne_zero h0 hD (by linarith)

/-- The pass when only the first step (the last one reversed) has a velocity load or leaves out the acceleration load. -/
theorem pass_identity_first (conds : List (List (Fin n))) (solve : Mat n → Vec n → Vec n) (st : Step n) (rest : List (Step n))
    (f : ℕ → Vec n) (x : ℕ → Var n) (hex : Exact conds solve (st :: rest)) (hf : Fresh rest)
    (ht : TangentMotion conds (st :: rest) f x) :
    let p := reversePass conds solve (st :: rest) (init n)
    objective ((st :: rest).map Step.load) x =
      p.2.D ⬝ᵥ predU st.dt (x 0) + p.2.V ⬝ᵥ predV st.dt (x 0) + paramPart p.1 f
        - p.2.dv ⬝ᵥ predV st.dt (x 0) + (p.2.dv + st.load.gv.getD 0) ⬝ᵥ (x 1).v + (p.2.da + st.load.ga.getD 0) ⬝ᵥ (x 1).a := by
  intro p
  have ih := pass_identity conds solve rest (init n) (fun k => f (k + 1)) (fun k => x (k + 1)) (fun t h => hex t (List.mem_cons_of_mem _ h))
      hf ⟨rfl, rfl⟩ ht.tail
  obtain ⟨s1, hs1⟩ : ∃ s1, s1 = (reversePass conds solve rest (init n)).2 := ⟨_, rfl⟩
  have hstep := step_identity conds solve st.dt (nextDt rest) st.M st.K (setAdjointLoad st.load s1) (f 0) (x 0) (x 1)
      (hex st List.mem_cons_self) (ht 0 (by simp))
  have hdu : (setAdjointLoad st.load s1).du = - st.load.gu := by
    funext i
    simp [setAdjointLoad]
  have hpass : p =
      ((adjointIntegrate conds solve st.dt (nextDt rest) st.M st.K (setAdjointLoad st.load s1)).lam :: (reversePass conds solve rest (init n)).1,
        adjointIntegrate conds solve st.dt (nextDt rest) st.M st.K (setAdjointLoad st.load s1)) := by
    rw [hs1]
    rfl
  have hdv : p.2.dv = (setAdjointLoad st.load s1).dv := by rw [hpass]; rfl
  have hda : p.2.da = (setAdjointLoad st.load s1).da := by rw [hpass]; rfl
  rw [hdv, hda, hpass]
  have hD : (setAdjointLoad st.load s1).D = s1.D := rfl
  have hV : (setAdjointLoad st.load s1).V = s1.V := rfl
  rw [← hs1] at ih
  rw [hD, hV, hdu] at hstep
  have hz : (init n).D = 0 := rfl
  have hz' : (init n).V = 0 := rfl
  rw [hz, hz'] at ih
  simp only [List.map_cons, objective, paramPart]
  simp only [neg_dotProduct, zero_dotProduct, add_dotProduct] at hstep ih ⊢
  simp only [zero_add, add_zero] at ih
  linarith

/-- What the pass returns when the first step has a velocity load `g`: exactly `g · predV` is missing. -/
theorem C29_velocity_load (conds : List (List (Fin n))) (solve : Mat n → Vec n → Vec n) (st : Step n) (rest : List (Step n))
    (r : ℕ → Vec n × Vec n × ℝ → Vec n) (u v a : ℕ → ℝ → Vec n) (x : ℕ → Var n) (s0 : ℝ) (f : ℕ → Vec n)
    (J : (Fin (st :: rest).length → Vec n × Vec n × Vec n) → ℝ) (hex : Exact conds solve (st :: rest)) (hfresh : Fresh rest)
    (g : Vec n) (hg : st.load.gv = some g) (ha : st.load.ga.isSome) (h0 : st.dt = 0)
    (hF : Family conds (st :: rest) r u v a x s0) (hL : Linearises (st :: rest) r u a f s0)
    (hJ : Loads (st :: rest) J (states (st :: rest).length u v a s0)) :
    HasDerivAt (fun s => J (states (st :: rest).length u v a s))
      ((reversePass conds solve (st :: rest) (init n)).2.D ⬝ᵥ (x 0).u
        + ((reversePass conds solve (st :: rest) (init n)).2.V + g) ⬝ᵥ (x 0).v
        + paramPart (reversePass conds solve (st :: rest) (init n)).1 f) s0 := by
  have h := pass_identity_first conds solve st rest f x hex hfresh (hF.tangent hL)
  obtain ⟨ga, hga⟩ := Option.isSome_iff_exists.1 ha
  have hdv : (reversePass conds solve (st :: rest) (init n)).2.dv = -g := by
    show (setAdjointLoad st.load (reversePass conds solve rest (init n)).2).dv = -g
    funext i
    simp [setAdjointLoad, hg]
  have hda : (reversePass conds solve (st :: rest) (init n)).2.da = -ga := by
    show (setAdjointLoad st.load (reversePass conds solve rest (init n)).2).da = -ga
    funext i
    simp [setAdjointLoad, hga]
  dsimp only at h
  rw [hdv, hda, hg, hga, h0, predU_zero, predV_zero] at h
  have hd := hJ.deriv hF.du hF.dv hF.da
  rw [h] at hd
  refine hd.congr_deriv ?_
  simp only [Option.getD_some, neg_dotProduct, add_dotProduct]
  ring

/-- **Violation**: with a velocity load the returned sensitivity is wrong for every variation of the initial velocity that the load sees. -/
theorem C29_velocity_load_wrong (conds : List (List (Fin n))) (solve : Mat n → Vec n → Vec n) (st : Step n) (rest : List (Step n))
    (r : ℕ → Vec n × Vec n × ℝ → Vec n) (u v a : ℕ → ℝ → Vec n) (x : ℕ → Var n) (s0 : ℝ) (f : ℕ → Vec n)
    (J : (Fin (st :: rest).length → Vec n × Vec n × Vec n) → ℝ) (hex : Exact conds solve (st :: rest)) (hfresh : Fresh rest)
    (g : Vec n) (hg : st.load.gv = some g) (ha : st.load.ga.isSome) (h0 : st.dt = 0) (hgv : g ⬝ᵥ (x 0).v ≠ 0)
    (hF : Family conds (st :: rest) r u v a x s0) (hL : Linearises (st :: rest) r u a f s0)
    (hJ : Loads (st :: rest) J (states (st :: rest).length u v a s0)) :
    ¬ HasDerivAt (fun s => J (states (st :: rest).length u v a s))
      ((reversePass conds solve (st :: rest) (init n)).2.D ⬝ᵥ (x 0).u + (reversePass conds solve (st :: rest) (init n)).2.V ⬝ᵥ (x 0).v
        + paramPart (reversePass conds solve (st :: rest) (init n)).1 f) s0 := by
  intro h
  have h2 := h.unique (C29_velocity_load conds solve st rest r u v a x s0 f J hex hfresh g hg ha h0 hF hL hJ)
  rw [add_dotProduct] at h2
  exact hgv (by linarith)

/-- **Violation**: an acceleration load that was given for the second step and left out for the first one still acts on the first. -/
theorem C29_stale_load_wrong (conds : List (List (Fin n))) (solve : Mat n → Vec n → Vec n) (st st2 : Step n) (rest : List (Step n))
    (r : ℕ → Vec n × Vec n × ℝ → Vec n) (u v a : ℕ → ℝ → Vec n) (x : ℕ → Var n) (s0 : ℝ) (f : ℕ → Vec n)
    (J : (Fin (st :: st2 :: rest).length → Vec n × Vec n × Vec n) → ℝ) (hex : Exact conds solve (st :: st2 :: rest))
    (hfresh : Fresh (st2 :: rest)) (g : Vec n) (hg : st2.load.ga = some g) (hst : st.load.ga = none) (hv : st.load.gv = none) (h0 : st.dt = 0)
    (hga : g ⬝ᵥ (x 1).a ≠ 0)
    (hF : Family conds (st :: st2 :: rest) r u v a x s0) (hL : Linearises (st :: st2 :: rest) r u a f s0)
    (hJ : Loads (st :: st2 :: rest) J (states (st :: st2 :: rest).length u v a s0)) :
    ¬ HasDerivAt (fun s => J (states (st :: st2 :: rest).length u v a s))
      ((reversePass conds solve (st :: st2 :: rest) (init n)).2.D ⬝ᵥ (x 0).u
        + (reversePass conds solve (st :: st2 :: rest) (init n)).2.V ⬝ᵥ (x 0).v
        + paramPart (reversePass conds solve (st :: st2 :: rest) (init n)).1 f) s0 := by
  intro h'
  have h := pass_identity_first conds solve st (st2 :: rest) f x hex hfresh (hF.tangent hL)
  have hdv : (reversePass conds solve (st :: st2 :: rest) (init n)).2.dv = 0 := by
    show (setAdjointLoad st.load (reversePass conds solve (st2 :: rest) (init n)).2).dv = 0
    simp only [setAdjointLoad, hv]
    exact pass_dv conds solve (st2 :: rest) (init n) hfresh.noVelo rfl
  have hda : (reversePass conds solve (st :: st2 :: rest) (init n)).2.da = -g := by
    show (setAdjointLoad st.load (reversePass conds solve (st2 :: rest) (init n)).2).da = -g
    simp only [setAdjointLoad, hst]
    show (setAdjointLoad st2.load (reversePass conds solve rest (init n)).2).da = -g
    funext i
    simp [setAdjointLoad, hg]
  dsimp only at h
  rw [hdv, hda, hv, hst, h0, predU_zero, predV_zero] at h
  have hd := hJ.deriv hF.du hF.dv hF.da
  rw [h] at hd
  have h2 := h'.unique hd
  simp only [Option.getD_none, neg_dotProduct, add_dotProduct, zero_dotProduct] at h2
  exact hga (by linarith)

/-- **Violation**: a second pass after `resetAdjointStates` starts from the sensitivities of the first; its result is off by these, acting on the
final state. -/
theorem C29_second_pass_wrong (conds : List (List (Fin n))) (solve : Mat n → Vec n → Vec n) (steps : List (Step n))
    (r : ℕ → Vec n × Vec n × ℝ → Vec n) (u v a : ℕ → ℝ → Vec n) (x : ℕ → Var n) (s0 : ℝ) (f : ℕ → Vec n)
    (J : (Fin steps.length → Vec n × Vec n × Vec n) → ℝ) (hex : Exact conds solve steps) (hfresh : Fresh steps)
    (hacc : ∀ st ∈ steps, st.load.ga = none) (h0 : nextDt steps = 0)
    (hF : Family conds steps r u v a x s0) (hL : Linearises steps r u a f s0) (hJ : Loads steps J (states steps.length u v a s0))
    (hstale : (reversePass conds solve steps (init n)).2.D ⬝ᵥ (x steps.length).u
      + (reversePass conds solve steps (init n)).2.V ⬝ᵥ (x steps.length).v ≠ 0) :
    let second := reversePass conds solve steps (resetAdjointStates (reversePass conds solve steps (init n)).2)
    ¬ HasDerivAt (fun s => J (states steps.length u v a s))
      (second.2.D ⬝ᵥ (x 0).u + second.2.V ⬝ᵥ (x 0).v + paramPart second.1 f) s0 := by
  intro second h'
  have h := pass_identity conds solve steps (resetAdjointStates (reversePass conds solve steps (init n)).2) f x hex hfresh
    ⟨pass_dv conds solve steps (init n) hfresh.noVelo rfl, pass_da conds solve steps (init n) hacc rfl⟩ (hF.tangent hL)
  rw [h0, predU_zero, predV_zero] at h
  have h2 := h'.unique (hJ.deriv hF.du hF.dv hF.da)
  apply hstale
  have h3 : objective (steps.map Step.load) x + ((reversePass conds solve steps (init n)).2.D ⬝ᵥ (x steps.length).u
      + (reversePass conds solve steps (init n)).2.V ⬝ᵥ (x steps.length).v) = second.2.D ⬝ᵥ (x 0).u + second.2.V ⬝ᵥ (x 0).v
        + paramPart second.1 f := by
    rw [← add_assoc]
    exact h
  linarith

/-- The quasi-static adjoint of one solve: the derivative of `J(u)` along any family of solutions of `r(u, s) = 0` near `s0` with prescribed constrained
dofs is the adjoint times the explicit variation of the residual. -/
theorem C29_quasistatic (conds : List (List (Fin n))) (solve : Mat n → Vec n → Vec n) (K : Mat n) (g f : Vec n) (J : Vec n → ℝ)
    (r : Vec n × ℝ → Vec n) (u : ℝ → Vec n) (u' : Vec n) (s0 : ℝ)
    (hex : ∀ b, mulVec (applyAll conds 0 (transpose K, 0)).1 (solve (applyAll conds 0 (transpose K, 0)).1 b) = b)
    (hu : HasDerivAt u u' s0) (hbc : ∀ i, Ess conds i → ∀ᶠ s in nhds s0, u s i = u s0 i) (hr : ∀ i, ¬ Ess conds i → ∀ᶠ s in nhds s0, r (u s, s) i = 0)
    (hL : ∃ L : (Vec n × ℝ) →L[ℝ] Vec n, HasFDerivAt r L (u s0, s0) ∧ ∀ du ds, L (du, ds) = mulVec K du + ds • f)
    (hJ : ∃ L : Vec n →L[ℝ] ℝ, HasFDerivAt J L (u s0) ∧ ∀ du, L du = g ⬝ᵥ du) :
    HasDerivAt (fun s => J (u s)) (quasistatic conds solve K g ⬝ᵥ f) s0 := by
  obtain ⟨L, hL1, hL2⟩ := hL
  obtain ⟨G, hG1, hG2⟩ := hJ
  have hsol := hex (applyAll conds 0 (transpose K, fun i => g i * (-1))).2
  rw [applyAll_fst conds _ 0 (fun i => g i * (-1))] at hsol
  obtain ⟨hl0, hl1⟩ := solve_spec conds _ (fun i => g i * (-1)) (quasistatic conds solve K g) hsol
  have hu0 : ∀ i, Ess conds i → u' i = 0 := by
    intro i hi
    exact (hasDerivAt_pi.1 hu i).unique ((hasDerivAt_const s0 (u s0 i)).congr_of_eventuallyEq (hbc i hi))
  have hres : ∀ i, ¬ Ess conds i → mulVec K u' i + f i = 0 := by
    intro i hi
    have hz : HasDerivAt (fun s => (u s, id s)) (u', 1) s0 := hu.prodMk (hasDerivAt_id s0)
    have h1 := hasDerivAt_pi.1 (HasFDerivAt.comp_hasDerivAt (f := fun s => (u s, id s)) s0 hL1 hz) i
    have h3 := h1.unique ((hasDerivAt_const s0 (0 : ℝ)).congr_of_eventuallyEq (hr i hi))
    rw [hL2] at h3
    simp only [Pi.add_apply, Pi.smul_apply, smul_eq_mul, one_mul] at h3
    exact h3
  have hd := hG1.comp_hasDerivAt s0 hu
  rw [hG2] at hd
  refine hd.congr_deriv ?_
  have e1 : g ⬝ᵥ u' = -(mulVecT K (quasistatic conds solve K g) ⬝ᵥ u') := by
    rw [← neg_dotProduct]
    apply Finset.sum_congr rfl
    intro i _
    by_cases hi : Ess conds i
    · rw [hu0 i hi]; ring
    · have h := hl1 i hi
      have e : mulVec (transpose K) (quasistatic conds solve K g) i = mulVecT K (quasistatic conds solve K g) i := rfl
      rw [e] at h
      rw [Pi.neg_apply, h]
      ring
  have e2 : quasistatic conds solve K g ⬝ᵥ (mulVec K u' + f) = 0 := by
    apply Finset.sum_eq_zero
    intro i _
    by_cases hi : Ess conds i
    · rw [hl0 i hi, zero_mul]
    · rw [Pi.add_apply, hres i hi, mul_zero]
  rw [dotProduct_add, ← mulVecT_dot] at e2
  linarith

/-! ## Concrete instances

Two dofs, the second one constrained; `r(u, a) = a₀ + a₁ + u₀ + u₁` in both rows, so the free dof is a unit oscillator. -/

def exMat : Mat 2 := fun _ _ => 1
def exStep (dt : ℝ) (l : Load 2) : Step 2 := ⟨dt, exMat, exMat, l⟩
def exSolve (A : Mat 2) (b : Vec 2) : Vec 2 := fun i => b i / A i i
def exConds : List (List (Fin 2)) := [[1]]
def exCurve (c : ℕ → ℝ) (k : ℕ) (s : ℝ) : Vec 2 := ![c k * s, 0]
def exVar (cu cv ca : ℕ → ℝ) (k : ℕ) : Var 2 := ⟨![cu k, 0], ![cv k, 0], ![ca k, 0]⟩
def exRes (_ : ℕ) (z : Vec 2 × Vec 2 × ℝ) : Vec 2 := mulVec exMat z.1 + mulVec exMat z.2.1

theorem ex_ess (i : Fin 2) : Ess exConds i ↔ i = 1 := by simp [Ess, exConds]

theorem ex_deriv (c : ℕ → ℝ) (k : ℕ) (s : ℝ) : HasDerivAt (exCurve c k) ![c k, 0] s := by
  rw [hasDerivAt_pi]
  intro i
  fin_cases i
  · simpa [exCurve] using (hasDerivAt_id s).const_mul (c k)
  · simpa [exCurve] using hasDerivAt_const s (0 : ℝ)

theorem ex_exact (steps : List (Step 2)) (h : ∀ st ∈ steps, ∃ dt l, st = exStep dt l) : Exact exConds exSolve steps := by
  intro st hst b
  obtain ⟨dt, l, rfl⟩ := h st hst
  have hm : sysMat exConds (exStep dt l) = fun i j => if i = 0 ∧ j = 0 then 1 + 1 / 4 * dt * dt else if i = j then 1 else 0 := by
    unfold sysMat
    rw [(Serac.C26.applyAll_spec exConds 0 _ 0).1]
    funext i j
    fin_cases i <;> fin_cases j <;> simp [elim, exConds, exStep, transpose, addMat, exMat]
  rw [hm]
  have hpos : (1 + 1 / 4 * dt * dt : ℝ) ≠ 0 := by nlinarith [mul_self_nonneg dt]
  funext i
  fin_cases i
  · simp [mulVec, exSolve]
    field_simp
  · simp [mulVec, exSolve]

theorem mulVec_isLinear (A : Mat n) : IsLinearMap ℝ (mulVec A) := ⟨mulVec_add A, fun c x => mulVec_smul A c x⟩

theorem ex_linearises (steps : List (Step 2)) (h : ∀ st ∈ steps, ∃ dt l, st = exStep dt l) (u a : ℕ → ℝ → Vec 2) (s0 : ℝ) :
    Linearises steps exRes u a (fun _ => 0) s0 := by
  intro k hk
  obtain ⟨dt, l, hst⟩ := h steps[k] (List.getElem_mem hk)
  let A : Vec 2 →L[ℝ] Vec 2 := LinearMap.toContinuousLinearMap ((mulVec_isLinear exMat).mk' _)
  let L : (Vec 2 × Vec 2 × ℝ) →L[ℝ] Vec 2 := A.comp (ContinuousLinearMap.fst ℝ _ _) +
    A.comp ((ContinuousLinearMap.fst ℝ _ _).comp (ContinuousLinearMap.snd ℝ _ _))
  refine ⟨L, ?_, ?_⟩
  · have hr : exRes k = L := rfl
    rw [hr]
    exact L.hasFDerivAt
  · intro du da ds
    rw [hst]
    show mulVec exMat du + mulVec exMat da = _
    simp [exStep]

/-- The linear objective given by the loads. -/
def exJ (steps : List (Step n)) (z : Fin steps.length → Vec n × Vec n × Vec n) : ℝ :=
  ∑ k, ((steps.get k).load.gu ⬝ᵥ (z k).1 + ((steps.get k).load.gv.getD 0) ⬝ᵥ (z k).2.1 + ((steps.get k).load.ga.getD 0) ⬝ᵥ (z k).2.2)

theorem exJ_isLinear (steps : List (Step n)) : IsLinearMap ℝ (exJ steps) := by
  constructor
  · intro x y
    rw [exJ, exJ, exJ, ← Finset.sum_add_distrib]
    refine Finset.sum_congr rfl fun k _ => ?_
    simp only [Pi.add_apply, Prod.fst_add, Prod.snd_add, dotProduct_add]
    ring
  · intro c x
    rw [exJ, exJ, smul_eq_mul, Finset.mul_sum]
    refine Finset.sum_congr rfl fun k _ => ?_
    simp only [Pi.smul_apply, Prod.smul_fst, Prod.smul_snd, dotProduct_smul, smul_eq_mul]
    ring

theorem exJ_loads (steps : List (Step n)) (z : Fin steps.length → Vec n × Vec n × Vec n) : Loads steps (exJ steps) z :=
  ⟨LinearMap.toContinuousLinearMap ((exJ_isLinear steps).mk' _),
    (LinearMap.toContinuousLinearMap ((exJ_isLinear steps).mk' _)).hasFDerivAt, fun _ => rfl⟩

theorem ex_family (steps : List (Step 2)) (cu cv ca : ℕ → ℝ)
    (hu : ∀ k (h : k < steps.length), cu (k + 1) = cu k + steps[k].dt * cv k + 1 / 4 * steps[k].dt ^ 2 * (ca k + ca (k + 1)))
    (hv : ∀ k (h : k < steps.length), cv (k + 1) = cv k + 1 / 2 * steps[k].dt * (ca k + ca (k + 1)))
    (hr : ∀ k, k < steps.length → cu (k + 1) + ca (k + 1) = 0) (s0 : ℝ) :
    Family exConds steps exRes (exCurve cu) (exCurve cv) (exCurve ca) (exVar cu cv ca) s0 := by
  refine ⟨?_, ?_, ?_, ?_, fun k => ex_deriv cu k s0, fun k => ex_deriv cv k s0, fun k => ex_deriv ca k s0⟩
  · intro k hk s
    funext i
    fin_cases i
    · simp only [exCurve, hu k hk, Pi.add_apply, Pi.smul_apply, smul_eq_mul]
      simp
      ring
    · simp [exCurve]
  · intro k hk s
    funext i
    fin_cases i
    · simp only [exCurve, hv k hk, Pi.add_apply, Pi.smul_apply, smul_eq_mul]
      simp
      ring
    · simp [exCurve]
  · intro k _ i hi s
    rw [(ex_ess i).1 hi]
    simp [exCurve]
  · intro k hk i _ s
    simp only [exRes, mulVec, exMat, exCurve, Pi.add_apply, Fin.sum_univ_two]
    simp only [Matrix.cons_val_zero, Matrix.cons_val_one, one_mul, add_zero]
    rw [← add_mul, hr k hk, zero_mul]

/-- `C29_quasistatic` applies: `u₀ = 2 s` solves `u₀ + u₁ - 2 s = 0` with `u₁ = 0`; `J(u) = u₀`. -/
example : ∃ (r : Vec 2 × ℝ → Vec 2) (u : ℝ → Vec 2) (J : Vec 2 → ℝ), HasDerivAt u ![2, 0] 0 ∧ (∀ i, Ess exConds i → ∀ s, u s i = u 0 i) ∧
    (∀ i, ¬ Ess exConds i → ∀ s, r (u s, s) i = 0) ∧
    (∃ L : (Vec 2 × ℝ) →L[ℝ] Vec 2, HasFDerivAt r L (u 0, 0) ∧ ∀ du ds, L (du, ds) = mulVec exMat du + ds • ![-2, -2]) ∧
    (∃ L : Vec 2 →L[ℝ] ℝ, HasFDerivAt J L (u 0) ∧ ∀ du, L du = ![1, 0] ⬝ᵥ du) := by
  let A : Vec 2 →L[ℝ] Vec 2 := LinearMap.toContinuousLinearMap ((mulVec_isLinear exMat).mk' _)
  let L : (Vec 2 × ℝ) →L[ℝ] Vec 2 := A.comp (ContinuousLinearMap.fst ℝ _ _) +
    (ContinuousLinearMap.snd ℝ (Vec 2) ℝ).smulRight (![-2, -2] : Vec 2)
  refine ⟨fun z => L z, exCurve (fun _ => 2) 0, fun u => ContinuousLinearMap.proj (R := ℝ) (φ := fun _ : Fin 2 => ℝ) 0 u, ex_deriv _ _ _,
    ?_, ?_, ⟨L, L.hasFDerivAt, fun _ _ => rfl⟩, ⟨ContinuousLinearMap.proj 0, ContinuousLinearMap.hasFDerivAt _, ?_⟩⟩
  · intro i hi s
    rw [(ex_ess i).1 hi]
    simp [exCurve]
  · intro i hi s
    show mulVec exMat (exCurve (fun _ => 2) 0 s) i + s * (![-2, -2] : Vec 2) i = 0
    have h0 : i = 0 := by
      have : i ≠ 1 := fun h => hi ((ex_ess i).2 h)
      omega
    rw [h0]
    simp [mulVec, exMat, exCurve]
    ring
  · intro du
    simp [dotProduct]

/-- Initial displacement `s`: displacement `s`, then after a unit step `3/5 s`. -/
def cu1 : ℕ → ℝ
  | 0 => 1
  | 1 => 1
  | _ => 3 / 5
def cv1 : ℕ → ℝ
  | 0 => 0
  | 1 => 0
  | _ => -4 / 5
def ca1 : ℕ → ℝ
  | 0 => 0
  | 1 => -1
  | _ => -3 / 5

def load0 : Load 2 := ⟨0, none, none⟩
def steps1 : List (Step 2) := [exStep 0 load0, exStep 1 ⟨![1, 0], none, none⟩]
def steps2 : List (Step 2) := [exStep 0 load0, exStep 1 ⟨0, none, some ![1, 0]⟩]

theorem steps1_ex : ∀ st ∈ steps1, ∃ dt l, st = exStep dt l := by
  intro st h
  rcases List.mem_cons.1 h with rfl | h
  · exact ⟨_, _, rfl⟩
  · rcases List.mem_cons.1 h with rfl | h
    · exact ⟨_, _, rfl⟩
    · cases h

theorem steps2_ex : ∀ st ∈ steps2, ∃ dt l, st = exStep dt l := by
  intro st h
  rcases List.mem_cons.1 h with rfl | h
  · exact ⟨_, _, rfl⟩
  · rcases List.mem_cons.1 h with rfl | h
    · exact ⟨_, _, rfl⟩
    · cases h

theorem family1 (l1 l2 : Load 2) (s0 : ℝ) :
    Family exConds [exStep 0 l1, exStep 1 l2] exRes (exCurve cu1) (exCurve cv1) (exCurve ca1) (exVar cu1 cv1 ca1) s0 := by
  refine ex_family _ _ _ _ ?_ ?_ ?_ s0
  · intro k hk
    match k, hk with
    | 0, _ => simp [cu1, cv1, ca1, exStep]
    | 1, _ => norm_num [cu1, cv1, ca1, exStep]
  · intro k hk
    match k, hk with
    | 0, _ => simp [cv1, ca1, exStep]
    | 1, _ => norm_num [cu1, cv1, ca1, exStep]
  · intro k hk
    match k, hk with
    | 0, _ => simp [ca1, show cu1 1 = 1 from rfl]
    | 1, _ => norm_num [cu1, ca1]

theorem fresh1 : Fresh steps1 := by
  refine ⟨?_, ?_⟩
  · intro st h
    rcases List.mem_cons.1 h with rfl | h
    · exact Or.inl rfl
    · rcases List.mem_cons.1 h with rfl | h
      · exact Or.inl rfl
      · cases h
  · simp [steps1, exStep, load0]

/-- `C29_gradient_partial` applies: a zero step and a unit step, objective the final displacement. -/
example : Exact exConds exSolve steps1 ∧ Fresh steps1 ∧ nextDt steps1 = 0 ∧
    Family exConds steps1 exRes (exCurve cu1) (exCurve cv1) (exCurve ca1) (exVar cu1 cv1 ca1) 0 ∧
    Linearises steps1 exRes (exCurve cu1) (exCurve ca1) (fun _ => 0) 0 ∧
    Loads steps1 (exJ steps1) (states steps1.length (exCurve cu1) (exCurve cv1) (exCurve ca1) 0) :=
  ⟨ex_exact _ steps1_ex, fresh1, rfl, family1 _ _ _, ex_linearises _ steps1_ex _ _ _, exJ_loads _ _⟩

/-- A 2×2 system with the second dof eliminated. -/
theorem ex_integrate (dt dt2 : ℝ) (s : State 2) :
    let s' := adjointIntegrate exConds exSolve dt dt2 exMat exMat s
    let rhs := s.da 0 + 1 / 2 * dt * s.dv 0 + 1 / 4 * dt * dt * s.du 0 + (-dt2 * (1 / 2) - dt * (1 / 2)) * s.V 0 +
      (-dt2 * dt2 * (1 / 4) - dt * dt * (1 / 4) - dt * dt2 * (1 / 2)) * s.D 0
    s'.lam 0 = rhs / (1 + 1 / 4 * dt * dt) ∧ s'.lam 1 = 0 ∧ s'.V = s.V + dt2 • s.D ∧
      (∀ i, s'.D i = rhs / (1 + 1 / 4 * dt * dt) + s.D i - s.du i) := by
  intro s' rhs
  obtain ⟨b, hb⟩ : ∃ b : Vec 2, b = axpy (axpy (axpy (axpy s.da (1 / 2 * dt) s.dv) (1 / 4 * dt * dt) s.du)
      (-dt2 * (1 - 1 / 2) - dt * (1 / 2)) s.V) (-dt2 * dt2 * (1 / 2 - 1 / 4) - dt * dt * (1 / 4) - dt * dt2 * (1 / 2)) s.D := ⟨_, rfl⟩
  have hl : s'.lam = exSolve (applyAll exConds 0 (transpose (addMat exMat (1 / 4 * dt * dt) exMat), b)).1
      (applyAll exConds 0 (transpose (addMat exMat (1 / 4 * dt * dt) exMat), b)).2 := by rw [hb]; rfl
  obtain ⟨h1, h2⟩ := Serac.C26.applyAll_spec exConds 0 (transpose (addMat exMat (1 / 4 * dt * dt) exMat)) b
  have hb0 : b 0 = rhs := by
    rw [hb]
    simp only [axpy, rhs]
    ring
  have hl0 : s'.lam 0 = rhs / (1 + 1 / 4 * dt * dt) := by
    rw [hl, exSolve, h1, h2, ← hb0]
    simp [exConds, elim, transpose, addMat, exMat]
  have hl1 : s'.lam 1 = 0 := by
    rw [hl, exSolve, h1, h2]
    simp [exConds]
  refine ⟨hl0, hl1, rfl, fun i => ?_⟩
  show mulVecT exMat s'.lam i + s.D i + (-1) * s.du i = _
  simp only [mulVecT, exMat, Fin.sum_univ_two, hl0, hl1]
  ring

/-- Initial velocity `s`, first step of unit size. -/
def cu3 : ℕ → ℝ
  | 0 => 0
  | _ => 4 / 5
def cv3 : ℕ → ℝ
  | 0 => 1
  | _ => 3 / 5
def ca3 : ℕ → ℝ
  | 0 => 0
  | _ => -4 / 5

def steps3 : List (Step 2) := [exStep 1 ⟨![1, 0], none, none⟩]

theorem steps3_ex : ∀ st ∈ steps3, ∃ dt l, st = exStep dt l := by
  intro st h
  rcases List.mem_cons.1 h with rfl | h
  · exact ⟨_, _, rfl⟩
  · cases h

/-- `C29_first_step_wrong` applies to a single unit step. -/
example : Exact exConds exSolve steps3 ∧ Fresh steps3 ∧ nextDt steps3 ≠ 0 ∧ (exVar cu3 cv3 ca3 0).a = 0 ∧
    (reversePass exConds exSolve steps3 (init 2)).2.D ⬝ᵥ (exVar cu3 cv3 ca3 0).v ≠ 0 ∧
    Family exConds steps3 exRes (exCurve cu3) (exCurve cv3) (exCurve ca3) (exVar cu3 cv3 ca3) 0 ∧
    Linearises steps3 exRes (exCurve cu3) (exCurve ca3) (fun _ => 0) 0 ∧
    Loads steps3 (exJ steps3) (states steps3.length (exCurve cu3) (exCurve cv3) (exCurve ca3) 0) := by
  refine ⟨ex_exact _ steps3_ex, ⟨?_, by simp [steps3]⟩, ?_, ?_, ?_, ?_, ex_linearises _ steps3_ex _ _ _, exJ_loads _ _⟩
  · intro st h
    rcases List.mem_cons.1 h with rfl | h
    · exact Or.inl rfl
    · cases h
  · simp [nextDt, steps3, exStep]
  · simp [exVar, ca3]
  · have h := (ex_integrate 1 0 (setAdjointLoad ⟨![1, 0], none, none⟩ (init 2))).2.2.2 0
    have h' : (reversePass exConds exSolve steps3 (init 2)).2.D 0 = 4 / 5 := by
      refine h.trans ?_
      norm_num [setAdjointLoad, init]
    simp only [dotProduct, Fin.sum_univ_two, h', exVar, cv3]
    norm_num
  · refine ex_family _ _ _ _ ?_ ?_ ?_ 0
    · intro k hk
      match k, hk with
      | 0, _ => norm_num [steps3, cu3, cv3, ca3, exStep]
    · intro k hk
      match k, hk with
      | 0, _ => norm_num [steps3, cv3, ca3, exStep]
    · intro k hk
      match k, hk with
      | 0, _ => norm_num [cu3, ca3]

def steps4 : List (Step 2) := [exStep 0 ⟨0, some ![1, 0], some 0⟩]
/-- Initial velocity `s`, one step of size zero. -/
def cv4 : ℕ → ℝ := fun _ => 1

theorem steps4_ex : ∀ st ∈ steps4, ∃ dt l, st = exStep dt l := by
  intro st h
  rcases List.mem_cons.1 h with rfl | h
  · exact ⟨_, _, rfl⟩
  · cases h

/-- `C29_velocity_load` and `C29_velocity_load_wrong` apply. -/
example : Exact exConds exSolve steps4 ∧ Fresh ([] : List (Step 2)) ∧ (![1, 0] : Vec 2) ⬝ᵥ (exVar 0 cv4 0 0).v ≠ 0 ∧
    Family exConds steps4 exRes (exCurve 0) (exCurve cv4) (exCurve 0) (exVar 0 cv4 0) 0 ∧
    Linearises steps4 exRes (exCurve 0) (exCurve 0) (fun _ => 0) 0 ∧
    Loads steps4 (exJ steps4) (states steps4.length (exCurve 0) (exCurve cv4) (exCurve 0) 0) := by
  refine ⟨ex_exact _ steps4_ex, ⟨fun _ h => (by cases h), List.Pairwise.nil⟩, ?_, ?_, ex_linearises _ steps4_ex _ _ _, exJ_loads _ _⟩
  · simp [dotProduct, exVar, cv4]
  · refine ex_family _ _ _ _ ?_ ?_ ?_ 0
    · intro k hk
      match k, hk with
      | 0, _ => simp [steps4, exStep]
    · intro k hk
      match k, hk with
      | 0, _ => simp [steps4, cv4, exStep]
    · intro k hk
      simp

/-- `C29_stale_load_wrong` applies: acceleration load at the last step only. -/
example : Exact exConds exSolve steps2 ∧ Fresh (steps2.tail) ∧ (![1, 0] : Vec 2) ⬝ᵥ (exVar cu1 cv1 ca1 1).a ≠ 0 ∧
    Family exConds steps2 exRes (exCurve cu1) (exCurve cv1) (exCurve ca1) (exVar cu1 cv1 ca1) 0 ∧
    Linearises steps2 exRes (exCurve cu1) (exCurve ca1) (fun _ => 0) 0 ∧
    Loads steps2 (exJ steps2) (states steps2.length (exCurve cu1) (exCurve cv1) (exCurve ca1) 0) := by
  refine ⟨ex_exact _ steps2_ex, ⟨?_, by simp [steps2]⟩, ?_, family1 _ _ _, ex_linearises _ steps2_ex _ _ _, exJ_loads _ _⟩
  · intro st h
    rcases List.mem_cons.1 h with rfl | h
    · exact Or.inl rfl
    · cases h
  · simp [dotProduct, exVar, ca1]

/-- `C29_second_pass_wrong` applies to the motion of the first example. -/
example : (∀ st ∈ steps1, st.load.ga = none) ∧ (reversePass exConds exSolve steps1 (init 2)).2.D ⬝ᵥ (exVar cu1 cv1 ca1 steps1.length).u
      + (reversePass exConds exSolve steps1 (init 2)).2.V ⬝ᵥ (exVar cu1 cv1 ca1 steps1.length).v ≠ 0 := by
  refine ⟨by simp [steps1, exStep, load0], ?_⟩
  have h1 := ex_integrate 1 0 (setAdjointLoad ⟨![1, 0], none, none⟩ (init 2))
  have h2 := ex_integrate 0 1 (setAdjointLoad load0
    (adjointIntegrate exConds exSolve 1 0 exMat exMat (setAdjointLoad ⟨![1, 0], none, none⟩ (init 2))))
  obtain ⟨s1, hs1⟩ : ∃ s1, s1 = adjointIntegrate exConds exSolve 1 0 exMat exMat (setAdjointLoad ⟨![1, 0], none, none⟩ (init 2)) := ⟨_, rfl⟩
  rw [← hs1] at h1 h2
  have hD1 : s1.D 0 = 4 / 5 := by
    rw [h1.2.2.2 0]
    norm_num [setAdjointLoad, init]
  have hV1 : s1.V 0 = 0 := by
    rw [h1.2.2.1]
    simp [setAdjointLoad, init]
  have ha1 : s1.da 0 = 0 := by
    rw [hs1]
    rfl
  have hd1 : s1.dv 0 = 0 := by
    rw [hs1]
    rfl
  have hp : (reversePass exConds exSolve steps1 (init 2)).2 = adjointIntegrate exConds exSolve 0 1 exMat exMat (setAdjointLoad load0 s1) := by
    rw [hs1]
    rfl
  rw [hp]
  have hD : (adjointIntegrate exConds exSolve 0 1 exMat exMat (setAdjointLoad load0 s1)).D 0 = 3 / 5 := by
    rw [h2.2.2.2 0]
    norm_num [setAdjointLoad, load0, hD1, hV1, ha1, hd1]
  have hV : (adjointIntegrate exConds exSolve 0 1 exMat exMat (setAdjointLoad load0 s1)).V 0 = 4 / 5 := by
    rw [h2.2.2.1]
    simp [setAdjointLoad, hD1, hV1]
  simp only [dotProduct, Fin.sum_univ_two, hD, hV, exVar, steps1, List.length_cons, List.length_nil, cu1, cv1]
  norm_num

end Serac.C29
