import Verif.Props.C29
/-!
# C30: the transient thermal adjoint gives the exact gradient

Spec.  A family of backward-Euler solutions depending on a real parameter `s`: `T' = T + dt R'` and `r(T', R', s) = 0` on the free dofs, with any
nonlinear residual; constrained temperatures are prescribed.  The objective is any differentiable function of all temperatures and temperature
rates.  The claim: its derivative is the returned initial-temperature sensitivity times the variation of the initial temperature, plus the
adjoint temperatures times the explicit variation of the residuals.

The code multiplies by `M` where `M^T` is needed, so symmetry of `M` (true for the Galerkin capacity matrix) is a hypothesis
(`C30_nonsymmetric_wrong` shows it is needed).  Violations found: a rate load left out keeps its previous value (`C30_stale_load_wrong`); a second
pass after `resetAdjointStates` starts from the first one's result (`C30_second_pass_wrong`); a step of size zero divides by zero
(`C30_zero_step_wrong`).
-/

noncomputable section
namespace Serac.C30
open Serac.Elim
open Serac.Adj
open Serac.C29 (Ess mulVec_add mulVec_smul mulVecT_dot applyAll_fst solve_spec adjoint_step paramPart)
open scoped Matrix

variable {n : ℕ}

/-! ## Spec -/

/-- Variation of a state: temperature and rate. -/
structure Var (n : ℕ) where
  T : Vec n
  R : Vec n

/-- Linearised backward-Euler step. -/
structure Tangent (E : Fin n → Prop) (dt : ℝ) (M K : Mat n) (f : Vec n) (x y : Var n) : Prop where
  euler : y.T = x.T + dt • y.R
  bc : ∀ i, E i → y.R i = 0
  res : ∀ i, ¬ E i → mulVec M y.R i + mulVec K y.T i + f i = 0

/-- Variation of the objective over the steps. -/
def objective (g : List (HeatLoad n)) (x : ℕ → Var n) : ℝ :=
  match g with
  | [] => 0
  | l :: ls => l.gT ⬝ᵥ (x 1).T + (l.gr.getD 0) ⬝ᵥ (x 1).R + objective ls (fun k => x (k + 1))

def sysMat (conds : List (List (Fin n))) (st : HeatStep n) : Mat n :=
  (applyAll conds 0 (transpose (addMat st.M st.dt st.K), 0)).1

/-- The linear solver is exact for the systems it is given. -/
def Exact (conds : List (List (Fin n))) (solve : Mat n → Vec n → Vec n) (steps : List (HeatStep n)) : Prop :=
  ∀ st ∈ steps, ∀ b, mulVec (sysMat conds st) (solve (sysMat conds st) b) = b

def Symmetric (M : Mat n) : Prop := ∀ i j, M i j = M j i

/-- A rate load is never left out once one was given (in the order of the reverse pass). -/
def Fresh (steps : List (HeatStep n)) : Prop := steps.Pairwise fun st later => st.load.gr = none → later.load.gr = none

def TangentMotion (conds : List (List (Fin n))) (steps : List (HeatStep n)) (f : ℕ → Vec n) (x : ℕ → Var n) : Prop :=
  ∀ k (h : k < steps.length), Tangent (Ess conds) steps[k].dt steps[k].M steps[k].K (f k) (x k) (x (k + 1))

theorem TangentMotion.tail {conds : List (List (Fin n))} {st : HeatStep n} {rest : List (HeatStep n)} {f : ℕ → Vec n} {x : ℕ → Var n}
    (h : TangentMotion conds (st :: rest) f x) : TangentMotion conds rest (fun k => f (k + 1)) (fun k => x (k + 1)) :=
  fun k hk => h (k + 1) (by simpa using hk)

/-- One reverse step. -/
theorem step_identity (conds : List (List (Fin n))) (solve : Mat n → Vec n → Vec n) (dt : ℝ) (M K : Mat n) (s s' : HeatState n) (f : Vec n)
    (x y : Var n)
    (hex : ∀ b, mulVec (applyAll conds 0 (transpose (addMat M dt K), 0)).1 (solve (applyAll conds 0 (transpose (addMat M dt K), 0)).1 b) = b)
    (hstep : heatReverse conds solve dt M K s = some s') (ht : Tangent (Ess conds) dt M K f x y) (hx : ∀ i, Ess conds i → x.T i = 0) :
    s.D ⬝ᵥ y.T - s.dT ⬝ᵥ y.T - s.dr ⬝ᵥ y.R = s'.D ⬝ᵥ x.T + s'.lam ⬝ᵥ f + (1 / dt) * ((mulVec M s'.lam - mulVecT M s'.lam) ⬝ᵥ x.T) := by
  have hdt : dt ≠ 0 := by
    intro h
    simp [heatReverse, h] at hstep
  obtain ⟨rhs, hrhs⟩ : ∃ rhs : Vec n, rhs = dt • s.dT + s.dr - dt • s.D := ⟨_, rfl⟩
  obtain ⟨lam, hlam⟩ : ∃ lam, lam = solve (applyAll conds 0 (transpose (addMat M dt K), rhs)).1
      (applyAll conds 0 (transpose (addMat M dt K), rhs)).2 := ⟨_, rfl⟩
  have hs' : s' = { s with lam := lam, D := axpy (fun i => mulVec M lam i * (-1 / dt)) (1 / dt) s.dr } := by
    have e : axpy (axpy (fun i => s.dT i * dt) 1 s.dr) (-dt) s.D = rhs := by
      rw [hrhs]
      funext i
      simp only [axpy, Pi.add_apply, Pi.sub_apply, Pi.smul_apply, smul_eq_mul]
      ring
    simp only [heatReverse, if_neg hdt, e, ← hlam] at hstep
    exact (Option.some.inj hstep).symm
  have hsol := hex (applyAll conds 0 (transpose (addMat M dt K), rhs)).2
  rw [applyAll_fst conds _ 0 rhs, ← hlam] at hsol
  obtain ⟨hl0, hl1⟩ := solve_spec conds _ rhs lam hsol
  have hkey := adjoint_step (Ess conds) dt M K f lam rhs x.T y.R hl0 hl1 ht.bc (fun i hi => by rw [← ht.euler]; exact ht.res i hi)
  have hT : mulVecT M lam ⬝ᵥ x.T + dt * (mulVecT K lam ⬝ᵥ x.T) = rhs ⬝ᵥ x.T := by
    have e : mulVecT M lam ⬝ᵥ x.T + dt * (mulVecT K lam ⬝ᵥ x.T) = mulVec (transpose (addMat M dt K)) lam ⬝ᵥ x.T := by
      simp only [dotProduct, Finset.mul_sum, ← Finset.sum_add_distrib]
      refine Finset.sum_congr rfl fun i _ => ?_
      have : mulVec (transpose (addMat M dt K)) lam i = mulVecT M lam i + dt * mulVecT K lam i := by
        simp only [mulVec, mulVecT, transpose, addMat, Finset.mul_sum, ← Finset.sum_add_distrib]
        exact Finset.sum_congr rfl fun j _ => by ring
      rw [this]
      ring
    rw [e]
    refine Finset.sum_congr rfl fun i _ => ?_
    by_cases hi : Ess conds i
    · rw [hx i hi, mul_zero, mul_zero]
    · rw [hl1 i hi]
  have hD : s'.D = (-1 / dt) • mulVec M lam + (1 / dt) • s.dr := by
    rw [hs']
    funext i
    simp only [axpy, Pi.add_apply, Pi.smul_apply, smul_eq_mul]
    ring
  have hl : s'.lam = lam := by rw [hs']
  rw [hD, hl, ht.euler]
  rw [hrhs] at hkey hT
  simp only [add_dotProduct, sub_dotProduct, smul_dotProduct, dotProduct_add, dotProduct_smul, smul_eq_mul] at hkey hT ⊢
  have hi : dt * (1 / dt) = 1 := by field_simp
  have hi' : (-1 / dt) = -(1 / dt) := by ring
  rw [hi']
  have h1 : (1 / dt) * (mulVecT M lam ⬝ᵥ x.T) + mulVecT K lam ⬝ᵥ x.T = s.dT ⬝ᵥ x.T + (1 / dt) * (s.dr ⬝ᵥ x.T) - s.D ⬝ᵥ x.T := by
    have := congrArg (fun t => (1 / dt) * t) hT
    simp only [mul_add, mul_sub, ← mul_assoc, mul_comm (1 / dt) dt, hi, one_mul] at this
    linarith
  linarith

theorem pass_cons {conds : List (List (Fin n))} {solve : Mat n → Vec n → Vec n} {st : HeatStep n} {rest : List (HeatStep n)}
    {s : HeatState n} {p : List (Vec n) × HeatState n} (h : heatPass conds solve (st :: rest) s = some p) :
    ∃ q s2, heatPass conds solve rest s = some q ∧ heatReverse conds solve st.dt st.M st.K (heatSetAdjointLoad st.load q.2) = some s2 ∧
      p = (s2.lam :: q.1, s2) := by
  rw [heatPass] at h
  cases hq : heatPass conds solve rest s with
  | none => rw [hq] at h; cases h
  | some q =>
    rw [hq, Option.bind_some] at h
    obtain ⟨ls, s1⟩ := q
    dsimp only at h
    cases hr : heatReverse conds solve st.dt st.M st.K (heatSetAdjointLoad st.load s1) with
    | none => rw [hr] at h; cases h
    | some s2 =>
      rw [hr] at h
      exact ⟨(ls, s1), s2, rfl, hr, (Option.some.inj h).symm⟩

theorem reverse_keeps {conds : List (List (Fin n))} {solve : Mat n → Vec n → Vec n} {dt : ℝ} {M K : Mat n} {s s' : HeatState n}
    (h : heatReverse conds solve dt M K s = some s') : s'.dT = s.dT ∧ s'.dr = s.dr := by
  rw [heatReverse] at h
  dsimp only at h
  split_ifs at h
  rw [← Option.some.inj h]
  exact ⟨rfl, rfl⟩

theorem pass_dr {conds : List (List (Fin n))} {solve : Mat n → Vec n → Vec n} (steps : List (HeatStep n)) {s : HeatState n}
    {p : List (Vec n) × HeatState n} (hp : heatPass conds solve steps s = some p) (h : ∀ st ∈ steps, st.load.gr = none) (hs : s.dr = 0) :
    p.2.dr = 0 := by
  induction steps generalizing p with
  | nil =>
    rw [heatPass] at hp
    rw [← Option.some.inj hp]
    exact hs
  | cons st rest ih =>
    obtain ⟨q, s2, hq, hr, rfl⟩ := pass_cons hp
    have ih := ih hq fun t ht => h t (List.mem_cons_of_mem _ ht)
    show s2.dr = 0
    rw [(reverse_keeps hr).2]
    simp only [heatSetAdjointLoad, h st List.mem_cons_self, ih]

theorem sym_mulVec {M : Mat n} (h : Symmetric M) (x : Vec n) : mulVec M x = mulVecT M x := by
  funext i
  simp only [mulVec, mulVecT]
  exact Finset.sum_congr rfl fun j _ => by rw [h i j]

/-- The pass from any state, up to what the first step (the last one reversed) adds when it leaves out its rate load. -/
theorem pass_identity_first (conds : List (List (Fin n))) (solve : Mat n → Vec n → Vec n) (st : HeatStep n) (rest : List (HeatStep n))
    (s : HeatState n) (q : List (Vec n) × HeatState n) (s2 : HeatState n) (f : ℕ → Vec n) (x : ℕ → Var n)
    (hr : heatReverse conds solve st.dt st.M st.K (heatSetAdjointLoad st.load q.2) = some s2) (hex : Exact conds solve (st :: rest)) (ht : TangentMotion conds (st :: rest) f x) (hx : ∀ i, Ess conds i → (x 0).T i = 0)
    (ih : objective (rest.map HeatStep.load) (fun k => x (k + 1)) + s.D ⬝ᵥ (x (rest.length + 1)).T =
      q.2.D ⬝ᵥ (x 1).T + paramPart q.1 (fun k => f (k + 1))) :
    objective ((st :: rest).map HeatStep.load) x + s.D ⬝ᵥ (x (rest.length + 1)).T =
      s2.D ⬝ᵥ (x 0).T + paramPart (s2.lam :: q.1) f + (1 / st.dt) * ((mulVec st.M s2.lam - mulVecT st.M s2.lam) ⬝ᵥ (x 0).T)
        + (s2.dr + st.load.gr.getD 0) ⬝ᵥ (x 1).R := by
  have hstep := step_identity conds solve st.dt st.M st.K _ s2 (f 0) (x 0) (x 1) (hex st List.mem_cons_self) hr (ht 0 (by simp)) hx
  have hdT : (heatSetAdjointLoad st.load q.2).dT = -st.load.gT := by
    funext i
    simp [heatSetAdjointLoad]
  have hD : (heatSetAdjointLoad st.load q.2).D = q.2.D := rfl
  rw [hdT, ← (reverse_keeps hr).2, hD] at hstep
  simp only [List.map_cons, objective, paramPart]
  simp only [neg_dotProduct, add_dotProduct] at hstep ⊢
  linarith

theorem pass_identity (conds : List (List (Fin n))) (solve : Mat n → Vec n → Vec n) (steps : List (HeatStep n)) (s : HeatState n)
    (p : List (Vec n) × HeatState n) (f : ℕ → Vec n) (x : ℕ → Var n) (hp : heatPass conds solve steps s = some p)
    (hex : Exact conds solve steps) (hsym : ∀ st ∈ steps, Symmetric st.M) (hf : Fresh steps) (hs : s.dr = 0)
    (ht : TangentMotion conds steps f x) (hx : ∀ i, Ess conds i → (x 0).T i = 0) :
    objective (steps.map HeatStep.load) x + s.D ⬝ᵥ (x steps.length).T = p.2.D ⬝ᵥ (x 0).T + paramPart p.1 f := by
  induction steps generalizing f x p with
  | nil =>
    rw [heatPass] at hp
    rw [← Option.some.inj hp]
    simp [objective, paramPart]
  | cons st rest ih =>
    obtain ⟨q, s2, hq, hr, rfl⟩ := pass_cons hp
    have hx1 : ∀ i, Ess conds i → (x 1).T i = 0 := by
      intro i hi
      have h := ht 0 (by simp)
      rw [h.euler, Pi.add_apply, Pi.smul_apply, hx i hi, h.bc i hi]
      simp
    have ih := ih q (fun k => f (k + 1)) (fun k => x (k + 1)) hq (fun t h => hex t (List.mem_cons_of_mem _ h))
      (fun t h => hsym t (List.mem_cons_of_mem _ h)) (List.pairwise_cons.1 hf).2 ht.tail hx1
    have h := pass_identity_first conds solve st rest s q s2 f x hr hex ht hx ih
    have hdr : s2.dr + st.load.gr.getD 0 = 0 := by
      rw [(reverse_keeps hr).2]
      cases hg : st.load.gr with
      | none =>
        have hz := pass_dr rest hq (fun t h => (List.pairwise_cons.1 hf).1 t h hg) hs
        simp only [heatSetAdjointLoad, hg, hz]
        simp
      | some g =>
        funext i
        simp [heatSetAdjointLoad, hg]
    rw [hdr, sym_mulVec (hsym st List.mem_cons_self), sub_self, zero_dotProduct, zero_dotProduct, mul_zero, add_zero, add_zero] at h
    exact h

theorem pass_isSome (conds : List (List (Fin n))) (solve : Mat n → Vec n → Vec n) (steps : List (HeatStep n)) (s : HeatState n)
    (h : ∀ st ∈ steps, st.dt ≠ 0) : ∃ p, heatPass conds solve steps s = some p := by
  induction steps with
  | nil => exact ⟨_, rfl⟩
  | cons st rest ih =>
    obtain ⟨q, hq⟩ := ih fun t ht => h t (List.mem_cons_of_mem _ ht)
    rw [heatPass, hq, Option.bind_some]
    dsimp only [heatReverse]
    rw [if_neg (h st List.mem_cons_self)]
    exact ⟨_, rfl⟩

theorem objective_sum (steps : List (HeatStep n)) (x : ℕ → Var n) :
    objective (steps.map HeatStep.load) x = ∑ k : Fin steps.length, ((steps.get k).load.gT ⬝ᵥ (x (k + 1)).T +
      ((steps.get k).load.gr.getD 0) ⬝ᵥ (x (k + 1)).R) := by
  induction steps generalizing x with
  | nil => simp [objective]
  | cons st rest ih =>
    simp only [List.map_cons, objective]
    rw [ih]
    exact (Fin.sum_univ_succ (n := rest.length) (fun k : Fin (rest.length + 1) => ((st :: rest).get k).load.gT ⬝ᵥ (x (k + 1)).T +
      (((st :: rest).get k).load.gr.getD 0) ⬝ᵥ (x (k + 1)).R)).symm

/-! ## Families of nonlinear solutions -/

/-- A family of backward-Euler solutions; `r k (T, R, s)` is the residual of step `k` at the end-of-step temperature and rate. -/
structure Family (conds : List (List (Fin n))) (steps : List (HeatStep n)) (r : ℕ → Vec n × Vec n × ℝ → Vec n) (T R : ℕ → ℝ → Vec n)
    (x : ℕ → Var n) (s0 : ℝ) : Prop where
  euler : ∀ k (h : k < steps.length) s, T (k + 1) s = T k s + steps[k].dt • R (k + 1) s
  /-- constrained temperatures are prescribed, also initially -/
  bc : ∀ k, k ≤ steps.length → ∀ i, Ess conds i → ∀ s, T k s i = T k s0 i
  res : ∀ k, k < steps.length → ∀ i, ¬ Ess conds i → ∀ s, r k (T (k + 1) s, R (k + 1) s, s) i = 0
  dT : ∀ k, HasDerivAt (T k) (x k).T s0
  dR : ∀ k, HasDerivAt (R k) (x k).R s0

/-- The step matrices are the derivatives of the residual; `f` is its derivative with respect to the parameter. -/
def Linearises (steps : List (HeatStep n)) (r : ℕ → Vec n × Vec n × ℝ → Vec n) (T R : ℕ → ℝ → Vec n) (f : ℕ → Vec n) (s0 : ℝ) : Prop :=
  ∀ k (h : k < steps.length), ∃ L : (Vec n × Vec n × ℝ) →L[ℝ] Vec n, HasFDerivAt (r k) L (T (k + 1) s0, R (k + 1) s0, s0) ∧
    ∀ dT dR ds, L (dT, dR, ds) = mulVec steps[k].K dT + mulVec steps[k].M dR + ds • f k

def states (N : ℕ) (T R : ℕ → ℝ → Vec n) (s : ℝ) : Fin N → Vec n × Vec n := fun k => (T (k + 1) s, R (k + 1) s)

/-- The adjoint loads are the gradient of the objective `J`. -/
def Loads (steps : List (HeatStep n)) (J : (Fin steps.length → Vec n × Vec n) → ℝ) (z : Fin steps.length → Vec n × Vec n) : Prop :=
  ∃ L : (Fin steps.length → Vec n × Vec n) →L[ℝ] ℝ, HasFDerivAt J L z ∧
    ∀ dz, L dz = ∑ k, ((steps.get k).load.gT ⬝ᵥ (dz k).1 + ((steps.get k).load.gr.getD 0) ⬝ᵥ (dz k).2)

theorem const_deriv {g : ℝ → Vec n} {g' : Vec n} {s0 : ℝ} {i : Fin n} (h : HasDerivAt g g' s0) (hc : ∀ s, g s i = g s0 i) : g' i = 0 := by
  refine (hasDerivAt_pi.1 h i).unique ?_
  have e : (fun s => g s i) = fun _ => g s0 i := funext hc
  rw [e]
  exact hasDerivAt_const _ _

theorem Family.init {conds : List (List (Fin n))} {steps : List (HeatStep n)} {r : ℕ → Vec n × Vec n × ℝ → Vec n} {T R : ℕ → ℝ → Vec n}
    {x : ℕ → Var n} {s0 : ℝ} (hF : Family conds steps r T R x s0) : ∀ i, Ess conds i → (x 0).T i = 0 :=
  fun i hi => const_deriv (hF.dT 0) (hF.bc 0 (Nat.zero_le _) i hi)

theorem Family.tangent {conds : List (List (Fin n))} {steps : List (HeatStep n)} {r : ℕ → Vec n × Vec n × ℝ → Vec n} {T R : ℕ → ℝ → Vec n}
    {x : ℕ → Var n} {s0 : ℝ} {f : ℕ → Vec n} (hF : Family conds steps r T R x s0) (hL : Linearises steps r T R f s0)
    (hdt : ∀ st ∈ steps, st.dt ≠ 0) : TangentMotion conds steps f x := by
  intro k hk
  have he : (x (k + 1)).T = (x k).T + steps[k].dt • (x (k + 1)).R := by
    have h1 := (hF.dT k).add ((hF.dR (k + 1)).const_smul steps[k].dt)
    refine (hF.dT (k + 1)).unique ?_
    have e : T (k + 1) = T k + steps[k].dt • R (k + 1) := funext fun s => hF.euler k hk s
    rw [e]
    exact h1
  refine ⟨he, ?_, ?_⟩
  · intro i hi
    have h := congrFun he i
    rw [Pi.add_apply, Pi.smul_apply, const_deriv (hF.dT (k + 1)) (hF.bc (k + 1) hk i hi),
      const_deriv (hF.dT k) (hF.bc k hk.le i hi), zero_add, smul_eq_mul] at h
    exact (mul_eq_zero.1 h.symm).resolve_left (hdt _ (List.getElem_mem hk))
  · intro i hi
    obtain ⟨L, hL1, hL2⟩ := hL k hk
    have h1 := hL1.comp_hasDerivAt s0 ((hF.dT (k + 1)).prodMk ((hF.dR (k + 1)).prodMk (hasDerivAt_id s0)))
    have h2 := hasDerivAt_pi.1 h1 i
    have e : (fun s => (r k ∘ fun s => (T (k + 1) s, R (k + 1) s, id s)) s i) = fun _ => (0 : ℝ) := funext fun s => hF.res k hk i hi s
    rw [e] at h2
    have h3 := h2.unique (hasDerivAt_const _ _)
    rw [hL2] at h3
    simp only [Pi.add_apply, Pi.smul_apply, smul_eq_mul, one_mul] at h3
    linarith

theorem Loads.deriv {steps : List (HeatStep n)} {J : (Fin steps.length → Vec n × Vec n) → ℝ} {T R : ℕ → ℝ → Vec n}
    {x : ℕ → Var n} {s0 : ℝ} (hJ : Loads steps J (states steps.length T R s0)) (dT : ∀ k, HasDerivAt (T k) (x k).T s0)
    (dR : ∀ k, HasDerivAt (R k) (x k).R s0) :
    HasDerivAt (fun s => J (states steps.length T R s)) (objective (steps.map HeatStep.load) x) s0 := by
  obtain ⟨L, hL1, hL2⟩ := hJ
  have hst : HasDerivAt (states steps.length T R) (fun k : Fin steps.length => ((x (k + 1)).T, (x (k + 1)).R)) s0 := by
    rw [hasDerivAt_pi]
    intro k
    exact (dT (k + 1)).prodMk (dR (k + 1))
  have h := hL1.comp_hasDerivAt s0 hst
  rw [hL2] at h
  rw [objective_sum]
  exact h

/-! ## Theorems -/

/-- **C30**: any number of steps of any non-zero sizes, any nonlinear residual with a symmetric capacity matrix, any differentiable objective of
temperatures and rates.  Missing from the full claim: rate loads left out after having been given (`C30_stale_load_wrong`) and steps of size
zero (`C30_zero_step_wrong`), which the code gets wrong. -/
theorem C30_gradient_partial (conds : List (List (Fin n))) (solve : Mat n → Vec n → Vec n) (steps : List (HeatStep n))
    (r : ℕ → Vec n × Vec n × ℝ → Vec n) (T R : ℕ → ℝ → Vec n) (x : ℕ → Var n) (s0 : ℝ) (f : ℕ → Vec n)
    (J : (Fin steps.length → Vec n × Vec n) → ℝ) (hex : Exact conds solve steps) (hsym : ∀ st ∈ steps, Symmetric st.M)
    (hdt : ∀ st ∈ steps, st.dt ≠ 0) (hfresh : Fresh steps)
    (hF : Family conds steps r T R x s0) (hL : Linearises steps r T R f s0) (hJ : Loads steps J (states steps.length T R s0)) :
    ∃ p, heatPass conds solve steps (heatInit n) = some p ∧
      HasDerivAt (fun s => J (states steps.length T R s)) (p.2.D ⬝ᵥ (x 0).T + paramPart p.1 f) s0 := by
  obtain ⟨p, hp⟩ := pass_isSome conds solve steps (heatInit n) hdt
  refine ⟨p, hp, ?_⟩
  have h := pass_identity conds solve steps (heatInit n) p f x hp hex hsym hfresh rfl (hF.tangent hL hdt) hF.init
  have hz : (heatInit n).D = 0 := rfl
  rw [hz, zero_dotProduct, add_zero] at h
  rw [← h]
  exact hJ.deriv hF.dT hF.dR

/-- **Violation**: a step of size zero gives no finite sensitivity. -/
theorem C30_zero_step_wrong (conds : List (List (Fin n))) (solve : Mat n → Vec n → Vec n) (M K : Mat n) (s : HeatState n) :
    heatReverse conds solve 0 M K s = none := by
  simp [heatReverse]

/-- **Violation**: a rate load given for the second step and left out for the first one still acts on the first. -/
theorem C30_stale_load_wrong (conds : List (List (Fin n))) (solve : Mat n → Vec n → Vec n) (st st2 : HeatStep n) (rest : List (HeatStep n))
    (r : ℕ → Vec n × Vec n × ℝ → Vec n) (T R : ℕ → ℝ → Vec n) (x : ℕ → Var n) (s0 : ℝ) (f : ℕ → Vec n)
    (J : (Fin (st :: st2 :: rest).length → Vec n × Vec n) → ℝ) (hex : Exact conds solve (st :: st2 :: rest))
    (hsym : ∀ t ∈ st :: st2 :: rest, Symmetric t.M) (hdt : ∀ t ∈ st :: st2 :: rest, t.dt ≠ 0) (hfresh : Fresh (st2 :: rest))
    (g : Vec n) (hg : st2.load.gr = some g) (hst : st.load.gr = none) (hgR : g ⬝ᵥ (x 1).R ≠ 0)
    (hF : Family conds (st :: st2 :: rest) r T R x s0) (hL : Linearises (st :: st2 :: rest) r T R f s0)
    (hJ : Loads (st :: st2 :: rest) J (states (st :: st2 :: rest).length T R s0)) (p : List (Vec n) × HeatState n)
    (hp : heatPass conds solve (st :: st2 :: rest) (heatInit n) = some p) :
    ¬ HasDerivAt (fun s => J (states (st :: st2 :: rest).length T R s)) (p.2.D ⬝ᵥ (x 0).T + paramPart p.1 f) s0 := by
  intro h'
  have ht := hF.tangent hL hdt
  obtain ⟨q, s2, hq, hr, rfl⟩ := pass_cons hp
  have hx1 : ∀ i, Ess conds i → (x 1).T i = 0 := fun i hi => const_deriv (hF.dT 1) (hF.bc 1 (by simp) i hi)
  have ih := pass_identity conds solve (st2 :: rest) (heatInit n) q (fun k => f (k + 1)) (fun k => x (k + 1)) hq
    (fun t h => hex t (List.mem_cons_of_mem _ h)) (fun t h => hsym t (List.mem_cons_of_mem _ h)) hfresh rfl ht.tail hx1
  have h := pass_identity_first conds solve st (st2 :: rest) (heatInit n) q s2 f x hr hex ht hF.init ih
  have hdr : s2.dr = -g := by
    rw [(reverse_keeps hr).2]
    simp only [heatSetAdjointLoad, hst]
    obtain ⟨q', s3, _, hr', rfl⟩ := pass_cons hq
    rw [(reverse_keeps hr').2]
    funext i
    simp [heatSetAdjointLoad, hg]
  have hz : (heatInit n).D = 0 := rfl
  rw [hdr, hst, hz, sym_mulVec (hsym st List.mem_cons_self), sub_self, zero_dotProduct, zero_dotProduct, mul_zero, add_zero, add_zero] at h
  have h2 := h'.unique (hJ.deriv hF.dT hF.dR)
  rw [h] at h2
  simp only [Option.getD_none, add_zero, neg_dotProduct] at h2
  exact hgR (by linarith)

/-- **Violation**: a second pass after `resetAdjointStates` is off by the first result acting on the final temperature. -/
theorem C30_second_pass_wrong (conds : List (List (Fin n))) (solve : Mat n → Vec n → Vec n) (steps : List (HeatStep n))
    (r : ℕ → Vec n × Vec n × ℝ → Vec n) (T R : ℕ → ℝ → Vec n) (x : ℕ → Var n) (s0 : ℝ) (f : ℕ → Vec n)
    (J : (Fin steps.length → Vec n × Vec n) → ℝ) (hex : Exact conds solve steps) (hsym : ∀ st ∈ steps, Symmetric st.M)
    (hdt : ∀ st ∈ steps, st.dt ≠ 0) (hno : ∀ st ∈ steps, st.load.gr = none)
    (hF : Family conds steps r T R x s0) (hL : Linearises steps r T R f s0) (hJ : Loads steps J (states steps.length T R s0))
    (p p2 : List (Vec n) × HeatState n) (hp : heatPass conds solve steps (heatInit n) = some p)
    (hp2 : heatPass conds solve steps (heatResetAdjointStates p.2) = some p2) (hstale : p.2.D ⬝ᵥ (x steps.length).T ≠ 0) :
    ¬ HasDerivAt (fun s => J (states steps.length T R s)) (p2.2.D ⬝ᵥ (x 0).T + paramPart p2.1 f) s0 := by
  intro h'
  have hfresh : Fresh steps := List.pairwise_of_forall_mem_list fun _ _ b hb _ => hno b hb
  have h := pass_identity conds solve steps (heatResetAdjointStates p.2) p2 f x hp2 hex hsym hfresh (pass_dr steps hp hno rfl)
    (hF.tangent hL hdt) hF.init
  have h2 := h'.unique (hJ.deriv hF.dT hF.dR)
  apply hstale
  have h3 : objective (steps.map HeatStep.load) x + p.2.D ⬝ᵥ (x steps.length).T = p2.2.D ⬝ᵥ (x 0).T + paramPart p2.1 f := h
  linarith

/-- Symmetry of the capacity matrix is needed: for one step the result is off by `(M λ - M^T λ) · T₀' / dt`. -/
theorem C30_nonsymmetric_wrong (conds : List (List (Fin n))) (solve : Mat n → Vec n → Vec n) (st : HeatStep n)
    (r : ℕ → Vec n × Vec n × ℝ → Vec n) (T R : ℕ → ℝ → Vec n) (x : ℕ → Var n) (s0 : ℝ) (f : ℕ → Vec n)
    (J : (Fin [st].length → Vec n × Vec n) → ℝ) (hex : Exact conds solve [st]) (hdt : st.dt ≠ 0)
    (hF : Family conds [st] r T R x s0) (hL : Linearises [st] r T R f s0) (hJ : Loads [st] J (states [st].length T R s0))
    (p : List (Vec n) × HeatState n) (hp : heatPass conds solve [st] (heatInit n) = some p)
    (hns : (mulVec st.M p.2.lam - mulVecT st.M p.2.lam) ⬝ᵥ (x 0).T ≠ 0) :
    ¬ HasDerivAt (fun s => J (states [st].length T R s)) (p.2.D ⬝ᵥ (x 0).T + paramPart p.1 f) s0 := by
  intro h'
  have ht := hF.tangent hL (by simpa using hdt)
  obtain ⟨q, s2, hq, hr, rfl⟩ := pass_cons hp
  have hq' : q = ([], heatInit n) := (Option.some.inj hq).symm
  have h := pass_identity_first conds solve st [] (heatInit n) q s2 f x hr hex ht hF.init (by
    rw [hq']
    simp [objective, paramPart])
  have hdr : s2.dr + st.load.gr.getD 0 = 0 := by
    rw [(reverse_keeps hr).2, hq']
    cases hg : st.load.gr with
    | none =>
      simp only [heatSetAdjointLoad, hg]
      simp [heatInit]
    | some g =>
      funext i
      simp [heatSetAdjointLoad, hg]
  have hz : (heatInit n).D = 0 := rfl
  rw [hdr, hz, zero_dotProduct, zero_dotProduct, add_zero, add_zero] at h
  have h2 := h'.unique (hJ.deriv hF.dT hF.dR)
  rw [h] at h2
  have : (1 / st.dt) * ((mulVec st.M s2.lam - mulVecT st.M s2.lam) ⬝ᵥ (x 0).T) = 0 := by linarith
  rcases mul_eq_zero.1 this with h3 | h3
  · exact hdt (by simpa using h3)
  · exact hns h3

/-! ## Concrete instances

Two dofs, the second constrained; `r(T, R) = R₀ + R₁ + T₀ + T₁` in both rows. -/

open Serac.C29 (exMat exSolve exConds exCurve exRes ex_ess ex_deriv mulVec_isLinear)

def exStep (dt : ℝ) (l : HeatLoad 2) : HeatStep 2 := ⟨dt, exMat, exMat, l⟩
def exVar (cT cR : ℕ → ℝ) (k : ℕ) : Var 2 := ⟨![cT k, 0], ![cR k, 0]⟩

theorem ex_sysMat (dt : ℝ) (l : HeatLoad 2) :
    sysMat exConds (exStep dt l) = fun i j => if i = 0 ∧ j = 0 then 1 + dt else if i = j then 1 else 0 := by
  unfold sysMat
  rw [(Serac.C26.applyAll_spec exConds 0 _ 0).1]
  funext i j
  fin_cases i <;> fin_cases j <;> simp [elim, exConds, exStep, transpose, addMat, exMat]

theorem ex_exact (steps : List (HeatStep 2)) (h : ∀ st ∈ steps, ∃ l, st = exStep 1 l) : Exact exConds exSolve steps := by
  intro st hst b
  obtain ⟨l, rfl⟩ := h st hst
  rw [ex_sysMat]
  funext i
  fin_cases i
  · simp [mulVec, exSolve]
    field_simp
  · simp [mulVec, exSolve]

theorem ex_linearises (steps : List (HeatStep 2)) (h : ∀ st ∈ steps, ∃ l, st = exStep 1 l) (T R : ℕ → ℝ → Vec 2) (s0 : ℝ) :
    Linearises steps exRes T R (fun _ => 0) s0 := by
  intro k hk
  obtain ⟨l, hst⟩ := h steps[k] (List.getElem_mem hk)
  let A : Vec 2 →L[ℝ] Vec 2 := LinearMap.toContinuousLinearMap ((mulVec_isLinear exMat).mk' _)
  let L : (Vec 2 × Vec 2 × ℝ) →L[ℝ] Vec 2 := A.comp (ContinuousLinearMap.fst ℝ _ _) +
    A.comp ((ContinuousLinearMap.fst ℝ _ _).comp (ContinuousLinearMap.snd ℝ _ _))
  refine ⟨L, L.hasFDerivAt, ?_⟩
  intro dT dR ds
  rw [hst]
  show mulVec exMat dT + mulVec exMat dR = _
  simp [exStep]

/-- The linear objective given by the loads. -/
def exJ (steps : List (HeatStep n)) (z : Fin steps.length → Vec n × Vec n) : ℝ :=
  ∑ k, ((steps.get k).load.gT ⬝ᵥ (z k).1 + ((steps.get k).load.gr.getD 0) ⬝ᵥ (z k).2)

theorem exJ_isLinear (steps : List (HeatStep n)) : IsLinearMap ℝ (exJ steps) := by
  constructor
  · intro x y
    rw [exJ, exJ, exJ, ← Finset.sum_add_distrib]
    refine Finset.sum_congr rfl fun k _ => ?_
    simp only [Pi.add_apply, Prod.fst_add, Prod.snd_add, dotProduct_add]
    ring
  · intro c x
    rw [exJ, exJ, smul_eq_mul, Finset.mul_sum]
    refine Finset.sum_congr rfl fun k _ => ?_
    simp only [Pi.smul_apply, Prod.smul_fst, Prod.smul_snd, dotProduct_smul, smul_eq_mul]
    ring

theorem exJ_loads (steps : List (HeatStep n)) (z : Fin steps.length → Vec n × Vec n) : Loads steps (exJ steps) z :=
  ⟨LinearMap.toContinuousLinearMap ((exJ_isLinear steps).mk' _),
    (LinearMap.toContinuousLinearMap ((exJ_isLinear steps).mk' _)).hasFDerivAt, fun _ => rfl⟩

/-- The temperature halves with every unit step. -/
def cT : ℕ → ℝ := fun k => (1 / 2) ^ k
def cR : ℕ → ℝ := fun k => -(1 / 2) ^ k

theorem ex_family (steps : List (HeatStep 2)) (h : ∀ st ∈ steps, ∃ l, st = exStep 1 l) (s0 : ℝ) :
    Family exConds steps exRes (exCurve cT) (exCurve cR) (exVar cT cR) s0 := by
  refine ⟨?_, ?_, ?_, fun k => ex_deriv cT k s0, fun k => ex_deriv cR k s0⟩
  · intro k hk s
    obtain ⟨l, hst⟩ := h steps[k] (List.getElem_mem hk)
    rw [hst]
    funext i
    fin_cases i
    · simp [exCurve, cT, cR, exStep, pow_succ]
      ring
    · simp [exCurve]
  · intro k _ i hi s
    rw [(ex_ess i).1 hi]
    simp [exCurve]
  · intro k hk i _ s
    simp only [exRes, mulVec, exMat, exCurve, Pi.add_apply, Fin.sum_univ_two, cT, cR]
    simp

theorem ex_sym (steps : List (HeatStep 2)) (h : ∀ st ∈ steps, ∃ l, st = exStep 1 l) : ∀ st ∈ steps, Symmetric st.M := by
  intro st hst
  obtain ⟨l, rfl⟩ := h st hst
  intro i j
  rfl

theorem ex_dt (steps : List (HeatStep 2)) (h : ∀ st ∈ steps, ∃ l, st = exStep 1 l) : ∀ st ∈ steps, st.dt ≠ 0 := by
  intro st hst
  obtain ⟨l, rfl⟩ := h st hst
  exact one_ne_zero

/-- Two steps, loads on the final temperature and on both rates. -/
def steps1 : List (HeatStep 2) := [exStep 1 ⟨0, some ![3, 0]⟩, exStep 1 ⟨![1, 0], some ![2, 0]⟩]
/-- The same with the first rate load left out. -/
def steps2 : List (HeatStep 2) := [exStep 1 ⟨0, none⟩, exStep 1 ⟨![1, 0], some ![2, 0]⟩]
/-- One step. -/
def steps3 : List (HeatStep 2) := [exStep 1 ⟨![1, 0], none⟩]

theorem ex1 : ∀ st ∈ steps1, ∃ l, st = exStep 1 l := by
  intro st h
  rcases List.mem_cons.1 h with rfl | h
  · exact ⟨_, rfl⟩
  · rcases List.mem_cons.1 h with rfl | h
    · exact ⟨_, rfl⟩
    · cases h

theorem ex2 : ∀ st ∈ steps2, ∃ l, st = exStep 1 l := by
  intro st h
  rcases List.mem_cons.1 h with rfl | h
  · exact ⟨_, rfl⟩
  · rcases List.mem_cons.1 h with rfl | h
    · exact ⟨_, rfl⟩
    · cases h

theorem ex3 : ∀ st ∈ steps3, ∃ l, st = exStep 1 l := by
  intro st h
  rcases List.mem_cons.1 h with rfl | h
  · exact ⟨_, rfl⟩
  · cases h

/-- `C30_gradient_partial` applies. -/
example : Exact exConds exSolve steps1 ∧ (∀ st ∈ steps1, Symmetric st.M) ∧ (∀ st ∈ steps1, st.dt ≠ 0) ∧ Fresh steps1 ∧
    Family exConds steps1 exRes (exCurve cT) (exCurve cR) (exVar cT cR) 0 ∧ Linearises steps1 exRes (exCurve cT) (exCurve cR) (fun _ => 0) 0 ∧
    Loads steps1 (exJ steps1) (states steps1.length (exCurve cT) (exCurve cR) 0) :=
  ⟨ex_exact _ ex1, ex_sym _ ex1, ex_dt _ ex1, by simp [Fresh, steps1, exStep], ex_family _ ex1 _, ex_linearises _ ex1 _ _ _, exJ_loads _ _⟩

/-- `C30_stale_load_wrong` applies. -/
example : Exact exConds exSolve steps2 ∧ (∀ st ∈ steps2, Symmetric st.M) ∧ (∀ st ∈ steps2, st.dt ≠ 0) ∧ Fresh steps2.tail ∧
    (![2, 0] : Vec 2) ⬝ᵥ (exVar cT cR 1).R ≠ 0 ∧ Family exConds steps2 exRes (exCurve cT) (exCurve cR) (exVar cT cR) 0 ∧
    Linearises steps2 exRes (exCurve cT) (exCurve cR) (fun _ => 0) 0 ∧
    Loads steps2 (exJ steps2) (states steps2.length (exCurve cT) (exCurve cR) 0) :=
  ⟨ex_exact _ ex2, ex_sym _ ex2, ex_dt _ ex2, by simp [Fresh, steps2], by simp [dotProduct, exVar, cR], ex_family _ ex2 _,
    ex_linearises _ ex2 _ _ _, exJ_loads _ _⟩

/-- `C30_second_pass_wrong` applies: the first pass returns `1/2`. -/
example : ∃ p p2, heatPass exConds exSolve steps3 (heatInit 2) = some p ∧ heatPass exConds exSolve steps3 (heatResetAdjointStates p.2) = some p2 ∧
    (∀ st ∈ steps3, st.load.gr = none) ∧ p.2.D ⬝ᵥ (exVar cT cR steps3.length).T ≠ 0 := by
  obtain ⟨p, hp⟩ := pass_isSome exConds exSolve steps3 (heatInit 2) (ex_dt _ ex3)
  obtain ⟨p2, hp2⟩ := pass_isSome exConds exSolve steps3 (heatResetAdjointStates p.2) (ex_dt _ ex3)
  refine ⟨p, p2, hp, hp2, by simp [steps3, exStep], ?_⟩
  have h := pass_identity exConds exSolve steps3 (heatInit 2) p (fun _ => 0) (exVar cT cR) hp (ex_exact _ ex3) (ex_sym _ ex3)
    (by simp [Fresh, steps3]) rfl ((ex_family steps3 ex3 0).tangent (ex_linearises _ ex3 _ _ _) (ex_dt _ ex3)) (ex_family steps3 ex3 0).init
  have hpar : paramPart p.1 (fun _ => (0 : Vec 2)) = 0 := by
    obtain ⟨q, s2, hq, _, rfl⟩ := pass_cons hp
    have hq' : q = ([], heatInit 2) := (Option.some.inj hq).symm
    rw [hq']
    simp [paramPart]
  have hz : (heatInit 2).D = 0 := rfl
  rw [hpar, hz, zero_dotProduct, add_zero, add_zero] at h
  have h0 : p.2.D 0 = 1 / 2 := by
    have e : objective (steps3.map HeatStep.load) (exVar cT cR) = 1 / 2 := by
      simp [steps3, exStep, objective, exVar, cT, dotProduct]
    rw [e] at h
    simpa [dotProduct, exVar, cT] using h.symm
  simp [dotProduct, exVar, cT, steps3, h0]

/-- `C30_nonsymmetric_wrong` applies: `M` upper triangular, no conduction. -/
example : ∃ (st : HeatStep 2) (solve : Mat 2 → Vec 2 → Vec 2) (r : ℕ → Vec 2 × Vec 2 × ℝ → Vec 2) (p : List (Vec 2) × HeatState 2),
    Exact [] solve [st] ∧ st.dt ≠ 0 ∧ Family [] [st] r (exCurve (fun _ => 1)) (exCurve 0) (exVar (fun _ => 1) 0) 0 ∧
    Linearises [st] r (exCurve (fun _ => 1)) (exCurve 0) (fun _ => 0) 0 ∧
    Loads [st] (exJ [st]) (states [st].length (exCurve (fun _ => 1)) (exCurve 0) 0) ∧ heatPass [] solve [st] (heatInit 2) = some p ∧
    (mulVec st.M p.2.lam - mulVecT st.M p.2.lam) ⬝ᵥ (exVar (fun _ => 1) 0 0).T ≠ 0 := by
  let M : Mat 2 := ![![1, 1], ![0, 1]]
  let st : HeatStep 2 := ⟨1, M, 0, ⟨![1, 0], none⟩⟩
  let solve : Mat 2 → Vec 2 → Vec 2 := fun _ b => ![b 0, b 1 - b 0]
  let p : List (Vec 2) × HeatState 2 := ([![-1, 1]], ⟨![-1, 0], 0, ![-1, 1], ![0, -1]⟩)
  let A : Vec 2 →L[ℝ] Vec 2 := LinearMap.toContinuousLinearMap ((mulVec_isLinear M).mk' _)
  let L : (Vec 2 × Vec 2 × ℝ) →L[ℝ] Vec 2 := A.comp ((ContinuousLinearMap.fst ℝ _ _).comp (ContinuousLinearMap.snd ℝ _ _))
  refine ⟨st, solve, fun _ z => L z, p, ?_, one_ne_zero, ⟨?_, ?_, ?_, fun k => ex_deriv _ k 0, fun k => ex_deriv _ k 0⟩, ?_, exJ_loads _ _, ?_, ?_⟩
  · intro t ht b
    rw [List.mem_singleton.1 ht]
    funext i
    fin_cases i
    · simp [sysMat, applyAll, mulVec, transpose, addMat, st, M, solve]
    · simp [sysMat, applyAll, mulVec, transpose, addMat, st, M, solve]
  · intro k _ s
    funext i
    fin_cases i <;> simp [exCurve]
  · intro k _ i hi
    obtain ⟨_, h, _⟩ := hi
    cases h
  · intro k _ i _ s
    show mulVec M (exCurve 0 (k + 1) s) i = 0
    have : exCurve 0 (k + 1) s = 0 := by
      funext j
      fin_cases j <;> simp [exCurve]
    rw [this]
    simp [mulVec]
  · intro k hk
    refine ⟨L, L.hasFDerivAt, fun dT dR ds => ?_⟩
    have hk0 : k = 0 := by simpa using hk
    subst hk0
    show mulVec M dR = mulVec 0 dT + mulVec M dR + ds • (0 : Vec 2)
    have : mulVec (0 : Mat 2) dT = 0 := by
      funext i
      simp [mulVec]
    rw [this]
    simp
  · have hlam : solve (applyAll [] 0 (transpose (addMat M 1 0), axpy (axpy (fun i => (![1, 0] : Vec 2) i * (-1) * 1) 1 0) (-1) 0)).1
        (applyAll [] 0 (transpose (addMat M 1 0), axpy (axpy (fun i => (![1, 0] : Vec 2) i * (-1) * 1) 1 0) (-1) 0)).2 = ![-1, 1] := by
      funext i
      fin_cases i <;> simp [solve, applyAll, axpy]
    have hdT : (fun i => (![1, 0] : Vec 2) i * (-1)) = ![-1, 0] := by
      funext i
      fin_cases i <;> simp
    have hD : axpy (fun i => mulVec M ![-1, 1] i * (-1 / 1)) (1 / 1) 0 = ![0, -1] := by
      funext i
      fin_cases i <;> simp [axpy, mulVec, M]
    have hr : heatReverse [] solve 1 M 0 (heatSetAdjointLoad ⟨![1, 0], none⟩ (heatInit 2)) = some p.2 := by
      dsimp only [heatReverse, heatSetAdjointLoad, heatInit]
      rw [if_neg one_ne_zero, hlam, hD, hdT]
    show Option.bind (some ([], heatInit 2)) _ = _
    rw [Option.bind_some]
    show Option.map _ (heatReverse [] solve 1 M 0 (heatSetAdjointLoad ⟨![1, 0], none⟩ (heatInit 2))) = _
    rw [hr]
    rfl
  · simp [dotProduct, mulVec, mulVecT, st, M, p, exVar]

end Serac.C30
