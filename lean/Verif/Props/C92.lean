import Verif.Model.DynamicAdjoint
import Verif.Props.C20
import Verif.Props.C29
import Verif.Props.C82
import Verif.Props.C87
/-!
# C92: gradients of dynamic solid mechanics with respect to parameter fields and initial conditions

Spec.  `Run` is a transient analysis whose steps are solved, for all parameters and initial conditions near the given ones; its first step has size zero (`C29_first_step_wrong`
shows that the initial condition sensitivities are wrong otherwise).  The derivative of the objective is Mathlib's, through the analysis.
-/

noncomputable section
namespace Serac.C92
open Finset Serac.Adj Serac.DynamicAdj
open Serac.C29 (Ess paramPart)
open Serac.C59 (time mulP)
open Serac.C87 (mulVec_lin solution_diff solution_branch)
open Serac.StaticAdj (multTranspose)
open scoped Topology Matrix

/-! ## Transient analyses -/

section Abstract
variable {n m : ℕ}

/-- Initial displacement, initial velocity and parameter. -/
abbrev Data (n m : ℕ) := Ode.Vec n × Ode.Vec n × Ode.Vec m

/-- Displacement, velocity and acceleration at the end of step `k`. -/
def traj (p : Problem n m) (t0 : ℝ) (dt : ℕ → ℝ) (y : Data n m) : ℕ → Ode.Vec n × Ode.Vec n × Ode.Vec n
  | 0 => (y.1, y.2.1, p.solve t0 0 0 y.2.2 y.1 y.2.1)
  | k + 1 => newmark p y.2.2 (time t0 dt (k + 1)) (dt k) (traj p t0 dt y k)

def disp (p : Problem n m) (t0 : ℝ) (dt : ℕ → ℝ) (y : Data n m) (k : ℕ) : Ode.Vec n := (traj p t0 dt y k).1
def velo (p : Problem n m) (t0 : ℝ) (dt : ℕ → ℝ) (y : Data n m) (k : ℕ) : Ode.Vec n := (traj p t0 dt y k).2.1
def acc (p : Problem n m) (t0 : ℝ) (dt : ℕ → ℝ) (y : Data n m) (k : ℕ) : Ode.Vec n := (traj p t0 dt y k).2.2

/-- The data `y'`, with the initial values of `y` at the fixed dofs: there the initial values are those of the boundary conditions, not free to choose. -/
def hold (fixed : List (Fin n)) (y y' : Data n m) : Data n m :=
  (fun i => if i ∈ fixed then y.1 i else y'.1 i, fun i => if i ∈ fixed then y.2.1 i else y'.2.1 i, y'.2.2)

/-- Displacement and velocity predicted for step `k`. -/
def predD (p : Problem n m) (t0 : ℝ) (dt : ℕ → ℝ) (y : Data n m) (k : ℕ) : Ode.Vec n :=
  disp p t0 dt y k + dt k • velo p t0 dt y k + ((1 / 2 - 1 / 4) * dt k * dt k) • acc p t0 dt y k
def predR (p : Problem n m) (t0 : ℝ) (dt : ℕ → ℝ) (y : Data n m) (k : ℕ) : Ode.Vec n := velo p t0 dt y k + ((1 - 1 / 2) * dt k) • acc p t0 dt y k

/-- Spec: an analysis of `N` steps near the data `y`; `G` is the residual as a function of displacement, acceleration and parameter.  The first step has size zero.  At the end
of each step the residual is differentiable, the matrices are its derivatives, and the step is regular; for nearby data the analysis stays nearby, satisfies the equations and
has the same accelerations at the fixed dofs. -/
structure Run (p : Problem n m) (G : ℝ → Ode.Vec n × Ode.Vec n × Ode.Vec m → Ode.Vec n) (t0 : ℝ) (dt : ℕ → ℝ) (N : ℕ) (y : Data n m) : Prop where
  first : dt 0 = 0
  deriv : ∀ k < N, ∃ L : (Ode.Vec n × Ode.Vec n × Ode.Vec m) →L[ℝ] Ode.Vec n,
    HasStrictFDerivAt (G (time t0 dt (k + 1))) L (disp p t0 dt y (k + 1), acc p t0 dt y (k + 1), y.2.2) ∧
    ∀ v r w, L (v, r, w) = Elim.mulVec (p.K (time t0 dt (k + 1)) (disp p t0 dt y (k + 1)) (acc p t0 dt y (k + 1)) y.2.2) v +
      Elim.mulVec (p.M (time t0 dt (k + 1)) (disp p t0 dt y (k + 1)) (acc p t0 dt y (k + 1)) y.2.2) r +
      mulP (p.P (time t0 dt (k + 1)) (disp p t0 dt y (k + 1)) (acc p t0 dt y (k + 1)) y.2.2) w
  regular : ∀ k < N, ∀ w, Elim.mulVec (Elim.elim (addMat (p.M (time t0 dt (k + 1)) (disp p t0 dt y (k + 1)) (acc p t0 dt y (k + 1)) y.2.2) (1 / 4 * dt k * dt k)
    (p.K (time t0 dt (k + 1)) (disp p t0 dt y (k + 1)) (acc p t0 dt y (k + 1)) y.2.2)) p.conds.flatten) w = 0 → w = 0
  near : ∀ k < N, ContinuousAt (fun y' => acc p t0 dt (hold p.conds.flatten y y') (k + 1)) y
  solved : ∀ k < N, ∀ᶠ y' in 𝓝 y, (∀ i ∈ p.conds.flatten, acc p t0 dt (hold p.conds.flatten y y') (k + 1) i = acc p t0 dt y (k + 1) i) ∧
    ∀ i ∉ p.conds.flatten, G (time t0 dt (k + 1)) (disp p t0 dt (hold p.conds.flatten y y') (k + 1), acc p t0 dt (hold p.conds.flatten y y') (k + 1), y'.2.2) i = 0

variable {p : Problem n m} {G : ℝ → Ode.Vec n × Ode.Vec n × Ode.Vec m → Ode.Vec n} {t0 : ℝ} {dt : ℕ → ℝ} {N : ℕ} {y : Data n m}

theorem hold_self (fixed : List (Fin n)) (y : Data n m) : hold fixed y y = y := by simp [hold]

theorem disp_succ (k : ℕ) (y' : Data n m) : disp p t0 dt y' (k + 1) = predD p t0 dt y' k + (1 / 4 * dt k * dt k) • acc p t0 dt y' (k + 1) := rfl

theorem velo_succ (k : ℕ) (y' : Data n m) : velo p t0 dt y' (k + 1) = predR p t0 dt y' k + (1 / 2 * dt k) • acc p t0 dt y' (k + 1) := rfl

theorem acc_succ (k : ℕ) (y' : Data n m) : acc p t0 dt y' (k + 1) =
    p.solve (time t0 dt (k + 1)) (1 / 4 * dt k * dt k) (1 / 2 * dt k) y'.2.2 (predD p t0 dt y' k) (predR p t0 dt y' k) := rfl

theorem predD_first (h : dt 0 = 0) (y' : Data n m) : predD p t0 dt y' 0 = y'.1 := by
  simp [predD, h, disp, traj]

theorem predR_first (h : dt 0 = 0) (y' : Data n m) : predR p t0 dt y' 0 = y'.2.1 := by
  simp [predR, h, velo, traj]

/-- The map whose zeros are the accelerations of a step: predicted displacement, parameter and acceleration to the gap at the fixed dofs and the residual at the others. -/
def stepGap (fixed : List (Fin n)) (G : Ode.Vec n × Ode.Vec n × Ode.Vec m → Ode.Vec n) (g : Ode.Vec n) (c : ℝ) (z : (Ode.Vec n × Ode.Vec m) × Ode.Vec n) : Ode.Vec n :=
  fun i => if i ∈ fixed then z.2 i - g i else G (z.1.1 + c • z.2, z.2, z.1.2) i

theorem stepGap_regular {fixed : List (Fin n)} {G : Ode.Vec n × Ode.Vec n × Ode.Vec m → Ode.Vec n} {c : ℝ} {T r : Ode.Vec n} {q : Ode.Vec m}
    {L : (Ode.Vec n × Ode.Vec n × Ode.Vec m) →L[ℝ] Ode.Vec n} (hL : HasStrictFDerivAt G L (T + c • r, r, q)) {K M : Elim.Mat n} {P : Fin n → Fin m → ℝ}
    (hLa : ∀ v r w, L (v, r, w) = Elim.mulVec K v + Elim.mulVec M r + mulP P w) (hreg : ∀ w, Elim.mulVec (Elim.elim (addMat M c K) fixed) w = 0 → w = 0)
    (g : Ode.Vec n) : ∃ D : ((Ode.Vec n × Ode.Vec m) × Ode.Vec n) →L[ℝ] Ode.Vec n, HasStrictFDerivAt (stepGap fixed G g c) D ((T, q), r) ∧ ∀ v, D (0, v) = 0 → v = 0 := by
  let W := (Ode.Vec n × Ode.Vec m) × Ode.Vec n
  let E : W →L[ℝ] Ode.Vec n × Ode.Vec n × Ode.Vec m :=
    ((ContinuousLinearMap.fst ℝ (Ode.Vec n) (Ode.Vec m) ∘L ContinuousLinearMap.fst ℝ (Ode.Vec n × Ode.Vec m) (Ode.Vec n)) + c • ContinuousLinearMap.snd ℝ (Ode.Vec n × Ode.Vec m) (Ode.Vec n)).prod
      ((ContinuousLinearMap.snd ℝ (Ode.Vec n × Ode.Vec m) (Ode.Vec n)).prod
        (ContinuousLinearMap.snd ℝ (Ode.Vec n) (Ode.Vec m) ∘L ContinuousLinearMap.fst ℝ (Ode.Vec n × Ode.Vec m) (Ode.Vec n)))
  have hE : ∀ z : W, E z = (z.1.1 + c • z.2, z.2, z.1.2) := fun z => rfl
  let π : Fin n → (Ode.Vec n →L[ℝ] ℝ) := fun i => ContinuousLinearMap.proj (R := ℝ) (φ := fun _ : Fin n => ℝ) i
  let D : W →L[ℝ] Ode.Vec n := ContinuousLinearMap.pi fun i => if i ∈ fixed then (π i).comp (ContinuousLinearMap.snd ℝ _ _) else (π i).comp (L.comp E)
  have hD : ∀ z i, D z i = if i ∈ fixed then z.2 i else L (E z) i := by
    intro z i
    change (if i ∈ fixed then (π i).comp (ContinuousLinearMap.snd ℝ _ _) else (π i).comp (L.comp E)) z = _
    split_ifs <;> rfl
  refine ⟨D, ?_, ?_⟩
  · refine hasStrictFDerivAt_pi'.2 fun i => ?_
    by_cases hi : i ∈ fixed
    · have e : (fun z => stepGap fixed G g c z i) = fun z => z.2 i - g i := by funext z; simp only [stepGap, if_pos hi]
      have e' : (ContinuousLinearMap.proj i).comp D = (π i).comp (ContinuousLinearMap.snd ℝ _ _) := by
        refine ContinuousLinearMap.ext fun z => ?_
        exact (hD z i).trans (if_pos hi)
      rw [e, e']
      exact ((π i).comp (ContinuousLinearMap.snd ℝ (Ode.Vec n × Ode.Vec m) (Ode.Vec n))).hasStrictFDerivAt.sub_const _
    · have e : (fun z => stepGap fixed G g c z i) = fun z => G (E z) i := by funext z; simp only [stepGap, if_neg hi, hE]
      have e' : (ContinuousLinearMap.proj i).comp D = (π i).comp (L.comp E) := by
        refine ContinuousLinearMap.ext fun z => ?_
        exact (hD z i).trans (if_neg hi)
      rw [e, e']
      have h1 : HasStrictFDerivAt (fun z => G (E z)) (L.comp E) ((T, q), r) := HasStrictFDerivAt.comp (f := E) _ hL E.hasStrictFDerivAt
      exact (π i).hasStrictFDerivAt.comp _ h1
  · intro v hv
    have h1 : ∀ i ∈ fixed, v i = 0 := by
      intro i hi
      have := congrFun hv i
      rw [hD, if_pos hi] at this
      exact this
    apply hreg
    rw [C77.elim_free _ _ _ h1]
    funext i
    by_cases hi : i ∈ fixed
    · rw [if_pos hi]; rfl
    · rw [if_neg hi]
      have := congrFun hv i
      rw [hD, if_neg hi, hE, hLa] at this
      have h3 : mulP P (0 : Ode.Vec m) = 0 := by funext j; simp [mulP]
      have h4 : Elim.mulVec K (((0 : Ode.Vec n × Ode.Vec m), v).1.1 + c • v) = c • Elim.mulVec K v := by
        rw [mulVec_lin]
        have : Elim.mulVec K ((0 : Ode.Vec n × Ode.Vec m), v).1.1 = 0 := by funext j; simp [Elim.mulVec]
        rw [this, zero_add]
      have h5 : (c • Elim.mulVec K v + Elim.mulVec M v + mulP P (0 : Ode.Vec m)) i = 0 := by
        rw [← h4]
        exact this
      rw [h3, add_zero] at h5
      simp only [Pi.add_apply, Pi.smul_apply, smul_eq_mul] at h5
      rw [Pi.zero_apply, ← h5]
      simp only [Elim.mulVec, addMat, mul_sum, ← sum_add_distrib]
      exact sum_congr rfl fun j _ => by ring

/-- A step: the predicted displacement is differentiable in the data, hence the acceleration is. -/
theorem Run.step (hR : Run p G t0 dt N y) {k : ℕ} (hk : k < N) {A : Data n m →L[ℝ] Ode.Vec n} (hA : HasFDerivAt (fun y' => predD p t0 dt (hold p.conds.flatten y y') k) A y) :
    ∃ B : Data n m →L[ℝ] Ode.Vec n, HasFDerivAt (fun y' => acc p t0 dt (hold p.conds.flatten y y') (k + 1)) B y := by
  obtain ⟨L, hL, hLa⟩ := hR.deriv k hk
  rw [disp_succ] at hL
  obtain ⟨D, hs, hinj⟩ := stepGap_regular hL hLa (hR.regular k hk) (acc p t0 dt y (k + 1))
  have hcd : HasFDerivAt (fun y' : Data n m => (predD p t0 dt (hold p.conds.flatten y y') k, y'.2.2))
      (A.prod ((ContinuousLinearMap.snd ℝ _ _).comp (ContinuousLinearMap.snd ℝ _ _))) y := hA.prodMk (hasFDerivAt_snd.comp y hasFDerivAt_snd)
  refine solution_diff (D := D) (F := stepGap p.conds.flatten (G (time t0 dt (k + 1))) (acc p t0 dt y (k + 1)) (1 / 4 * dt k * dt k))
    (c := fun y' : Data n m => (predD p t0 dt (hold p.conds.flatten y y') k, y'.2.2)) ?_ hinj hcd (hR.near k hk) ?_
  · simp only [hold_self]
    exact hs
  · filter_upwards [hR.solved k hk] with y' hy'
    funext i
    by_cases hi : i ∈ p.conds.flatten
    · simp only [stepGap, if_pos hi]
      rw [hy'.1 i hi, sub_self]; rfl
    · simp only [stepGap, if_neg hi]
      rw [← disp_succ]
      exact hy'.2 i hi

/-- The free part of a vector. -/
def freeMap (fixed : List (Fin n)) : Ode.Vec n →L[ℝ] Ode.Vec n :=
  ContinuousLinearMap.pi fun i => if i ∈ fixed then 0 else ContinuousLinearMap.proj (R := ℝ) (φ := fun _ : Fin n => ℝ) i

theorem freeMap_apply (fixed : List (Fin n)) (v : Ode.Vec n) (i : Fin n) : freeMap fixed v i = if i ∈ fixed then 0 else v i := by
  change (if i ∈ fixed then (0 : Ode.Vec n →L[ℝ] ℝ) else ContinuousLinearMap.proj (R := ℝ) (φ := fun _ : Fin n => ℝ) i) v = _
  split_ifs <;> rfl

theorem freeMap_free (fixed : List (Fin n)) (v : Ode.Vec n) (h : ∀ i ∈ fixed, v i = 0) : freeMap fixed v = v := by
  funext i
  rw [freeMap_apply]
  split_ifs with hi
  · exact (h i hi).symm
  · rfl

theorem hold_deriv (fixed : List (Fin n)) (x : Ode.Vec n) {Z : Type} [NormedAddCommGroup Z] [NormedSpace ℝ Z] (P : Z →L[ℝ] Ode.Vec n) (z : Z) :
    HasFDerivAt (fun z' => (fun i => if i ∈ fixed then x i else P z' i : Ode.Vec n)) ((freeMap fixed).comp P) z := by
  refine hasFDerivAt_pi'.2 fun i => ?_
  by_cases hi : i ∈ fixed
  · have e : (ContinuousLinearMap.proj (R := ℝ) (φ := fun _ : Fin n => ℝ) i).comp ((freeMap fixed).comp P) = 0 := by
      refine ContinuousLinearMap.ext fun v => ?_
      exact (freeMap_apply fixed (P v) i).trans (if_pos hi)
    rw [e]
    simp only [if_pos hi]
    exact hasFDerivAt_const _ _
  · have e : (ContinuousLinearMap.proj (R := ℝ) (φ := fun _ : Fin n => ℝ) i).comp ((freeMap fixed).comp P) =
        (ContinuousLinearMap.proj (R := ℝ) (φ := fun _ : Fin n => ℝ) i).comp P := by
      refine ContinuousLinearMap.ext fun v => ?_
      exact (freeMap_apply fixed (P v) i).trans (if_neg hi)
    rw [e]
    simp only [if_neg hi]
    exact ((ContinuousLinearMap.proj (R := ℝ) (φ := fun _ : Fin n => ℝ) i).comp P).hasFDerivAt

/-- Displacements, velocities and accelerations of the analysis are differentiable in the data, and their derivatives satisfy Newmark's relations. -/
theorem Run.diffs (hR : Run p G t0 dt N y) : ∃ A C B : ℕ → Data n m →L[ℝ] Ode.Vec n,
    A 0 = (freeMap p.conds.flatten).comp (ContinuousLinearMap.fst ℝ _ _) ∧
    C 0 = (freeMap p.conds.flatten).comp ((ContinuousLinearMap.fst ℝ _ _).comp (ContinuousLinearMap.snd ℝ _ _)) ∧
    (∀ k < N, A (k + 1) = (A k + dt k • C k + ((1 / 2 - 1 / 4) * dt k * dt k) • B k) + (1 / 4 * dt k * dt k) • B (k + 1)) ∧
    (∀ k < N, C (k + 1) = (C k + ((1 - 1 / 2) * dt k) • B k) + (1 / 2 * dt k) • B (k + 1)) ∧
    (∀ k ≤ N, HasFDerivAt (fun y' => disp p t0 dt (hold p.conds.flatten y y') k) (A k) y) ∧
    (∀ k ≤ N, HasFDerivAt (fun y' => velo p t0 dt (hold p.conds.flatten y y') k) (C k) y) ∧
    ∀ k < N, HasFDerivAt (fun y' => acc p t0 dt (hold p.conds.flatten y y') (k + 1)) (B (k + 1)) y := by
  suffices h : ∀ K ≤ N, ∃ A C B : ℕ → Data n m →L[ℝ] Ode.Vec n,
      A 0 = (freeMap p.conds.flatten).comp (ContinuousLinearMap.fst ℝ _ _) ∧
      C 0 = (freeMap p.conds.flatten).comp ((ContinuousLinearMap.fst ℝ _ _).comp (ContinuousLinearMap.snd ℝ _ _)) ∧
      (∀ k < K, A (k + 1) = (A k + dt k • C k + ((1 / 2 - 1 / 4) * dt k * dt k) • B k) + (1 / 4 * dt k * dt k) • B (k + 1)) ∧
      (∀ k < K, C (k + 1) = (C k + ((1 - 1 / 2) * dt k) • B k) + (1 / 2 * dt k) • B (k + 1)) ∧
      (∀ k ≤ K, HasFDerivAt (fun y' => disp p t0 dt (hold p.conds.flatten y y') k) (A k) y) ∧
      (∀ k ≤ K, HasFDerivAt (fun y' => velo p t0 dt (hold p.conds.flatten y y') k) (C k) y) ∧
      ∀ k < K, HasFDerivAt (fun y' => acc p t0 dt (hold p.conds.flatten y y') (k + 1)) (B (k + 1)) y from h N le_rfl
  intro K
  induction K with
  | zero =>
    intro _
    refine ⟨fun _ => _, fun _ => _, fun _ => 0, rfl, rfl, fun k hk => absurd hk (Nat.not_lt_zero k), fun k hk => absurd hk (Nat.not_lt_zero k), fun k hk => ?_, fun k hk => ?_,
      fun k hk => absurd hk (Nat.not_lt_zero k)⟩
    · obtain rfl := Nat.le_zero.1 hk
      exact hold_deriv p.conds.flatten y.1 (ContinuousLinearMap.fst ℝ _ _) y
    · obtain rfl := Nat.le_zero.1 hk
      exact hold_deriv p.conds.flatten y.2.1 ((ContinuousLinearMap.fst ℝ _ _).comp (ContinuousLinearMap.snd ℝ _ _)) y
  | succ K ih =>
    intro hK
    obtain ⟨A, C, B, h0, h0', h1, h1', h2, h2', h3⟩ := ih (by omega)
    -- the predictors
    have hD : HasFDerivAt (fun y' => predD p t0 dt (hold p.conds.flatten y y') K) (A K + dt K • C K + ((1 / 2 - 1 / 4) * dt K * dt K) • B K) y := by
      cases K with
      | zero =>
        have e : A 0 + dt 0 • C 0 + ((1 / 2 - 1 / 4) * dt 0 * dt 0) • B 0 = A 0 := by simp [hR.first]
        rw [e]
        simp only [predD_first hR.first]
        exact h2 0 le_rfl
      | succ K => exact ((h2 (K + 1) le_rfl).add ((h2' (K + 1) le_rfl).const_smul (dt (K + 1)))).add ((h3 K (by omega)).const_smul ((1 / 2 - 1 / 4) * dt (K + 1) * dt (K + 1)))
    have hV : HasFDerivAt (fun y' => predR p t0 dt (hold p.conds.flatten y y') K) (C K + ((1 - 1 / 2) * dt K) • B K) y := by
      cases K with
      | zero =>
        have e : C 0 + ((1 - 1 / 2) * dt 0) • B 0 = C 0 := by simp [hR.first]
        rw [e]
        simp only [predR_first hR.first]
        exact h2' 0 le_rfl
      | succ K => exact (h2' (K + 1) le_rfl).add ((h3 K (by omega)).const_smul ((1 - 1 / 2) * dt (K + 1)))
    obtain ⟨B', hB'⟩ := hR.step (k := K) (by omega) hD
    refine ⟨Function.update A (K + 1) ((A K + dt K • C K + ((1 / 2 - 1 / 4) * dt K * dt K) • B K) + (1 / 4 * dt K * dt K) • B'),
      Function.update C (K + 1) ((C K + ((1 - 1 / 2) * dt K) • B K) + (1 / 2 * dt K) • B'), Function.update B (K + 1) B', ?_, ?_, fun k hk => ?_, fun k hk => ?_, fun k hk => ?_,
      fun k hk => ?_, fun k hk => ?_⟩
    · rw [Function.update_of_ne (by omega), h0]
    · rw [Function.update_of_ne (by omega), h0']
    · rcases Nat.lt_succ_iff_lt_or_eq.1 hk with h | rfl
      · rw [Function.update_of_ne (by omega), Function.update_of_ne (by omega), Function.update_of_ne (by omega), Function.update_of_ne (by omega),
          Function.update_of_ne (by omega), h1 k h]
      · rw [Function.update_self, Function.update_self, Function.update_of_ne (by omega), Function.update_of_ne (by omega), Function.update_of_ne (by omega)]
    · rcases Nat.lt_succ_iff_lt_or_eq.1 hk with h | rfl
      · rw [Function.update_of_ne (by omega), Function.update_of_ne (by omega), Function.update_of_ne (by omega), Function.update_of_ne (by omega), h1' k h]
      · rw [Function.update_self, Function.update_self, Function.update_of_ne (by omega), Function.update_of_ne (by omega)]
    · rcases Nat.le_succ_iff.1 hk with h | rfl
      · rw [Function.update_of_ne (by omega)]
        exact h2 k h
      · rw [Function.update_self]
        exact hD.add (hB'.const_smul (1 / 4 * dt K * dt K))
    · rcases Nat.le_succ_iff.1 hk with h | rfl
      · rw [Function.update_of_ne (by omega)]
        exact h2' k h
      · rw [Function.update_self]
        exact hV.add (hB'.const_smul (1 / 2 * dt K))
    · rcases Nat.lt_succ_iff_lt_or_eq.1 hk with h | rfl
      · rw [Function.update_of_ne (by omega)]
        exact h3 k h
      · rw [Function.update_self]
        exact hB'

/-- What the nonlinear solver is asked for: the acceleration `a` after a step with predicted displacement `x`, prescribed to be `g` at the fixed dofs. -/
def Solves (fixed : List (Fin n)) (G : Ode.Vec n × Ode.Vec n × Ode.Vec m → Ode.Vec n) (g : Ode.Vec n) (c : ℝ) (q : Ode.Vec m) (x a : Ode.Vec n) : Prop :=
  (∀ i ∈ fixed, a i = g i) ∧ ∀ i ∉ fixed, G (x + c • a, a, q) i = 0

theorem stepGap_zero {fixed : List (Fin n)} {G : Ode.Vec n × Ode.Vec n × Ode.Vec m → Ode.Vec n} {g : Ode.Vec n} {c : ℝ} {q : Ode.Vec m} {x a : Ode.Vec n} :
    stepGap fixed G g c ((x, q), a) = 0 ↔ Solves fixed G g c q x a := by
  constructor
  · intro h
    refine ⟨fun i hi => ?_, fun i hi => ?_⟩
    · have := congrFun h i
      simp only [stepGap, if_pos hi, Pi.zero_apply] at this
      linarith
    · have := congrFun h i
      simpa only [stepGap, if_neg hi, Pi.zero_apply] using this
  · rintro ⟨h1, h2⟩
    funext i
    by_cases hi : i ∈ fixed
    · simp only [stepGap, if_pos hi, h1 i hi, sub_self, Pi.zero_apply]
    · simp only [stepGap, if_neg hi, h2 i hi, Pi.zero_apply]

/-- If the solver finds the acceleration of every step, with the same values at the fixed dofs whenever the predictors agree there, and there is only one, the analysis stays
near. -/
theorem Run.of_unique (hfirst : dt 0 = 0)
    (hderiv : ∀ k < N, ∃ L : (Ode.Vec n × Ode.Vec n × Ode.Vec m) →L[ℝ] Ode.Vec n,
      HasStrictFDerivAt (G (time t0 dt (k + 1))) L (disp p t0 dt y (k + 1), acc p t0 dt y (k + 1), y.2.2) ∧
      ∀ v r w, L (v, r, w) = Elim.mulVec (p.K (time t0 dt (k + 1)) (disp p t0 dt y (k + 1)) (acc p t0 dt y (k + 1)) y.2.2) v +
        Elim.mulVec (p.M (time t0 dt (k + 1)) (disp p t0 dt y (k + 1)) (acc p t0 dt y (k + 1)) y.2.2) r +
        mulP (p.P (time t0 dt (k + 1)) (disp p t0 dt y (k + 1)) (acc p t0 dt y (k + 1)) y.2.2) w)
    (hreg : ∀ k < N, ∀ w, Elim.mulVec (Elim.elim (addMat (p.M (time t0 dt (k + 1)) (disp p t0 dt y (k + 1)) (acc p t0 dt y (k + 1)) y.2.2) (1 / 4 * dt k * dt k)
      (p.K (time t0 dt (k + 1)) (disp p t0 dt y (k + 1)) (acc p t0 dt y (k + 1)) y.2.2)) p.conds.flatten) w = 0 → w = 0)
    (hsol : ∀ k < N, ∀ᶠ q in 𝓝 y.2.2, ∀ x1 v1, (∀ i ∈ p.conds.flatten, x1 i = predD p t0 dt y k i ∧ v1 i = predR p t0 dt y k i) →
      Solves p.conds.flatten (G (time t0 dt (k + 1))) (acc p t0 dt y (k + 1)) (1 / 4 * dt k * dt k) q x1
        (p.solve (time t0 dt (k + 1)) (1 / 4 * dt k * dt k) (1 / 2 * dt k) q x1 v1))
    (huniq : ∀ k < N, ∀ᶠ q in 𝓝 y.2.2, ∀ x1 a a', Solves p.conds.flatten (G (time t0 dt (k + 1))) (acc p t0 dt y (k + 1)) (1 / 4 * dt k * dt k) q x1 a →
      Solves p.conds.flatten (G (time t0 dt (k + 1))) (acc p t0 dt y (k + 1)) (1 / 4 * dt k * dt k) q x1 a' → a = a') : Run p G t0 dt N y := by
  have hq : Filter.Tendsto (fun y' : Data n m => y'.2.2) (𝓝 y) (𝓝 y.2.2) := (continuous_snd.comp continuous_snd).continuousAt
  -- fixed dofs move as for `y`
  have hfix : ∀ k ≤ N, ∀ᶠ y' in 𝓝 y, ∀ i ∈ p.conds.flatten, disp p t0 dt (hold p.conds.flatten y y') k i = disp p t0 dt y k i ∧
      velo p t0 dt (hold p.conds.flatten y y') k i = velo p t0 dt y k i ∧ (0 < k → acc p t0 dt (hold p.conds.flatten y y') k i = acc p t0 dt y k i) ∧
      predD p t0 dt (hold p.conds.flatten y y') k i = predD p t0 dt y k i ∧ predR p t0 dt (hold p.conds.flatten y y') k i = predR p t0 dt y k i := by
    intro k
    induction k with
    | zero =>
      refine fun _ => Filter.Eventually.of_forall fun y' i hi => ?_
      rw [predD_first hfirst, predD_first hfirst, predR_first hfirst, predR_first hfirst]
      refine ⟨if_pos hi, if_pos hi, fun h => absurd h (lt_irrefl 0), if_pos hi, if_pos hi⟩
    | succ k ih =>
      intro hk
      filter_upwards [ih (by omega), hq.eventually (hsol k hk)] with y' h1 h2 i hi
      obtain ⟨-, -, -, h3, h4⟩ := h1 i hi
      have ha : acc p t0 dt (hold p.conds.flatten y y') (k + 1) i = acc p t0 dt y (k + 1) i :=
        (h2 (predD p t0 dt (hold p.conds.flatten y y') k) (predR p t0 dt (hold p.conds.flatten y y') k) fun j hj => ⟨(h1 j hj).2.2.2.1, (h1 j hj).2.2.2.2⟩).1 i hi
      have hd : disp p t0 dt (hold p.conds.flatten y y') (k + 1) i = disp p t0 dt y (k + 1) i := by
        rw [disp_succ, disp_succ, Pi.add_apply, Pi.add_apply, Pi.smul_apply, Pi.smul_apply, ha, h3]
      have hv : velo p t0 dt (hold p.conds.flatten y y') (k + 1) i = velo p t0 dt y (k + 1) i := by
        rw [velo_succ, velo_succ, Pi.add_apply, Pi.add_apply, Pi.smul_apply, Pi.smul_apply, ha, h4]
      refine ⟨hd, hv, fun _ => ha, ?_, ?_⟩
      · simp only [predD, Pi.add_apply, Pi.smul_apply, hd, hv, ha]
      · simp only [predR, Pi.add_apply, Pi.smul_apply, hv, ha]
  have hs' : ∀ k < N, ∀ᶠ y' in 𝓝 y, Solves p.conds.flatten (G (time t0 dt (k + 1))) (acc p t0 dt y (k + 1)) (1 / 4 * dt k * dt k) y'.2.2
      (predD p t0 dt (hold p.conds.flatten y y') k) (acc p t0 dt (hold p.conds.flatten y y') (k + 1)) := by
    intro k hk
    filter_upwards [hfix k hk.le, hq.eventually (hsol k hk)] with y' h1 h2
    exact h2 _ _ fun i hi => ⟨(h1 i hi).2.2.2.1, (h1 i hi).2.2.2.2⟩
  have key : ∀ k < N, ContinuousAt (fun y' => predD p t0 dt (hold p.conds.flatten y y') k) y → ContinuousAt (fun y' => acc p t0 dt (hold p.conds.flatten y y') (k + 1)) y := by
    intro k hk hc
    obtain ⟨L, hL, hLa⟩ := hderiv k hk
    rw [disp_succ] at hL
    obtain ⟨D, hs, hinj⟩ := stepGap_regular hL hLa (hreg k hk) (acc p t0 dt y (k + 1))
    have h0 := (hs' k hk).self_of_nhds
    rw [hold_self] at h0
    obtain ⟨U, hU0, hUc, hU⟩ := solution_branch hs hinj (stepGap_zero.2 h0)
    have ht : ContinuousAt (fun y' : Data n m => (predD p t0 dt (hold p.conds.flatten y y') k, y'.2.2)) y := hc.prodMk hq
    have hUc' : ContinuousAt U ((fun y' : Data n m => (predD p t0 dt (hold p.conds.flatten y y') k, y'.2.2)) y) := by
      simp only [hold_self]
      exact hUc
    have hcomp : ContinuousAt (fun y' : Data n m => U (predD p t0 dt (hold p.conds.flatten y y') k, y'.2.2)) y :=
      ContinuousAt.comp (f := fun y' : Data n m => (predD p t0 dt (hold p.conds.flatten y y') k, y'.2.2)) hUc' ht
    refine hcomp.congr_of_eventuallyEq ?_
    have htt := ht.tendsto
    simp only [hold_self] at htt
    filter_upwards [htt.eventually hU, hs' k hk, hq.eventually (huniq k hk)] with y' h1 h2 h3
    exact h3 _ _ _ h2 (stepGap_zero.1 h1)
  have hcont : ∀ k ≤ N, ContinuousAt (fun y' => disp p t0 dt (hold p.conds.flatten y y') k) y ∧ ContinuousAt (fun y' => velo p t0 dt (hold p.conds.flatten y y') k) y ∧
      ContinuousAt (fun y' => predD p t0 dt (hold p.conds.flatten y y') k) y ∧ ContinuousAt (fun y' => predR p t0 dt (hold p.conds.flatten y y') k) y := by
    intro k
    induction k with
    | zero =>
      intro _
      have h1 : ContinuousAt (fun y' => disp p t0 dt (hold p.conds.flatten y y') 0) y :=
        (hold_deriv p.conds.flatten y.1 (ContinuousLinearMap.fst ℝ (Ode.Vec n) (Ode.Vec n × Ode.Vec m)) y).continuousAt
      have h2 : ContinuousAt (fun y' => velo p t0 dt (hold p.conds.flatten y y') 0) y :=
        (hold_deriv p.conds.flatten y.2.1 ((ContinuousLinearMap.fst ℝ (Ode.Vec n) (Ode.Vec m)).comp (ContinuousLinearMap.snd ℝ (Ode.Vec n) (Ode.Vec n × Ode.Vec m))) y).continuousAt
      refine ⟨h1, h2, ?_, ?_⟩
      · simp only [predD_first hfirst]
        exact h1
      · simp only [predR_first hfirst]
        exact h2
    | succ k ih =>
      intro hk
      obtain ⟨-, -, h1, h2⟩ := ih (by omega)
      have h3 := key k hk h1
      have hd : ContinuousAt (fun y' => disp p t0 dt (hold p.conds.flatten y y') (k + 1)) y := h1.add (h3.const_smul (1 / 4 * dt k * dt k))
      have hv : ContinuousAt (fun y' => velo p t0 dt (hold p.conds.flatten y y') (k + 1)) y := h2.add (h3.const_smul (1 / 2 * dt k))
      exact ⟨hd, hv, (hd.add (hv.const_smul (dt (k + 1)))).add (h3.const_smul ((1 / 2 - 1 / 4) * dt (k + 1) * dt (k + 1))), hv.add (h3.const_smul ((1 - 1 / 2) * dt (k + 1)))⟩
  refine ⟨hfirst, hderiv, hreg, fun k hk => key k hk (hcont k hk.le).2.2.1, fun k hk => ?_⟩
  filter_upwards [hs' k hk] with y' hy'
  exact ⟨hy'.1, hy'.2⟩

/-! ### The pass -/

/-- The steps as `Verif.Model.Adjoint` has them. -/
def stepAt (p : Problem n m) (t0 : ℝ) (dt : ℕ → ℝ) (y : Data n m) (load : ℕ → Load n) (k : ℕ) : Step n :=
  ⟨dt k, p.M (time t0 dt (k + 1)) (disp p t0 dt y (k + 1)) (acc p t0 dt y (k + 1)) y.2.2,
    p.K (time t0 dt (k + 1)) (disp p t0 dt y (k + 1)) (acc p t0 dt y (k + 1)) y.2.2, load k⟩

/-- The steps from `K` on. -/
def stepsFrom (p : Problem n m) (t0 : ℝ) (dt : ℕ → ℝ) (y : Data n m) (load : ℕ → Load n) (N K : ℕ) : List (Step n) :=
  (List.range' K (N - K)).map (stepAt p t0 dt y load)

theorem stepsFrom_step (load : ℕ → Load n) {K : ℕ} (hK : K < N) : stepsFrom p t0 dt y load N K = stepAt p t0 dt y load K :: stepsFrom p t0 dt y load N (K + 1) := by
  rw [stepsFrom, stepsFrom, show N - K = N - (K + 1) + 1 by omega, List.range'_succ, List.map_cons]

/-- The loads of a pass, last step first. -/
def loads (load : ℕ → Load n) (N : ℕ) : List (Load n) := ((List.range N).map load).reverse

theorem loads_succ (load : ℕ → Load n) (N : ℕ) : loads load (N + 1) = load N :: loads load N := by
  simp [loads, List.range_succ]

/-- The parts of the state that the forward analysis leaves and the adjoint pass does not change, with the position `k` of the pass. -/
structure At (p : Problem n m) (t0 : ℝ) (dt : ℕ → ℝ) (y : Data n m) (N k : ℕ) (s : State n m) : Prop where
  cycle : s.cycle = k
  time : s.time = time t0 dt k
  checkpoints : s.checkpoints = (y.1, y.2.1, 0) :: (List.range N).map fun j => traj p t0 dt y (j + 1)
  timesteps : s.timesteps = C59.steps dt N

theorem forward_append (p : Problem n m) (q : Ode.Vec m) (l : List ℝ) (d : ℝ) (s : State n m) : forward p q (l ++ [d]) s = advance p q d (forward p q l s) := by
  induction l generalizing s with
  | nil => rfl
  | cons a l ih => exact ih _

/-- **Forward analysis**: every step is solved at its own end time, and displacement, velocity and acceleration are kept. -/
theorem C92_forward (p : Problem n m) (t0 : ℝ) (dt : ℕ → ℝ) (y : Data n m) (N : ℕ) :
    let s : State n m := forward p y.2.2 (C59.steps dt N) (start t0 y.1 y.2.1)
    At p t0 dt y N N s ∧ s.maxCycle = N ∧ s.adj = init n ∧ (s.u, s.v, if s.first then p.solve s.time 0 0 y.2.2 s.u s.v else s.a) = traj p t0 dt y N := by
  induction N with
  | zero =>
    refine ⟨⟨rfl, by simp [forward, start, C59.steps, time], rfl, rfl⟩, rfl, rfl, rfl⟩
  | succ N ih =>
    obtain ⟨h, hm, ha, hd⟩ := ih
    intro s
    have hs : s = advance p y.2.2 (dt N) (forward p y.2.2 (C59.steps dt N) (start t0 y.1 y.2.1)) := by
      simp only [s, C59.steps, List.range_succ, List.map_append, List.map_cons, List.map_nil]
      exact forward_append _ _ _ _ _
    generalize forward p y.2.2 (C59.steps dt N) (start t0 y.1 y.2.1 : State n m) = f at h hd hs hm ha
    have ht : f.time + dt N = time t0 dt (N + 1) := by rw [h.time, time, time, sum_range_succ, add_assoc]
    have hu : newmark p y.2.2 (f.time + dt N) (dt N) (f.u, f.v, if f.first then p.solve f.time 0 0 y.2.2 f.u f.v else f.a) = traj p t0 dt y (N + 1) := by
      rw [ht, hd]
      rfl
    have hc : f.cycle + 1 > f.maxCycle := by rw [h.cycle, hm]; exact Nat.lt_succ_self N
    rw [hs]
    refine ⟨⟨?_, ht, ?_, ?_⟩, ?_, ha, ?_⟩
    · show f.cycle + 1 = N + 1
      rw [h.cycle]
    · show f.checkpoints ++ [_] = _
      rw [List.range_succ, List.map_append, h.checkpoints, List.cons_append]
      exact congrArg (fun z => _ :: (_ ++ [z])) hu
    · show (if f.cycle + 1 > f.maxCycle then f.timesteps ++ [dt N] else f.timesteps) = _
      rw [if_pos hc, h.timesteps, C59.steps, C59.steps, List.range_succ, List.map_append]
      rfl
    · show (if f.cycle + 1 > f.maxCycle then f.cycle + 1 else f.maxCycle) = _
      rw [if_pos hc, h.cycle]
    · exact hu

/-- One reverse step from position `k + 1`. -/
theorem reverse_at (p : Problem n m) (t0 : ℝ) (dt : ℕ → ℝ) (y : Data n m) (load : ℕ → Load n) {N k : ℕ} (hk : k < N) (s : State n m) (h : At p t0 dt y N (k + 1) s) :
    ∃ s', reverse p y.2.2 s = some s' ∧ At p t0 dt y N k s' ∧ s'.adj = adjointIntegrate p.conds p.linear (dt k) (nextDt (stepsFrom p t0 dt y load N (k + 1)))
        (stepAt p t0 dt y load k).M (stepAt p t0 dt y load k).K s.adj ∧ s'.u = disp p t0 dt y (k + 1) ∧ s'.a = acc p t0 dt y (k + 1) ∧
      s'.timeEnd = time t0 dt (k + 1) := by
  have hck : s.checkpoints[k + 1]? = some (traj p t0 dt y (k + 1)) := by
    rw [h.checkpoints, List.getElem?_cons_succ, List.getElem?_map, List.getElem?_range (by omega)]
    rfl
  have hlen : s.timesteps.length = N := by rw [h.timesteps, C59.steps, List.length_map, List.length_range]
  have hdt : ∀ j < N, s.timesteps.getD j 0 = dt j := by
    intro j hj
    rw [h.timesteps, C59.steps, List.getD_eq_getElem?_getD, List.getElem?_map, List.getElem?_range hj]
    rfl
  have hnext : (if k + 1 < s.timesteps.length then s.timesteps.getD (k + 1) 0 else 0) = nextDt (stepsFrom p t0 dt y load N (k + 1)) := by
    rw [hlen]
    by_cases hk1 : k + 1 < N
    · rw [if_pos hk1, hdt _ hk1, stepsFrom_step load hk1]
      rfl
    · rw [if_neg hk1, stepsFrom, show N - (k + 1) = 0 by omega]
      rfl
  have hrev : reverse p y.2.2 s = some { s with
      cycle := k
      u := disp p t0 dt y (k + 1)
      v := velo p t0 dt y (k + 1)
      a := acc p t0 dt y (k + 1)
      adj := adjointIntegrate p.conds p.linear (dt k) (nextDt (stepsFrom p t0 dt y load N (k + 1))) (stepAt p t0 dt y load k).M (stepAt p t0 dt y load k).K s.adj
      timeEnd := s.time
      time := s.time - dt k } := by
    rw [reverse, if_neg (by rw [h.cycle]; omega)]
    dsimp only
    rw [h.cycle, Nat.add_sub_cancel, if_neg (by omega), hck, Option.map_some, hnext, if_pos (by omega), hdt k hk, h.time]
    rfl
  refine ⟨_, hrev, ⟨rfl, ?_, h.checkpoints, h.timesteps⟩, rfl, rfl, rfl, h.time⟩
  show s.time - dt k = _
  rw [h.time, time, time, sum_range_succ]
  ring

/-- The pass with checkpoints is the pass over the steps; its sensitivities are the transposed parameter matrices times the adjoint displacements. -/
theorem pass_eq (p : Problem n m) (t0 : ℝ) (dt : ℕ → ℝ) (y : Data n m) (load : ℕ → Load n) {N : ℕ} (K : ℕ) (hK : K ≤ N) (s : State n m) (hs : At p t0 dt y N K s)
    (hadj : s.adj = (reversePass p.conds p.linear (stepsFrom p t0 dt y load N K) (init n)).2) :
    ∃ r, pass p y.2.2 (loads load K) s = some r ∧ r.2.adj = (reversePass p.conds p.linear (stepsFrom p t0 dt y load N 0) (init n)).2 ∧
      ∀ w, r.1.sum ⬝ᵥ w + paramPart (reversePass p.conds p.linear (stepsFrom p t0 dt y load N K) (init n)).1
          (fun j => mulP (p.P (time t0 dt (K + j + 1)) (disp p t0 dt y (K + j + 1)) (acc p t0 dt y (K + j + 1)) y.2.2) w) =
        paramPart (reversePass p.conds p.linear (stepsFrom p t0 dt y load N 0) (init n)).1
          fun j => mulP (p.P (time t0 dt (j + 1)) (disp p t0 dt y (j + 1)) (acc p t0 dt y (j + 1)) y.2.2) w := by
  induction K generalizing s with
  | zero => exact ⟨([], s), rfl, hadj, fun w => by simp⟩
  | succ K ih =>
    have hset : At p t0 dt y N (K + 1) (setAdjointLoad (load K) s) := ⟨hs.cycle, hs.time, hs.checkpoints, hs.timesteps⟩
    obtain ⟨s', hrev, hat, ha, hu, hr, hend⟩ := reverse_at p t0 dt y load (Nat.lt_of_succ_le hK) _ hset
    have hat' : At p t0 dt y N K (timestepSensitivity p y.2.2 s') := ⟨hat.cycle, hat.time, hat.checkpoints, hat.timesteps⟩
    have hpass : reversePass p.conds p.linear (stepsFrom p t0 dt y load N K) (init n) =
        (s'.adj.lam :: (reversePass p.conds p.linear (stepsFrom p t0 dt y load N (K + 1)) (init n)).1, s'.adj) := by
      have e : s'.adj = adjointIntegrate p.conds p.linear (dt K) (nextDt (stepsFrom p t0 dt y load N (K + 1))) (stepAt p t0 dt y load K).M (stepAt p t0 dt y load K).K
          (Adj.setAdjointLoad (load K) (reversePass p.conds p.linear (stepsFrom p t0 dt y load N (K + 1)) (init n)).2) := by
        rw [ha, ← hadj]
        rfl
      rw [stepsFrom_step load (Nat.lt_of_succ_le hK), e]
      rfl
    have hadj' : (timestepSensitivity p y.2.2 s').adj = (reversePass p.conds p.linear (stepsFrom p t0 dt y load N K) (init n)).2 := by
      rw [hpass]
      rfl
    obtain ⟨r, hr1, hr2, hr3⟩ := ih (by omega) _ hat' hadj'
    refine ⟨((timestepSensitivity p y.2.2 s').sens :: r.1, r.2), ?_, hr2, fun w => ?_⟩
    · rw [loads_succ, pass, hrev]
      dsimp only
      rw [hr1, Option.map_some]
    · rw [← hr3 w, hpass, List.sum_cons, add_dotProduct, paramPart, timestepSensitivity]
      dsimp only
      rw [C59.multTranspose_dot, hend, hu, hr]
      simp only [Nat.add_zero, Nat.add_assoc, Nat.add_comm 1]
      ring

/-- Spec: the loads are the gradient of the objective `J` of the displacements, velocities and accelerations of all steps; a load that is left out counts as zero. -/
def Gradient (J : (Fin N → Ode.Vec n × Ode.Vec n × Ode.Vec n) → ℝ) (z : Fin N → Ode.Vec n × Ode.Vec n × Ode.Vec n) (load : ℕ → Load n) : Prop :=
  ∃ L : (Fin N → Ode.Vec n × Ode.Vec n × Ode.Vec n) →L[ℝ] ℝ, HasFDerivAt J L z ∧
    ∀ dz, L dz = ∑ k : Fin N, ((load k).gu ⬝ᵥ (dz k).1 + ((load k).gv.getD 0) ⬝ᵥ (dz k).2.1 + ((load k).ga.getD 0) ⬝ᵥ (dz k).2.2)

/-- The objective does not depend on velocities (`C29_velocity_load_wrong`); a step without an acceleration load is followed by steps without one only
(`C29_stale_load_wrong`). -/
structure Fresh (load : ℕ → Load n) (N : ℕ) : Prop where
  velo : ∀ k < N, (load k).gv = none ∨ (load k).gv = some 0
  acc : ∀ k l, k < l → l < N → (load k).ga = none → (load l).ga = none

theorem objective_range (step : ℕ → Step n) (N : ℕ) (x : ℕ → C29.Var n) : C29.objective (((List.range N).map step).map Step.load) x =
    ∑ k : Fin N, ((step k).load.gu ⬝ᵥ (x (k + 1)).u + ((step k).load.gv.getD 0) ⬝ᵥ (x (k + 1)).v + ((step k).load.ga.getD 0) ⬝ᵥ (x (k + 1)).a) := by
  have happ : ∀ (l : List (Load n)) (a : Load n) (x : ℕ → C29.Var n), C29.objective (l ++ [a]) x = C29.objective l x +
      (a.gu ⬝ᵥ (x (l.length + 1)).u + (a.gv.getD 0) ⬝ᵥ (x (l.length + 1)).v + (a.ga.getD 0) ⬝ᵥ (x (l.length + 1)).a) := by
    intro l a
    induction l with
    | nil => intro x; simp [C29.objective]
    | cons b l ih =>
      intro x
      rw [List.cons_append, C29.objective, C29.objective, ih, add_assoc _ (C29.objective _ _)]
      rfl
  induction N with
  | zero => simp [C29.objective]
  | succ N ih =>
    rw [List.range_succ, List.map_append, List.map_append, List.map_cons, List.map_cons, List.map_nil, List.map_nil, happ, ih, Fin.sum_univ_castSucc]
    simp

/-- **C92, gradients of dynamic analyses.**  The analysis followed by the adjoint pass, with any number of steps of any sizes after the first: what it returns is the gradient of
any differentiable objective of the displacements and accelerations of all steps: the sum of the parameter sensitivities with respect to the parameter, the initial condition
sensitivities with respect to the initial displacement and velocity of the free dofs. -/
theorem C92_transient (hR : Run p G t0 dt N y) (hl : C78.Exact p.linear) (J : (Fin N → Ode.Vec n × Ode.Vec n × Ode.Vec n) → ℝ) (load : ℕ → Load n) (hf : Fresh load N)
    (hJ : Gradient J (fun k => traj p t0 dt y (k + 1)) load) :
    ∃ r, pass p y.2.2 (loads load N) (forward p y.2.2 (C59.steps dt N) (start t0 y.1 y.2.1)) = some r ∧
      ∃ L : Data n m →L[ℝ] ℝ, HasFDerivAt (fun y' => J fun k : Fin N => traj p t0 dt (hold p.conds.flatten y y') (k + 1)) L y ∧
        ∀ v0 v1 w, (∀ i ∈ p.conds.flatten, v0 i = 0) → (∀ i ∈ p.conds.flatten, v1 i = 0) →
          L (v0, v1, w) = r.2.adj.D ⬝ᵥ v0 + r.2.adj.V ⬝ᵥ v1 + r.1.sum ⬝ᵥ w := by
  obtain ⟨A, C, B, hA0, hC0, hAs, hCs, hA, hC, hB⟩ := hR.diffs
  obtain ⟨hat, -, hini, -⟩ := C92_forward p t0 dt y N
  have hNN : stepsFrom p t0 dt y load N N = [] := by rw [stepsFrom, Nat.sub_self]; rfl
  obtain ⟨r, hr, hra, hrs⟩ := pass_eq p t0 dt y load N le_rfl _ hat (by rw [hini, hNN]; rfl)
  refine ⟨r, hr, ?_⟩
  obtain ⟨L, hL, hLa⟩ := hJ
  have hd : HasFDerivAt (fun y' => fun k : Fin N => traj p t0 dt (hold p.conds.flatten y y') (k + 1))
      (ContinuousLinearMap.pi fun k : Fin N => (A (k + 1)).prod ((C (k + 1)).prod (B (k + 1)))) y :=
    hasFDerivAt_pi.2 fun k => (hA (k + 1) k.2).prodMk ((hC (k + 1) k.2).prodMk (hB k k.2))
  have hL' : HasFDerivAt J L ((fun y' => fun k : Fin N => traj p t0 dt (hold p.conds.flatten y y') (k + 1)) y) := by
    simp only [hold_self]
    exact hL
  refine ⟨L.comp (ContinuousLinearMap.pi fun k : Fin N => (A (k + 1)).prod ((C (k + 1)).prod (B (k + 1)))), hL'.comp y hd, fun v0 v1 w hv0 hv1 => ?_⟩
  have hEss : ∀ i, Ess p.conds i ↔ i ∈ p.conds.flatten := fun i => List.mem_flatten.symm
  have hsteps : stepsFrom p t0 dt y load N 0 = (List.range N).map (stepAt p t0 dt y load) := by
    rw [stepsFrom, Nat.sub_zero, ← List.range_eq_range']
  have hlen : (stepsFrom p t0 dt y load N 0).length = N := by rw [hsteps, List.length_map, List.length_range]
  have hget : ∀ k (h : k < (stepsFrom p t0 dt y load N 0).length), (stepsFrom p t0 dt y load N 0)[k] = stepAt p t0 dt y load k := by
    intro k h
    simp [hsteps]
  have hmem : ∀ st ∈ stepsFrom p t0 dt y load N 0, ∃ k < N, stepAt p t0 dt y load k = st := by
    intro st hst
    rw [hsteps] at hst
    obtain ⟨k, hk, rfl⟩ := List.mem_map.1 hst
    exact ⟨k, List.mem_range.1 hk, rfl⟩
  set x : ℕ → C29.Var n := fun k => ⟨A k (v0, v1, w), C k (v0, v1, w), B k (v0, v1, w)⟩ with hx
  have hmot : C29.TangentMotion p.conds (stepsFrom p t0 dt y load N 0)
      (fun k => mulP (p.P (time t0 dt (k + 1)) (disp p t0 dt y (k + 1)) (acc p t0 dt y (k + 1)) y.2.2) w) x := by
    intro k hk
    rw [hget k hk]
    have hk' : k < N := by rwa [hlen] at hk
    refine ⟨?_, ?_, fun i hi => ?_, fun i hi => ?_⟩
    · show A (k + 1) (v0, v1, w) = A k (v0, v1, w) + dt k • C k (v0, v1, w) + ((1 / 2 - 1 / 4) * dt k ^ 2 : ℝ) • B k (v0, v1, w) + ((1 / 4) * dt k ^ 2 : ℝ) • B (k + 1) (v0, v1, w)
      rw [hAs k hk', show (1 / 2 - 1 / 4) * dt k ^ 2 = (1 / 2 - 1 / 4) * dt k * dt k by ring, show 1 / 4 * dt k ^ 2 = 1 / 4 * dt k * dt k by ring]
      rfl
    · show C (k + 1) (v0, v1, w) = _
      rw [hCs k hk']
      rfl
    · show B (k + 1) (v0, v1, w) i = 0
      have h1 := (hasFDerivAt_pi'.1 (hB k hk')) i
      have h2 : HasFDerivAt (fun y' => acc p t0 dt (hold p.conds.flatten y y') (k + 1) i) (0 : Data n m →L[ℝ] ℝ) y := by
        refine (hasFDerivAt_const (acc p t0 dt y (k + 1) i) y).congr_of_eventuallyEq ?_
        filter_upwards [hR.solved k hk'] with y' hy'
        exact hy'.1 i ((hEss i).1 hi)
      exact DFunLike.congr_fun (h1.unique h2) (v0, v1, w)
    · obtain ⟨LG, h1, h2⟩ := hR.deriv k hk'
      have h1' : HasFDerivAt (G (time t0 dt (k + 1))) LG
          ((fun y' : Data n m => (disp p t0 dt (hold p.conds.flatten y y') (k + 1), acc p t0 dt (hold p.conds.flatten y y') (k + 1), y'.2.2)) y) := by
        simp only [hold_self]
        exact h1.hasFDerivAt
      have h3 : HasFDerivAt (fun y' : Data n m => G (time t0 dt (k + 1)) (disp p t0 dt (hold p.conds.flatten y y') (k + 1), acc p t0 dt (hold p.conds.flatten y y') (k + 1), y'.2.2))
          (LG.comp ((A (k + 1)).prod ((B (k + 1)).prod ((ContinuousLinearMap.snd ℝ _ _).comp (ContinuousLinearMap.snd ℝ _ _))))) y :=
        HasFDerivAt.comp (f := fun y' : Data n m => (disp p t0 dt (hold p.conds.flatten y y') (k + 1), acc p t0 dt (hold p.conds.flatten y y') (k + 1), y'.2.2)) y h1'
          ((hA (k + 1) hk').prodMk ((hB k hk').prodMk (hasFDerivAt_snd.comp y hasFDerivAt_snd)))
      have h4 := (hasFDerivAt_pi'.1 h3) i
      have h5 : HasFDerivAt (fun y' : Data n m => G (time t0 dt (k + 1)) (disp p t0 dt (hold p.conds.flatten y y') (k + 1), acc p t0 dt (hold p.conds.flatten y y') (k + 1), y'.2.2) i)
          (0 : Data n m →L[ℝ] ℝ) y := by
        refine (hasFDerivAt_const (0 : ℝ) y).congr_of_eventuallyEq ?_
        filter_upwards [hR.solved k hk'] with y' hy'
        exact hy'.2 i fun h => hi ((hEss i).2 h)
      have h6 : LG (A (k + 1) (v0, v1, w), B (k + 1) (v0, v1, w), w) i = 0 := DFunLike.congr_fun (h4.unique h5) (v0, v1, w)
      rw [h2, add_comm (Elim.mulVec _ _)] at h6
      exact h6
  have hexact : C29.Exact p.conds p.linear (stepsFrom p t0 dt y load N 0) := by
    intro st hst b
    obtain ⟨k, hk, rfl⟩ := hmem st hst
    have hM : C29.sysMat p.conds (stepAt p t0 dt y load k) = Elim.elim (transpose (addMat (stepAt p t0 dt y load k).M (1 / 4 * (stepAt p t0 dt y load k).dt * (stepAt p t0 dt y load k).dt)
        (stepAt p t0 dt y load k).K)) p.conds.flatten := (C26.applyAll_spec _ _ _ _).1
    rw [hM]
    exact hl _ _ (C85.elim_transpose _ _ (hR.regular k hk) b)
  have hfresh : C29.Fresh (stepsFrom p t0 dt y load N 0) := by
    refine ⟨fun st hst => ?_, ?_⟩
    · obtain ⟨k, hk, rfl⟩ := hmem st hst
      exact hf.velo k hk
    · rw [hsteps, List.pairwise_map]
      exact List.Pairwise.imp_of_mem (fun {k l} _ hl' h => hf.acc k l h (List.mem_range.1 hl')) List.pairwise_lt_range
  have key := C29.pass_identity p.conds p.linear (stepsFrom p t0 dt y load N 0) (init n) _ x hexact hfresh ⟨rfl, rfl⟩ hmot
  have hnext : nextDt (stepsFrom p t0 dt y load N 0) = 0 := by
    by_cases h0 : 0 < N
    · rw [stepsFrom_step load h0]
      exact hR.first
    · rw [stepsFrom, show N - 0 = 0 by omega]
      rfl
  have hx0 : (x 0).u = v0 := by
    show A 0 (v0, v1, w) = v0
    rw [hA0]
    exact freeMap_free _ _ hv0
  have hx1 : (x 0).v = v1 := by
    show C 0 (v0, v1, w) = v1
    rw [hC0]
    exact freeMap_free _ _ hv1
  have hD0 : (init n).D = 0 := rfl
  have hV0 : (init n).V = 0 := rfl
  rw [hD0, hV0, zero_dotProduct, zero_dotProduct, add_zero, add_zero, hnext, C29.predU_zero, C29.predV_zero, hx0, hx1] at key
  have hsum := hrs w
  rw [hNN] at hsum
  have h0 : paramPart (reversePass p.conds p.linear [] (init n)).1
      (fun j => mulP (p.P (time t0 dt (N + j + 1)) (disp p t0 dt y (N + j + 1)) (acc p t0 dt y (N + j + 1)) y.2.2) w) = 0 := rfl
  rw [h0, add_zero] at hsum
  rw [hra, hsum, ← key, ContinuousLinearMap.comp_apply, hLa]
  have := objective_range (stepAt p t0 dt y load) N x
  rw [← hsteps] at this
  rw [this]
  rfl

end Abstract

/-! ## The assembled operators -/

section Form
open Serac.Tensor Serac.Transform Serac.Kernels Serac.Loads Serac.Solid Serac.Deriv
open Serac.C71 (M Shapes)
open Serac.C85 (Field Tangent Smooth Moduli2 theta)
variable {d : Dim} {V : Variant d} {s sF : Shapes} {φ : ℕ → ℕ → ℝ} {dφ : ℕ → ℕ → ℕ → ℝ} {A : Moduli2 d} {B : Slopes d} {old old' : Buffer ℝ}
  {conds : List (List (Fin V.L.B.N))} {linear : Elim.Mat V.L.B.N → Ode.Vec V.L.B.N → Ode.Vec V.L.B.N}
  {solve : ℝ → ℝ → ℝ → Ode.Vec V.nn → Ode.Vec V.L.B.N → Ode.Vec V.L.B.N → Ode.Vec V.L.B.N} {t0 : ℝ} {dt : ℕ → ℝ} {N : ℕ} {y : Data V.L.B.N V.nn}

abbrev Point (V : Variant d) := Ode.Vec V.L.B.N × Ode.Vec V.L.B.N × Ode.Vec V.nn

/-- The residual depends on the acceleration through the mass matrix. -/
theorem residual_acc (h : C84.Sound V.L s sF) (hP : Field V φ dφ) {u : Ode.Vec V.L.B.N} {q : Ode.Vec V.nn} (hT : Tangent V s φ A B u q) (a : Ode.Vec V.L.B.N) (t : ℝ) (old : Buffer ℝ) :
    ∀ᶠ z : Point V in 𝓝 (u, a, q), V.residual t z.1 z.2.1 z.2.2 = V.residual t z.1 a z.2.2 + Elim.mulVec (V.massMatrix old a q) (z.2.1 - a) := by
  have hc : ContinuousAt (fun z : Point V => (z.1, z.2.2)) (u, a, q) := (continuous_fst.prodMk (continuous_snd.comp continuous_snd)).continuousAt
  filter_upwards [hc.eventually (C85.near hT)] with z hz
  funext k
  have e1 := C85.residual_eq h hP z.2.1 t k (z.1, z.2.2) hz
  have e2 := C85.residual_eq h hP a t k (z.1, z.2.2) hz
  have hi := C73.inertia_lin (B := V.L.B) (s := s) 1 1 a (z.2.1 - a) (C77.one V.L k)
  have hm := (C77.C77_matrix (C85.sound h q).meaning (C85.sound h q).faces (fun p H => A p (V.value q p) H) old old t u a (z.2.1 - a)).2
  have hf := C77.C77_mass_form (C85.sound h q).meaning old a (z.2.1 - a) (C77.one (V.body q) k)
  have hd := C77.dot_one (L := V.body q) ((V.body q).massAction old a (z.2.1 - a)) k
  have hf' : Elim.mulVec (V.massMatrix old a q) (z.2.1 - a) k = C73.inertia V.L.B s (z.2.1 - a) (C77.one V.L k) :=
    (congrFun hm k).trans (hd.symm.trans hf)
  rw [one_smul, one_smul, add_sub_cancel, one_mul, one_mul] at hi
  change V.residual t z.1 z.2.1 z.2.2 k = V.residual t z.1 a z.2.2 k + Elim.mulVec (V.massMatrix old a q) (z.2.1 - a) k
  refine e1.trans ?_
  rw [show V.residual t z.1 a z.2.2 k = _ from e2, hf']
  unfold C85.weak
  rw [hi]
  ring

/-- The derivative of the residual by displacement, acceleration and parameter is what the module assembles. -/
theorem residual_strict (h : C84.Sound V.L s sF) (hP : Field V φ dφ) {u : Ode.Vec V.L.B.N} {q : Ode.Vec V.nn} (hT : Tangent V s φ A B u q) (hS : Smooth V s φ u q)
    (a : Ode.Vec V.L.B.N) (t : ℝ) (old : Buffer ℝ) :
    ∃ L : Point V →L[ℝ] Ode.Vec V.L.B.N, HasStrictFDerivAt (fun z : Point V => V.residual t z.1 z.2.1 z.2.2) L (u, a, q) ∧
      ∀ v r w, L (v, r, w) = Elim.mulVec (V.stiffMatrix A old t u q) v + Elim.mulVec (V.massMatrix old a q) r + mulP (V.paramMatrix B old u q) w := by
  obtain ⟨D, hD, hDa⟩ := C85.C85_derivative h hP hT a t old old
  have hs : HasStrictFDerivAt (fun z : Ode.Vec V.L.B.N × Ode.Vec V.nn => V.residual t z.1 a z.2) D (u, q) :=
    (contDiffAt_pi.2 fun k => C85.residual_smooth h hP hT hS a t k).hasStrictFDerivAt' hD one_ne_zero
  let E : Point V →L[ℝ] Ode.Vec V.L.B.N × Ode.Vec V.nn :=
    (ContinuousLinearMap.fst ℝ _ _).prod ((ContinuousLinearMap.snd ℝ _ _).comp (ContinuousLinearMap.snd ℝ _ _))
  let Mm : Ode.Vec V.L.B.N →L[ℝ] Ode.Vec V.L.B.N := LinearMap.toContinuousLinearMap (Matrix.mulVecLin (Matrix.of (V.massMatrix old a q)))
  have hMm : ∀ w, Mm w = Elim.mulVec (V.massMatrix old a q) w := fun w => rfl
  let F : Point V →L[ℝ] Ode.Vec V.L.B.N := (ContinuousLinearMap.fst ℝ _ _).comp (ContinuousLinearMap.snd ℝ _ _)
  have h1 : HasStrictFDerivAt (fun z : Point V => V.residual t z.1 a z.2.2) (D.comp E) (u, a, q) := HasStrictFDerivAt.comp (f := E) (u, a, q) hs E.hasStrictFDerivAt
  have h2 : HasStrictFDerivAt (fun z : Point V => Mm (z.2.1 - a)) (Mm.comp F) (u, a, q) :=
    HasStrictFDerivAt.comp (f := fun z : Point V => z.2.1 - a) (u, a, q) Mm.hasStrictFDerivAt (F.hasStrictFDerivAt.sub_const a)
  refine ⟨D.comp E + Mm.comp F, (h1.add h2).congr_of_eventuallyEq ?_, fun v r w => ?_⟩
  · filter_upwards [residual_acc h hP hT a t old] with z hz
    rw [hz]
    rfl
  · change D (v, w) + Mm r = _
    rw [hDa, hMm]
    abel

/-- Spec: a dynamic analysis of `N` steps near the data `y`, as in `Run`; at the end of each step the user's functions are smooth where they are evaluated. -/
structure Motion (V : Variant d) (s : Shapes) (φ : ℕ → ℕ → ℝ) (A : Moduli2 d) (B : Slopes d) (old : Buffer ℝ) (conds : List (List (Fin V.L.B.N)))
    (z : Data V.L.B.N V.nn → ℕ → Ode.Vec V.L.B.N × Ode.Vec V.L.B.N × Ode.Vec V.L.B.N) (t0 : ℝ) (dt : ℕ → ℝ) (N : ℕ) (y : Data V.L.B.N V.nn) : Prop where
  first : dt 0 = 0
  tangent : ∀ k < N, Tangent V s φ A B (z y (k + 1)).1 y.2.2
  smooth : ∀ k < N, Smooth V s φ (z y (k + 1)).1 y.2.2
  regular : ∀ k < N, ∀ w, Elim.mulVec (Elim.elim (addMat (V.massMatrix old (z y (k + 1)).2.2 y.2.2) (1 / 4 * dt k * dt k)
    (V.stiffMatrix A old (time t0 dt (k + 1)) (z y (k + 1)).1 y.2.2)) conds.flatten) w = 0 → w = 0
  near : ∀ k < N, ContinuousAt (fun y' => (z (hold conds.flatten y y') (k + 1)).2.2) y
  solved : ∀ k < N, ∀ᶠ y' in 𝓝 y, (∀ i ∈ conds.flatten, (z (hold conds.flatten y y') (k + 1)).2.2 i = (z y (k + 1)).2.2 i) ∧
    ∀ i ∉ conds.flatten, V.residual (time t0 dt (k + 1)) (z (hold conds.flatten y y') (k + 1)).1 (z (hold conds.flatten y y') (k + 1)).2.2 y'.2.2 i = 0

theorem Motion.run (hR : Motion V s φ A B old conds (traj (V.dynamic A B old conds solve linear) t0 dt) t0 dt N y) (h : C84.Sound V.L s sF) (hP : Field V φ dφ) :
    Run (V.dynamic A B old conds solve linear) (fun t z => V.residual t z.1 z.2.1 z.2.2) t0 dt N y :=
  ⟨hR.first, fun k hk => residual_strict h hP (hR.tangent k hk) (hR.smooth k hk) _ _ old, hR.regular, hR.near, hR.solved⟩

/-- **C92, gradients of dynamic analyses.**  The analysis by Newmark's method, with a first step of size zero, followed by the adjoint pass with the assembled matrices: the sum of
the sensitivities that the pass returns is the gradient, with respect to the nodal values of the parameter, of any differentiable objective of the displacements and
accelerations of all steps (`Fresh`); what `computeInitialConditionSensitivity` returns is the gradient with respect to initial displacement and velocity at
the free dofs. -/
theorem C92_gradient (hR : Motion V s φ A B old conds (traj (V.dynamic A B old conds solve linear) t0 dt) t0 dt N y) (h : C84.Sound V.L s sF) (hP : Field V φ dφ)
    (hl : C78.Exact linear) (J : (Fin N → Ode.Vec V.L.B.N × Ode.Vec V.L.B.N × Ode.Vec V.L.B.N) → ℝ) (load : ℕ → Adj.Load V.L.B.N) (hf : Fresh load N)
    (hJ : Gradient J (fun k => traj (V.dynamic A B old conds solve linear) t0 dt y (k + 1)) load) :
    ∃ r, pass (V.dynamic A B old conds solve linear) y.2.2 (loads load N) (forward (V.dynamic A B old conds solve linear) y.2.2 (C59.steps dt N) (start t0 y.1 y.2.1)) = some r ∧
      ∃ L : Data V.L.B.N V.nn →L[ℝ] ℝ, HasFDerivAt (fun y' => J fun k : Fin N => traj (V.dynamic A B old conds solve linear) t0 dt (hold conds.flatten y y') (k + 1)) L y ∧
        ∀ v0 v1 w, (∀ i ∈ conds.flatten, v0 i = 0) → (∀ i ∈ conds.flatten, v1 i = 0) → L (v0, v1, w) = r.2.adj.D ⬝ᵥ v0 + r.2.adj.V ⬝ᵥ v1 + r.1.sum ⬝ᵥ w :=
  C92_transient (hR.run h hP) hl J load hf hJ

end Form

/-! ## The code's solver -/

section Linear
open Serac.Tensor Serac.Transform Serac.Kernels Serac.Loads Serac.Solid Serac.Deriv
open Serac.C71 (M Shapes)
open Serac.C85 (Field Tangent Smooth Moduli2 theta)
open Serac.C82 (Massive Stage)
open Serac.C81 (Iterates)

/-- The acceleration that direct control prescribes at the fixed dofs: the second difference of the prescribed values when the acceleration at a given displacement is asked for,
otherwise the one that brings the displacement to its prescribed value. -/
def boundary {n : ℕ} (g : ℝ → Fin n → ℝ) (t c0 : ℝ) (x : Ode.Vec n) (i : Fin n) : ℝ :=
  if c0 = 0 then C20.accel g Ode.eps2 t i else (g t i - x i) / c0

theorem solve2_direct {n : ℕ} {b : Ode.BCs n} {g : ℝ → Fin n → ℝ} (hg : Ode.Prescribes b g) (F : Ode.State2 n → Ode.Vec n → Ode.Vec n) (st : Ode.State2 n) {t c0 c1 : ℝ}
    (h01 : c0 = 0 → c1 = 0) {x : Ode.Vec n} (hx : c0 = 0 → ∀ i ∈ b.allDofs, x i = g t i) (v : Ode.Vec n) :
    ∃ st1 guess st2, Ode.solve2 b .direct F st t c0 c1 x v = some (st2, F st1 guess) ∧ st1.time = t ∧ st1.c0 = c0 ∧ st1.u = x ∧ ∀ i ∈ b.allDofs, guess i = boundary g t c0 x i := by
  unfold Ode.solve2 Ode.constraint2
  by_cases h0 : c0 = 0
  · have h1 := h01 h0
    rw [if_neg (by simp [h0, h1])]
    refine ⟨_, _, _, rfl, rfl, rfl, ?_, fun i hi => ?_⟩
    · funext i
      dsimp only
      rw [Ode.setSub_apply, Ode.setSubCompl_apply]
      by_cases hi : i ∈ b.allDofs
      · rw [if_pos hi, if_pos hi, zero_add, Ode.eval_mem hg _ hi, hx h0 i hi]
      · rw [if_neg hi, if_neg hi, add_zero]
    · rw [Ode.setSubCompl_apply, if_pos hi, Ode.setSub_apply, if_pos hi, zero_add]
      dsimp only
      rw [Ode.eval_mem hg _ hi, Ode.eval_mem hg _ hi, Ode.eval_mem hg _ hi, boundary, if_pos h0, C20.accel]
      ring
  · rw [if_pos (Or.inl h0)]
    simp only [if_neg h0, Option.map_some]
    refine ⟨_, _, _, rfl, rfl, rfl, ?_, fun i hi => ?_⟩
    · funext i
      dsimp only
      rw [Ode.setSub_apply, Ode.setSubCompl_apply]
      by_cases hi : i ∈ b.allDofs
      · rw [if_pos hi, if_pos hi, zero_add]
      · rw [if_neg hi, if_neg hi, add_zero]
    · rw [Ode.setSubCompl_apply, if_pos hi, Ode.setSub_apply, if_pos hi, zero_add, Ode.eval_mem hg _ hi, boundary, if_neg h0]
      ring

variable {d : Dim} {V : Variant d} {s sF : Shapes} {φ : ℕ → ℕ → ℝ} {dφ : ℕ → ℕ → ℕ → ℝ} {A : Moduli2 d} {B : Slopes d} {C : ℕ → M d.n →ₗ[ℝ] M d.n} {q : Ode.Vec V.nn}
  {b : Ode.BCs V.L.B.N} {g : ℝ → Ode.Vec V.L.B.N} {o : StaticSolver V.L.B.N}

/-- A request is answered with the acceleration of the stage. -/
theorem request_stage (hm : Massive (V.body q) s sF C) (hT : ∀ u, C77.Tangent (V.body q) s (fun p H => A p (V.value q p) H) u) (hg : Ode.Prescribes b g) (hlin : C78.Exact o.linear)
    (hnorm : C78.Length o.norm) (ho : Iterates o.newton) (old old' : Buffer ℝ) (rep : Newton.Report) (st : Ode.State2 V.L.B.N) {t c0 c1 : ℝ} (hc : 0 ≤ c0) (h01 : c0 = 0 → c1 = 0)
    {x : Ode.Vec V.L.B.N} (hx : c0 = 0 → ∀ i ∈ b.allDofs, x i = g t i) (v : Ode.Vec V.L.B.N) :
    ∃ st' a, Ode.solve2 b .direct ((V.body q).dynamicSolve (fun p H => A p (V.value q p) H) old old' o b.allDofs rep) st t c0 c1 x v = some (st', a) ∧
      (∀ i ∈ b.allDofs, a i = boundary g t c0 x i) ∧ ∀ i ∉ b.allDofs, V.residual t (x + c0 • a) a q i = 0 := by
  obtain ⟨st1, guess, st2, h1, ht, h0, hu, hgs⟩ := solve2_direct hg ((V.body q).dynamicSolve (fun p H => A p (V.value q p) H) old old' o b.allDofs rep) st h01 hx v
  have hS := C82.C82_stage hm hT old old' hlin hnorm ho b.allDofs rep st1 (h0.symm ▸ hc) guess
  refine ⟨st2, _, h1, fun i hi => (hS.1 i hi).trans (hgs i hi), fun i hi => ?_⟩
  have := hS.2 i hi
  rw [ht, h0, hu] at this
  exact this

/-- There is only one. -/
theorem stage_one (hm : Massive (V.body q) s sF C) {t c0 : ℝ} (hc : 0 ≤ c0) {fixed : List (Fin V.L.B.N)} {x a a' : Ode.Vec V.L.B.N} (he : ∀ i ∈ fixed, a i = a' i)
    (h : ∀ i ∉ fixed, V.residual t (x + c0 • a) a q i = 0) (h' : ∀ i ∉ fixed, V.residual t (x + c0 • a') a' q i = 0) : a = a' := by
  obtain ⟨w, -, hw⟩ := C82.C82_unique hm fixed ⟨t, c0, 0, x, 0, 0⟩ hc a'
  exact (hw a ⟨he, h⟩).trans (hw a' ⟨fun _ _ => rfl, h'⟩).symm

/-- The answer does not depend on the acceleration from which the solver starts. -/
theorem request_eq (hm : Massive (V.body q) s sF C) (hT : ∀ u, C77.Tangent (V.body q) s (fun p H => A p (V.value q p) H) u) (hg : Ode.Prescribes b g) (hlin : C78.Exact o.linear)
    (hnorm : C78.Length o.norm) (ho : Iterates o.newton) (old old' : Buffer ℝ) (rep : Newton.Report) (st0 st : Ode.State2 V.L.B.N) {t c0 c1 : ℝ} (hc : 0 ≤ c0) (h01 : c0 = 0 → c1 = 0)
    {x : Ode.Vec V.L.B.N} (hx : c0 = 0 → ∀ i ∈ b.allDofs, x i = g t i) (v : Ode.Vec V.L.B.N) :
    ∃ st', Ode.solve2 b .direct ((V.body q).dynamicSolve (fun p H => A p (V.value q p) H) old old' o b.allDofs rep) st t c0 c1 x v =
        some (st', V.request A old old' o b rep st0 t c0 c1 q x v) ∧
      (∀ i ∈ b.allDofs, V.request A old old' o b rep st0 t c0 c1 q x v i = boundary g t c0 x i) ∧
      ∀ i ∉ b.allDofs, V.residual t (x + c0 • V.request A old old' o b rep st0 t c0 c1 q x v) (V.request A old old' o b rep st0 t c0 c1 q x v) q i = 0 := by
  obtain ⟨s1, a1, h1, h2, h3⟩ := request_stage hm hT hg hlin hnorm ho old old' rep st hc h01 hx v
  obtain ⟨s0, a0, k1, k2, k3⟩ := request_stage hm hT hg hlin hnorm ho old old' rep st0 hc h01 hx v
  have e : V.request A old old' o b rep st0 t c0 c1 q x v = a0 := by
    unfold Variant.request
    rw [k1]
    rfl
  rw [e]
  exact ⟨s1, by rw [h1, stage_one hm hc (fun i hi => (h2 i hi).trans (k2 i hi).symm) h3 k3], k2, k3⟩

theorem coef {δ : ℝ} : 0 ≤ 1 / 4 * δ * δ ∧ (1 / 4 * δ * δ = 0 → δ = 0) := by
  refine ⟨by nlinarith [mul_self_nonneg δ], fun h => ?_⟩
  have : δ * δ = 0 := by linarith
  exact mul_self_eq_zero.1 this

variable {t0 : ℝ} {dt : ℕ → ℝ} {N : ℕ} {y : Data V.L.B.N V.nn} {conds : List (List (Fin V.L.B.N))} {linear : Elim.Mat V.L.B.N → Ode.Vec V.L.B.N → Ode.Vec V.L.B.N}

/-- When the coefficients of a step are zero, the displacement it starts from has the prescribed values. -/
theorem start_bc {p : Problem V.L.B.N V.nn} (hfirst : dt 0 = 0) (hdt : ∀ k < N, 0 < k → dt k ≠ 0) (hy : ∀ i ∈ b.allDofs, y.1 i = g t0 i) {k : ℕ} (hk : k < N) {x : Ode.Vec V.L.B.N}
    (hx : ∀ i ∈ b.allDofs, x i = predD p t0 dt y k i) : 1 / 4 * dt k * dt k = 0 → ∀ i ∈ b.allDofs, x i = g (time t0 dt (k + 1)) i := by
  intro h i hi
  have hz := coef.2 h
  rcases Nat.eq_zero_or_pos k with rfl | hp
  · rw [hx i hi, predD_first hfirst, hy i hi, time, sum_range_one, hfirst, add_zero]
  · exact absurd hz (hdt k hk hp)

/-- **C92, linear materials.**  For bodies with mass, linear materials and exact linear solves, analyses with the code's solver and a first step of size zero are such runs, at any
data whose initial displacement has the prescribed values. -/
theorem C92_linear {C : Ode.Vec V.nn → ℕ → M d.n →ₗ[ℝ] M d.n} (h : C84.Sound V.L s sF) (hP : Field V φ dφ) (hm : ∀ᶠ q' in 𝓝 y.2.2, Massive (V.body q') s sF (C q'))
    (hT : ∀ᶠ q' in 𝓝 y.2.2, ∀ u, Tangent V s φ A B u q') (hS : ∀ u, Smooth V s φ u y.2.2) (hg : Ode.Prescribes b g) (hc : conds.flatten = b.allDofs)
    (hlin : C78.Exact o.linear) (hnorm : C78.Length o.norm) (ho : Iterates o.newton) (old old' : Buffer ℝ) (rep : Newton.Report) (st : Ode.State2 V.L.B.N)
    (hfirst : dt 0 = 0) (hdt : ∀ k < N, 0 < k → dt k ≠ 0) (hy : ∀ i ∈ b.allDofs, y.1 i = g t0 i) :
    Motion V s φ A B old conds (traj (V.dynamic A B old conds (V.request A old old' o b rep st) linear) t0 dt) t0 dt N y := by
  set p := V.dynamic A B old conds (V.request A old old' o b rep st) linear with hp
  have hq := hm.self_of_nhds
  have hTq := hT.self_of_nhds
  have hacc : ∀ k < N, ∀ i ∈ b.allDofs, acc p t0 dt y (k + 1) i = boundary g (time t0 dt (k + 1)) (1 / 4 * dt k * dt k) (predD p t0 dt y k) i := fun k hk =>
    (request_eq hq (fun u => (hTq u).body hP) hg hlin hnorm ho old old' rep st st coef.1 (fun e => by rw [coef.2 e, mul_zero])
      (start_bc hfirst hdt hy hk fun _ _ => rfl) (predR p t0 dt y k)).choose_spec.2.1
  have hR : Run p (fun t z => V.residual t z.1 z.2.1 z.2.2) t0 dt N y := by
    refine Run.of_unique hfirst (fun k hk => residual_strict h hP (hTq _) (hS _) _ _ old) (fun k hk w hw => ?_) (fun k hk => ?_) fun k hk => ?_
    · have haf := C82.stage_affine hq (fun u => (hTq u).body hP) old old b.allDofs ⟨time t0 dt (k + 1), 1 / 4 * dt k * dt k, 0, predD p t0 dt y k, 0, 0⟩ coef.1
      refine haf.injective (acc p t0 dt y (k + 1)) ?_
      rw [← hc]
      refine Eq.trans (congrArg (fun mat => Elim.mulVec (Elim.elim mat conds.flatten) w) ?_) hw
      have e : (fun j => 1 * predD p t0 dt y k j + 1 / 4 * dt k * dt k * acc p t0 dt y (k + 1) j : Ode.Vec V.L.B.N) = disp p t0 dt y (k + 1) := by
        rw [disp_succ]
        funext j
        rw [one_mul]
        rfl
      funext i j
      exact congrArg (fun u : Ode.Vec V.L.B.N => 1 * (V.body y.2.2).massMatrix old (acc p t0 dt y (k + 1)) i j +
        1 / 4 * dt k * dt k * (V.body y.2.2).stiffMatrix (fun p H => A p (V.value y.2.2 p) H) old (time t0 dt (k + 1)) u i j) e
    · filter_upwards [hm, hT] with q' hq' hTq' x1 v1 hx
      rw [show p.conds.flatten = b.allDofs from hc] at hx ⊢
      obtain ⟨-, -, h2, h3⟩ := request_eq (c1 := 1 / 2 * dt k) hq' (fun u => (hTq' u).body hP) hg hlin hnorm ho old old' rep st st coef.1 (fun e => by rw [coef.2 e, mul_zero])
        (start_bc hfirst hdt hy hk fun i hi => (hx i hi).1) v1
      refine ⟨fun i hi => (h2 i hi).trans ((hacc k hk i hi).trans ?_).symm, h3⟩
      unfold boundary
      rw [(hx i hi).1]
    · filter_upwards [hm] with q' hq' x1 a a' ha ha'
      exact stage_one hq' coef.1 (fun i hi => (ha.1 i hi).trans (ha'.1 i hi).symm) ha.2 ha'.2
  exact ⟨hR.first, fun k _ => hTq _, fun k _ => hS _, hR.regular, hR.near, hR.solved⟩

theorem runSteps_snoc {S : Type} (step : ℝ → S → Option S) (l : List ℝ) (δ : ℝ) (x : S) : Ode.runSteps step (l ++ [δ]) x = (Ode.runSteps step l x).bind (step δ) := by
  induction l generalizing x with
  | nil =>
    change (step δ x).bind (Ode.runSteps step []) = step δ x
    cases step δ x <;> rfl
  | cons a l ih =>
    change (step a x).bind (Ode.runSteps step (l ++ [δ])) = ((step a x).bind (Ode.runSteps step l)).bind (step δ)
    cases step a x with
    | none => rfl
    | some z => exact ih z

/-- **C92, the code's time integrator.**  The run of the integrator of `Verif.Model.Ode` with the module's solver, from the same initial values, computes these displacements, velocities
and accelerations: the acceleration left over from the last step changes nothing. -/
theorem C92_solver (hm : Massive (V.body y.2.2) s sF C) (hT : ∀ u, C77.Tangent (V.body y.2.2) s (fun p H => A p (V.value y.2.2 p) H) u) (hg : Ode.Prescribes b g)
    (hlin : C78.Exact o.linear) (hnorm : C78.Length o.norm) (ho : Iterates o.newton) (old old' : Buffer ℝ) (rep : Newton.Report) (st0 st : Ode.State2 V.L.B.N) (a : Ode.Vec V.L.B.N)
    (hfirst : dt 0 = 0) (hdt : ∀ k < N, 0 < k → dt k ≠ 0) (hy : ∀ i ∈ b.allDofs, y.1 i = g t0 i) :
    ∃ r, Ode.runSteps (Ode.step2 b .direct ((V.body y.2.2).dynamicSolve (fun p H => A p (V.value y.2.2 p) H) old old' o b.allDofs rep) (1 / 4) (1 / 2)) (C59.steps dt N)
        ⟨st, y.1, y.2.1, a, true, t0⟩ = some r ∧ r.t = time t0 dt N ∧
      (r.x, r.dxdt, if r.first then V.request A old old' o b rep st0 t0 0 0 y.2.2 y.1 y.2.1 else r.d2xdt2) =
        traj (V.dynamic A B old conds (V.request A old old' o b rep st0) linear) t0 dt y N ∧ (r.first = true ↔ N = 0) := by
  set p := V.dynamic A B old conds (V.request A old old' o b rep st0) linear with hp
  set F := (V.body y.2.2).dynamicSolve (fun p H => A p (V.value y.2.2 p) H) old old' o b.allDofs rep with hF
  suffices hK : ∀ K ≤ N, ∃ r, Ode.runSteps (Ode.step2 b .direct F (1 / 4) (1 / 2)) (C59.steps dt K) ⟨st, y.1, y.2.1, a, true, t0⟩ = some r ∧ r.t = time t0 dt K ∧
      (r.x, r.dxdt, if r.first then V.request A old old' o b rep st0 t0 0 0 y.2.2 y.1 y.2.1 else r.d2xdt2) = traj p t0 dt y K ∧ (r.first = true ↔ K = 0) from hK N le_rfl
  intro K
  induction K with
  | zero => exact fun _ => ⟨_, rfl, by simp [time], rfl, by simp⟩
  | succ K ih =>
    intro hK
    obtain ⟨r, h1, h2, h3, h4⟩ := ih (by omega)
    have hstart : ∃ s1, (if r.first then Ode.solve2 b .direct F r.st r.t 0 0 r.x r.dxdt else some (r.st, r.d2xdt2)) = some (s1, acc p t0 dt y K) := by
      by_cases hf : r.first = true
      · have h0 := h4.1 hf
        subst h0
        have ex : r.x = y.1 := congrArg Prod.fst h3
        have ev : r.dxdt = y.2.1 := congrArg (fun z => z.2.1) h3
        have et : r.t = t0 := h2.trans (by simp [time])
        obtain ⟨s1, e1, -⟩ := request_eq (t := t0) (c0 := 0) (c1 := 0) (x := y.1) hm hT hg hlin hnorm ho old old' rep st0 r.st le_rfl (fun _ => rfl) (fun _ => hy) y.2.1
        rw [if_pos hf, ex, ev, et]
        exact ⟨s1, e1⟩
      · rw [if_neg hf]
        rw [if_neg hf] at h3
        exact ⟨r.st, by rw [show r.d2xdt2 = acc p t0 dt y K from congrArg (fun z => z.2.2) h3]⟩
    have ex : r.x = disp p t0 dt y K := congrArg Prod.fst h3
    have ev : r.dxdt = velo p t0 dt y K := congrArg (fun z => z.2.1) h3
    have et : r.t + dt K = time t0 dt (K + 1) := by rw [h2, time, time, sum_range_succ, add_assoc]
    obtain ⟨s1, e1⟩ := hstart
    obtain ⟨s2, e2, -⟩ := request_eq (c1 := 1 / 2 * dt K) (x := predD p t0 dt y K) hm hT hg hlin hnorm ho old old' rep st0 s1 coef.1 (fun e => by rw [coef.2 e, mul_zero])
      (start_bc hfirst hdt hy (k := K) (by omega) fun _ _ => rfl) (predR p t0 dt y K)
    refine ⟨⟨s2, disp p t0 dt y (K + 1), velo p t0 dt y (K + 1), acc p t0 dt y (K + 1), false, time t0 dt (K + 1)⟩, ?_, rfl, rfl, by simp⟩
    have hs : C59.steps dt (K + 1) = C59.steps dt K ++ [dt K] := by simp [C59.steps, List.range_succ]
    rw [hs, runSteps_snoc, h1, Option.bind_some]
    unfold Ode.step2 Ode.newmarkStep
    rw [e1, Option.bind_some]
    dsimp only
    rw [et, ex, ev]
    refine (congrArg (fun z => Option.map (Ode.afterStep b .direct) (Option.map _ z)) e2).trans ?_
    rfl

end Linear

/-! ## The linear isotropic material with parameters -/

section Materials
open Serac.Tensor Serac.Transform Serac.Kernels Serac.Loads Serac.Solid Serac.Deriv
open Serac.C71 (M Shapes)
open Serac.C85 (Field Tangent Smooth Moduli2 theta moduli slopes)
open Serac.C81 (Iterates)
variable {d : Dim} {V : Variant d} {s sF : Shapes} {φ : ℕ → ℕ → ℝ} {dφ : ℕ → ℕ → ℕ → ℝ} {b : Ode.BCs V.L.B.N} {g : ℝ → Ode.Vec V.L.B.N} {o : StaticSolver V.L.B.N}
  {t0 : ℝ} {dt : ℕ → ℝ} {N : ℕ} {y : Data V.L.B.N V.nn} {conds : List (List (Fin V.L.B.N))} {linear : Elim.Mat V.L.B.N → Ode.Vec V.L.B.N → Ode.Vec V.L.B.N}

/-- **C92, the linear isotropic material with parameters**: if every motion has inertia and both moduli are positive at the quadrature points, analyses with the code's solver are such
runs; no dof need be held. -/
theorem C92_isotropic (h : C84.Sound V.L s sF) (hP : Field V φ dφ) (hon : V.L.B.S.on = false) {K0 G0 α β : ℕ → ℝ}
    (hlaw : ∀ p θ H, V.law p θ H = some (Mat.parameterizedLinearIsotropic (K0 p) (G0 p) (α p * θ) (β p * θ) H))
    (hpos : ∀ ee ∈ V.L.B.S.elements.zipIdx, ∀ Q < V.L.B.S.E.npts, let p := ee.2 * V.L.B.S.E.npts + Q
      0 < K0 p + α p * theta V φ y.2.2 ee.1 Q ∧ 0 < G0 p + β p * theta V φ y.2.2 ee.1 Q)
    (hv : C73.Volumes V.L.B s) (hρ : 0 ≤ V.L.B.S.density) (hdef : ∀ v : Ode.Vec V.L.B.N, C73.inertia V.L.B s v v = 0 → v = 0)
    (hg : Ode.Prescribes b g) (hc : conds.flatten = b.allDofs) (hlin : C78.Exact o.linear) (hnorm : C78.Length o.norm) (ho : Iterates o.newton) (old old' : Buffer ℝ)
    (rep : Newton.Report) (st : Ode.State2 V.L.B.N) (hfirst : dt 0 = 0) (hdt : ∀ k < N, 0 < k → dt k ≠ 0) (hy : ∀ i ∈ b.allDofs, y.1 i = g t0 i) :
    Motion V s φ (moduli V) (slopes V) old conds (traj (V.dynamic (moduli V) (slopes V) old conds (V.request (moduli V) old old' o b rep st) linear) t0 dt) t0 dt N y := by
  refine C92_linear (C := C85.isotropicAt V K0 G0 α β) h hP ?_ (Filter.Eventually.of_forall fun q' u => (C85.isotropic_smooth hon hlaw u q').1)
    (fun u => (C85.isotropic_smooth hon hlaw u _).2) hg hc hlin hnorm ho old old' rep st hfirst hdt hy
  filter_upwards [C85.isotropic_good h hP hon hlaw hpos] with q' hq'
  exact ⟨hq'.1, hv, hρ, fun ee hee Q hQ H => (hq'.2 ee hee Q hQ H).1, hdef⟩

end Materials

/-! ## Examples -/

section Example
open Serac.Tensor Serac.Transform Serac.Kernels Serac.Loads Serac.Solid Serac.Deriv
open Serac.C85 (exVariant ex_field ex_sound ex_theta moduli slopes)

/-- The square of C85 with mass: clamped or free, under gravity, traction and pressure, any initial values, any positive steps after the first. -/
theorem ex_motion {b : Ode.BCs 10} (hb : b = C73.exClamp ∨ b = ⟨[], []⟩) (old old' : Buffer ℝ) (o : Newton.Options) (ho : C81.Iterates o) (rep : Newton.Report) (st : Ode.State2 10)
    {dt : ℕ → ℝ} (h0 : dt 0 = 0) (hdt : ∀ k, 0 < k → 0 < dt k) (N : ℕ) (y : Data exVariant.L.B.N exVariant.nn) (hy : ∀ i ∈ b.allDofs, y.1 i = 0) (hq : ∀ i : Fin 5, |y.2.2 i| ≤ 1) :
    Motion exVariant C72.exShapes C72.exShapes.phi (moduli exVariant) (slopes exVariant) old [b.allDofs]
      (traj (exVariant.dynamic (moduli exVariant) (slopes exVariant) old [b.allDofs] (exVariant.request (moduli exVariant) old old' (C82.exSolver o) b rep st) (C82.exSolver o).linear) 0 dt)
      0 dt N y := by
  have hp : Ode.Prescribes b fun _ _ => 0 := by
    rcases hb with rfl | rfl
    · exact C73.ex_clamp
    · exact ⟨by simp, by simp⟩
  refine C92_isotropic (V := exVariant) (K0 := fun _ => 2) (G0 := fun _ => 1) (α := fun _ => 1) (β := fun _ => 0) (g := fun _ _ => 0) ex_sound ex_field rfl (fun _ _ _ => rfl)
    (fun ee _ Q hQ => ⟨by have := ex_theta hq ee.1 (Q := Q) hQ; linarith, by norm_num⟩) (C73.ex_volumes _) (by simp [exVariant, C75.exLoaded, C73.exBody, C73.exMesh]) (C73.ex_definite _)
    hp (List.append_nil _) (C82.ex_exact o) (C82.ex_length o) ho old old' rep st h0 (fun k _ hk => (hdt k hk).ne') hy

/-- Three steps; the objective is the product of the displacements after the second with the accelerations after the third.  The gradient with respect to bulk moduli, initial
displacement and initial velocity of the free dofs. -/
example {b : Ode.BCs 10} (hb : b = C73.exClamp ∨ b = ⟨[], []⟩) (old old' : Buffer ℝ) (o : Newton.Options) (ho : C81.Iterates o) (rep : Newton.Report) (st : Ode.State2 10)
    {dt : ℕ → ℝ} (h0 : dt 0 = 0) (hdt : ∀ k, 0 < k → 0 < dt k) (y : Data exVariant.L.B.N exVariant.nn) (hy : ∀ i ∈ b.allDofs, y.1 i = 0) (hq : ∀ i : Fin 5, |y.2.2 i| ≤ 1) :
    let pr := exVariant.dynamic (moduli exVariant) (slopes exVariant) old [b.allDofs] (exVariant.request (moduli exVariant) old old' (C82.exSolver o) b rep st) (C82.exSolver o).linear
    ∃ r, pass pr y.2.2 (loads (fun j => if j = 0 then ⟨0, none, some 0⟩ else if j = 1 then ⟨acc pr 0 dt y 3, none, some 0⟩ else ⟨0, some 0, some (disp pr 0 dt y 2)⟩) 3)
        (forward pr y.2.2 (C59.steps dt 3) (start 0 y.1 y.2.1)) = some r ∧
      ∃ L : Data exVariant.L.B.N exVariant.nn →L[ℝ] ℝ,
        HasFDerivAt (fun y' => disp pr 0 dt (hold [b.allDofs].flatten y y') 2 ⬝ᵥ acc pr 0 dt (hold [b.allDofs].flatten y y') 3) L y ∧
        ∀ v0 v1 w, (∀ i ∈ [b.allDofs].flatten, v0 i = 0) → (∀ i ∈ [b.allDofs].flatten, v1 i = 0) → L (v0, v1, w) = r.2.adj.D ⬝ᵥ v0 + r.2.adj.V ⬝ᵥ v1 + r.1.sum ⬝ᵥ w := by
  intro pr
  refine C92_gradient (ex_motion hb old old' o ho rep st h0 hdt 3 y hy hq) ex_sound ex_field (C82.ex_exact o) (fun z => (z 1).1 ⬝ᵥ (z 2).2.2) _ ⟨fun k _ => ?_, fun k l _ _ hk => ?_⟩ ?_
  · split_ifs
    · exact Or.inl rfl
    · exact Or.inl rfl
    · exact Or.inr rfl
  · exfalso
    revert hk
    split_ifs <;> simp
  · let S := Ode.Vec exVariant.L.B.N
    have hd : ∀ z : Fin 3 → S × S × S, Diff (fun z : Fin 3 → S × S × S => (z 1).1 ⬝ᵥ (z 2).2.2) (fun v => (z 2).2.2 ⬝ᵥ (v 1).1 + (z 1).1 ⬝ᵥ (v 2).2.2) z := by
      intro z
      have h1 : ∀ i, Diff (fun z : Fin 3 → S × S × S => (z 1).1 i) (fun v => (v 1).1 i) z := fun i =>
        Diff.linear ((ContinuousLinearMap.proj (R := ℝ) (φ := fun _ : Fin exVariant.L.B.N => ℝ) i).comp ((ContinuousLinearMap.fst ℝ S (S × S)).comp
          (ContinuousLinearMap.proj (R := ℝ) (φ := fun _ : Fin 3 => S × S × S) 1))) z
      have h2 : ∀ i, Diff (fun z : Fin 3 → S × S × S => (z 2).2.2 i) (fun v => (v 2).2.2 i) z := fun i =>
        Diff.linear ((ContinuousLinearMap.proj (R := ℝ) (φ := fun _ : Fin exVariant.L.B.N => ℝ) i).comp ((ContinuousLinearMap.snd ℝ S S).comp ((ContinuousLinearMap.snd ℝ S (S × S)).comp
          (ContinuousLinearMap.proj (R := ℝ) (φ := fun _ : Fin 3 => S × S × S) 2)))) z
      refine (Diff.sum univ fun i _ => (h1 i).mul (h2 i)).congr (fun _ => rfl) fun v => ?_
      simp only [dotProduct, ← sum_add_distrib]
      exact sum_congr rfl fun i _ => by ring
    obtain ⟨L, h1, h2⟩ := hd fun k => traj pr 0 dt y (k + 1)
    refine ⟨L, h2, fun v => (h1 v).trans ?_⟩
    rw [Fin.sum_univ_three]
    simp [acc, disp, pr]

/-- The integrator's run of these steps. -/
example (old old' : Buffer ℝ) (o : Newton.Options) (ho : C81.Iterates o) (rep : Newton.Report) (st0 st : Ode.State2 10) {dt : ℕ → ℝ} (h0 : dt 0 = 0) (hdt : ∀ k, 0 < k → 0 < dt k)
    (N : ℕ) (y : Data exVariant.L.B.N exVariant.nn) (hy : ∀ i ∈ C73.exClamp.allDofs, y.1 i = 0) (hq : ∀ i : Fin 5, |y.2.2 i| ≤ 1) :
    ∃ r, Ode.runSteps (Ode.step2 C73.exClamp .direct ((exVariant.body y.2.2).dynamicSolve (fun p H => moduli exVariant p (exVariant.value y.2.2 p) H) old old' (C82.exSolver o)
        C73.exClamp.allDofs rep) (1 / 4) (1 / 2)) (C59.steps dt (N + 1)) ⟨st, y.1, y.2.1, 0, true, 0⟩ = some r ∧
      r.x = disp (exVariant.dynamic (moduli exVariant) (slopes exVariant) old [C73.exClamp.allDofs]
        (exVariant.request (moduli exVariant) old old' (C82.exSolver o) C73.exClamp rep st0) (C82.exSolver o).linear) 0 dt y (N + 1) := by
  have hgood := (C85.isotropic_good (V := exVariant) (K0 := fun _ => 2) (G0 := fun _ => 1) (α := fun _ => 1) (β := fun _ => 0) ex_sound ex_field rfl (fun _ _ _ => rfl) (q := y.2.2)
    (fun ee _ Q hQ => ⟨by have := ex_theta hq ee.1 (Q := Q) hQ; linarith, by norm_num⟩)).self_of_nhds
  obtain ⟨r, h1, -, h2, -⟩ := C92_solver (V := exVariant) (B := slopes exVariant) (conds := [C73.exClamp.allDofs]) (linear := (C82.exSolver o).linear) (N := N + 1) (t0 := 0)
    ⟨hgood.1, C73.ex_volumes [C73.exGravity], show (0 : ℝ) ≤ exVariant.L.B.S.density by simp [exVariant, C75.exLoaded, C73.exBody, C73.exMesh], fun ee hee Q hQ H => (hgood.2 ee hee Q hQ H).1, C73.ex_definite [C73.exGravity]⟩
    (fun u => (C85.isotropic_smooth (V := exVariant) (s := C72.exShapes) (φ := C72.exShapes.phi) (K0 := fun _ => 2) (G0 := fun _ => 1) (α := fun _ => 1) (β := fun _ => 0) rfl
      (fun _ _ _ => rfl) u y.2.2).1.body ex_field)
    C73.ex_clamp (C82.ex_exact o) (C82.ex_length o) ho old old' rep st0 st 0 h0 (fun k _ hk => (hdt k hk).ne') hy
  exact ⟨r, h1, congrArg Prod.fst h2⟩

end Example

end Serac.C92
