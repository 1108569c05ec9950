import Mathlib.Analysis.Calculus.ImplicitFunction.ProdDomain
import Verif.Model.HeatParameter
import Verif.Props.C30
import Verif.Props.C81
import Verif.Props.C85
/-!
# C87: gradients of heat transfer with respect to parameter fields and initial temperatures

Spec.  `Run` is a transient analysis whose steps are solved, for all parameters and initial temperatures near the given ones.  The derivative of the objective is Mathlib's,
through the analysis.  For the assembled operators: `theta` is the parameter field at a point of the mesh, from shape functions, `slopeForm` the weak form of the derivatives of
capacity and heat flux with respect to it, `Tangent` and `Smooth` say that the material is (continuously) differentiable where it is evaluated.
-/

noncomputable section
namespace Serac.C87
open Finset Serac.Adj Serac.TransientAdj
open Serac.C29 (Ess paramPart)
open Serac.C59 (time mulP)
open Serac.StaticAdj (multTranspose)
open scoped Topology Matrix

/-! ## Transient analyses -/

section Abstract
variable {n m : ℕ}

/-- Temperature and rate at the end of step `k`, for an initial temperature and a parameter. -/
def traj (p : Problem n m) (t0 : ℝ) (dt : ℕ → ℝ) (y : Ode.Vec n × Ode.Vec m) : ℕ → Ode.Vec n × Ode.Vec n
  | 0 => (y.1, 0)
  | k + 1 =>
    let r := p.solve (time t0 dt (k + 1)) (dt k) y.2 (traj p t0 dt y k).1
    (fun i => (traj p t0 dt y k).1 i + dt k * r i, r)

/-- Spec: an analysis of `N` steps near the initial temperature and parameter `y`; `G` is the residual as a function of temperature, rate and parameter.  At the end of each step it
is differentiable, the matrices are its derivatives, and the step is regular; for nearby data the analysis stays nearby, satisfies the equations and has the same
prescribed temperatures. -/
structure Run (p : Problem n m) (G : ℝ → Ode.Vec n × Ode.Vec n × Ode.Vec m → Ode.Vec n) (t0 : ℝ) (dt : ℕ → ℝ) (N : ℕ) (y : Ode.Vec n × Ode.Vec m) : Prop where
  size : ∀ k < N, dt k ≠ 0
  deriv : ∀ k < N, ∃ L : (Ode.Vec n × Ode.Vec n × Ode.Vec m) →L[ℝ] Ode.Vec n,
    HasStrictFDerivAt (G (time t0 dt (k + 1))) L ((traj p t0 dt y (k + 1)).1, (traj p t0 dt y (k + 1)).2, y.2) ∧
    ∀ v r w, L (v, r, w) = Elim.mulVec (p.K (time t0 dt (k + 1)) (traj p t0 dt y (k + 1)).1 (traj p t0 dt y (k + 1)).2 y.2) v +
      Elim.mulVec (p.M (time t0 dt (k + 1)) (traj p t0 dt y (k + 1)).1 (traj p t0 dt y (k + 1)).2 y.2) r +
      mulP (p.P (time t0 dt (k + 1)) (traj p t0 dt y (k + 1)).1 (traj p t0 dt y (k + 1)).2 y.2) w
  symmetric : ∀ k < N, C30.Symmetric (p.M (time t0 dt (k + 1)) (traj p t0 dt y (k + 1)).1 (traj p t0 dt y (k + 1)).2 y.2)
  regular : ∀ k < N, ∀ w, Elim.mulVec (Elim.elim (addMat (p.M (time t0 dt (k + 1)) (traj p t0 dt y (k + 1)).1 (traj p t0 dt y (k + 1)).2 y.2) (dt k)
    (p.K (time t0 dt (k + 1)) (traj p t0 dt y (k + 1)).1 (traj p t0 dt y (k + 1)).2 y.2)) p.conds.flatten) w = 0 → w = 0
  near : ∀ k < N, ContinuousAt (fun y' => (traj p t0 dt y' (k + 1)).2) y
  solved : ∀ k < N, ∀ᶠ y' in 𝓝 y, (∀ i ∈ p.conds.flatten, (traj p t0 dt y' (k + 1)).1 i = (traj p t0 dt y (k + 1)).1 i) ∧
    ∀ i ∉ p.conds.flatten, G (time t0 dt (k + 1)) ((traj p t0 dt y' (k + 1)).1, (traj p t0 dt y' (k + 1)).2, y'.2) i = 0

/-- Solutions of an equation with regular derivative are differentiable in the data. -/
theorem solution_diff {Y Z : Type} [NormedAddCommGroup Y] [NormedSpace ℝ Y] [CompleteSpace Y] [NormedAddCommGroup Z] [NormedSpace ℝ Z] {F : Y × Ode.Vec n → Ode.Vec n}
    {D : (Y × Ode.Vec n) →L[ℝ] Ode.Vec n} {z : Z} {c : Z → Y} {C : Z →L[ℝ] Y} {x : Z → Ode.Vec n} (hs : HasStrictFDerivAt F D (c z, x z)) (hinj : ∀ v, D (0, v) = 0 → v = 0)
    (hc : HasFDerivAt c C z) (hx : ContinuousAt x z) (h0 : ∀ᶠ w in 𝓝 z, F (c w, x w) = 0) : ∃ D' : Z →L[ℝ] Ode.Vec n, HasFDerivAt x D' z := by
  have hinj' : Function.Injective (D ∘L ContinuousLinearMap.inr ℝ Y (Ode.Vec n)) := by
    rw [injective_iff_map_eq_zero]
    intro v hv
    exact hinj v hv
  have hinv : (D ∘L ContinuousLinearMap.inr ℝ Y (Ode.Vec n)).IsInvertible := by
    let e : Ode.Vec n ≃ₗ[ℝ] Ode.Vec n := LinearEquiv.ofInjectiveEndo (D ∘L ContinuousLinearMap.inr ℝ Y (Ode.Vec n)).toLinearMap hinj'
    exact ⟨e.toContinuousLinearEquiv, by ext1 v; rfl⟩
  refine ⟨_, ((hs.hasStrictFDerivAt_implicitFunctionOfProdDomain hinv).hasFDerivAt.comp z hc).congr_of_eventuallyEq ?_⟩
  have ht : Filter.Tendsto (fun w => (c w, x w)) (𝓝 z) (𝓝 (c z, x z)) := hc.continuousAt.prodMk hx
  filter_upwards [ht.eventually (hs.eventually_apply_eq_iff_implicitFunctionOfProdDomain hinv), h0] with w h1 h2
  exact (h1.1 (h2.trans h0.self_of_nhds.symm)).symm

/-- Such solutions exist for nearby data. -/
theorem solution_branch {Y : Type} [NormedAddCommGroup Y] [NormedSpace ℝ Y] [CompleteSpace Y] {F : Y × Ode.Vec n → Ode.Vec n} {D : (Y × Ode.Vec n) →L[ℝ] Ode.Vec n} {y : Y} {x : Ode.Vec n}
    (hs : HasStrictFDerivAt F D (y, x)) (hinj : ∀ v, D (0, v) = 0 → v = 0) (h0 : F (y, x) = 0) :
    ∃ U : Y → Ode.Vec n, U y = x ∧ ContinuousAt U y ∧ ∀ᶠ w in 𝓝 y, F (w, U w) = 0 := by
  have hinj' : Function.Injective (D ∘L ContinuousLinearMap.inr ℝ Y (Ode.Vec n)) := by
    rw [injective_iff_map_eq_zero]
    intro v hv
    exact hinj v hv
  have hinv : (D ∘L ContinuousLinearMap.inr ℝ Y (Ode.Vec n)).IsInvertible := by
    let e : Ode.Vec n ≃ₗ[ℝ] Ode.Vec n := LinearEquiv.ofInjectiveEndo (D ∘L ContinuousLinearMap.inr ℝ Y (Ode.Vec n)).toLinearMap hinj'
    exact ⟨e.toContinuousLinearEquiv, by ext1 v; rfl⟩
  refine ⟨hs.implicitFunctionOfProdDomain hinv, (hs.eventually_apply_eq_iff_implicitFunctionOfProdDomain hinv).self_of_nhds.1 rfl,
    (hs.hasStrictFDerivAt_implicitFunctionOfProdDomain hinv).hasFDerivAt.continuousAt, ?_⟩
  filter_upwards [hs.eventually_apply_implicitFunctionOfProdDomain hinv] with w hw
  exact hw.trans h0

variable {p : Problem n m} {G : ℝ → Ode.Vec n × Ode.Vec n × Ode.Vec m → Ode.Vec n} {t0 : ℝ} {dt : ℕ → ℝ} {N : ℕ} {y : Ode.Vec n × Ode.Vec m}

theorem traj_temp (k : ℕ) (y' : Ode.Vec n × Ode.Vec m) : (traj p t0 dt y' (k + 1)).1 = (traj p t0 dt y' k).1 + dt k • (traj p t0 dt y' (k + 1)).2 := rfl

theorem mulVec_lin (A : Elim.Mat n) (c : ℝ) (v w : Ode.Vec n) : Elim.mulVec A (v + c • w) = Elim.mulVec A v + c • Elim.mulVec A w := by
  rw [C29.mulVec_add, C29.mulVec_smul]

/-- The map whose zeros are the rates of a step of size `dt`: temperature before the step, parameter and rate to the gap at the fixed dofs and the residual at the others. -/
def stepGap (fixed : List (Fin n)) (G : Ode.Vec n × Ode.Vec n × Ode.Vec m → Ode.Vec n) (g : Ode.Vec n) (dt : ℝ) (z : (Ode.Vec n × Ode.Vec m) × Ode.Vec n) : Ode.Vec n :=
  fun i => if i ∈ fixed then (z.1.1 + dt • z.2) i - g i else G (z.1.1 + dt • z.2, z.2, z.1.2) i

theorem stepGap_regular {fixed : List (Fin n)} {G : Ode.Vec n × Ode.Vec n × Ode.Vec m → Ode.Vec n} {dt : ℝ} {T r : Ode.Vec n} {q : Ode.Vec m}
    {L : (Ode.Vec n × Ode.Vec n × Ode.Vec m) →L[ℝ] Ode.Vec n} (hL : HasStrictFDerivAt G L (T + dt • r, r, q)) {K M : Elim.Mat n} {P : Fin n → Fin m → ℝ}
    (hLa : ∀ v r w, L (v, r, w) = Elim.mulVec K v + Elim.mulVec M r + mulP P w) (hreg : ∀ w, Elim.mulVec (Elim.elim (addMat M dt K) fixed) w = 0 → w = 0) (hdt : dt ≠ 0)
    (g : Ode.Vec n) : ∃ D : ((Ode.Vec n × Ode.Vec m) × Ode.Vec n) →L[ℝ] Ode.Vec n, HasStrictFDerivAt (stepGap fixed G g dt) D ((T, q), r) ∧ ∀ v, D (0, v) = 0 → v = 0 := by
  -- temperature, rate and parameter from temperature before the step, parameter and rate
  let W := (Ode.Vec n × Ode.Vec m) × Ode.Vec n
  let E : W →L[ℝ] Ode.Vec n × Ode.Vec n × Ode.Vec m :=
    ((ContinuousLinearMap.fst ℝ (Ode.Vec n) (Ode.Vec m) ∘L ContinuousLinearMap.fst ℝ (Ode.Vec n × Ode.Vec m) (Ode.Vec n)) + dt • ContinuousLinearMap.snd ℝ (Ode.Vec n × Ode.Vec m) (Ode.Vec n)).prod
      ((ContinuousLinearMap.snd ℝ (Ode.Vec n × Ode.Vec m) (Ode.Vec n)).prod
        (ContinuousLinearMap.snd ℝ (Ode.Vec n) (Ode.Vec m) ∘L ContinuousLinearMap.fst ℝ (Ode.Vec n × Ode.Vec m) (Ode.Vec n)))
  have hE : ∀ z : W, E z = (z.1.1 + dt • z.2, z.2, z.1.2) := fun z => rfl
  let π : Fin n → (Ode.Vec n →L[ℝ] ℝ) := fun i => ContinuousLinearMap.proj (R := ℝ) (φ := fun _ : Fin n => ℝ) i
  let D : W →L[ℝ] Ode.Vec n := ContinuousLinearMap.pi fun i => if i ∈ fixed then (π i).comp ((ContinuousLinearMap.fst ℝ _ _).comp E) else (π i).comp (L.comp E)
  have hD : ∀ z i, D z i = if i ∈ fixed then (E z).1 i else L (E z) i := by
    intro z i
    change (if i ∈ fixed then (π i).comp ((ContinuousLinearMap.fst ℝ _ _).comp E) else (π i).comp (L.comp E)) z = _
    split_ifs <;> rfl
  refine ⟨D, ?_, ?_⟩
  · refine hasStrictFDerivAt_pi'.2 fun i => ?_
    by_cases hi : i ∈ fixed
    · have e : (fun z => stepGap fixed G g dt z i) = fun z => (E z).1 i - g i := by funext z; simp only [stepGap, if_pos hi, hE]
      have e' : (ContinuousLinearMap.proj i).comp D = (π i).comp ((ContinuousLinearMap.fst ℝ _ _).comp E) := by
        refine ContinuousLinearMap.ext fun z => ?_
        exact (hD z i).trans (if_pos hi)
      rw [e, e']
      exact ((π i).comp ((ContinuousLinearMap.fst ℝ _ _).comp E)).hasStrictFDerivAt.sub_const _
    · have e : (fun z => stepGap fixed G g dt z i) = fun z => G (E z) i := by funext z; simp only [stepGap, if_neg hi, hE]
      have e' : (ContinuousLinearMap.proj i).comp D = (π i).comp (L.comp E) := by
        refine ContinuousLinearMap.ext fun z => ?_
        exact (hD z i).trans (if_neg hi)
      rw [e, e']
      have h1 : HasStrictFDerivAt (fun z => G (E z)) (L.comp E) ((T, q), r) := HasStrictFDerivAt.comp (f := E) _ hL E.hasStrictFDerivAt
      exact (π i).hasStrictFDerivAt.comp _ h1
  · intro v hv
    have h1 : ∀ i ∈ fixed, v i = 0 := by
      intro i hi
      have := congrFun hv i
      rw [hD, if_pos hi, hE] at this
      have h2 : dt * v i = 0 := by simpa using this
      exact (mul_eq_zero.1 h2).resolve_left hdt
    apply hreg
    rw [C77.elim_free _ _ _ h1]
    funext i
    by_cases hi : i ∈ fixed
    · rw [if_pos hi]; rfl
    · rw [if_neg hi]
      have := congrFun hv i
      rw [hD, if_neg hi, hE, hLa] at this
      have h3 : mulP P (0 : Ode.Vec m) = 0 := by funext j; simp [mulP]
      have h4 : Elim.mulVec K (((0 : Ode.Vec n × Ode.Vec m), v).1.1 + dt • v) = dt • Elim.mulVec K v := by
        rw [mulVec_lin]
        have : Elim.mulVec K ((0 : Ode.Vec n × Ode.Vec m), v).1.1 = 0 := by funext j; simp [Elim.mulVec]
        rw [this, zero_add]
      have h5 : (dt • Elim.mulVec K v + Elim.mulVec M v + mulP P (0 : Ode.Vec m)) i = 0 := by
        rw [← h4]
        exact this
      rw [h3, add_zero] at h5
      simp only [Pi.add_apply, Pi.smul_apply, smul_eq_mul] at h5
      rw [Pi.zero_apply, ← h5]
      simp only [Elim.mulVec, addMat, mul_sum, ← sum_add_distrib]
      exact sum_congr rfl fun j _ => by ring

/-- A step: temperatures before it are differentiable in the data, hence the rate is. -/
theorem Run.step (hR : Run p G t0 dt N y) {k : ℕ} (hk : k < N) {A : (Ode.Vec n × Ode.Vec m) →L[ℝ] Ode.Vec n} (hA : HasFDerivAt (fun y' => (traj p t0 dt y' k).1) A y) :
    ∃ B : (Ode.Vec n × Ode.Vec m) →L[ℝ] Ode.Vec n, HasFDerivAt (fun y' => (traj p t0 dt y' (k + 1)).2) B y := by
  obtain ⟨L, hL, hLa⟩ := hR.deriv k hk
  rw [traj_temp] at hL
  obtain ⟨D, hs, hinj⟩ := stepGap_regular hL hLa (hR.regular k hk) (hR.size k hk) (traj p t0 dt y (k + 1)).1
  have hcd : HasFDerivAt (fun y' : Ode.Vec n × Ode.Vec m => ((traj p t0 dt y' k).1, y'.2)) (A.prod (ContinuousLinearMap.snd ℝ _ _)) y := hA.prodMk hasFDerivAt_snd
  refine solution_diff (D := D) (c := fun y' : Ode.Vec n × Ode.Vec m => ((traj p t0 dt y' k).1, y'.2)) hs hinj hcd (hR.near k hk) ?_
  filter_upwards [hR.solved k hk] with y' hy'
  funext i
  by_cases hi : i ∈ p.conds.flatten
  · simp only [stepGap, if_pos hi]
    rw [← traj_temp, hy'.1 i hi, sub_self]; rfl
  · simp only [stepGap, if_neg hi]
    rw [← traj_temp]
    exact hy'.2 i hi

/-- Temperatures and rates of the analysis are differentiable in the data. -/
theorem Run.diffs (hR : Run p G t0 dt N y) : ∃ A B : ℕ → (Ode.Vec n × Ode.Vec m) →L[ℝ] Ode.Vec n, A 0 = ContinuousLinearMap.fst ℝ _ _ ∧
    (∀ k < N, A (k + 1) = A k + dt k • B (k + 1)) ∧ (∀ k ≤ N, HasFDerivAt (fun y' => (traj p t0 dt y' k).1) (A k) y) ∧
    ∀ k < N, HasFDerivAt (fun y' => (traj p t0 dt y' (k + 1)).2) (B (k + 1)) y := by
  suffices h : ∀ K ≤ N, ∃ A B : ℕ → (Ode.Vec n × Ode.Vec m) →L[ℝ] Ode.Vec n, A 0 = ContinuousLinearMap.fst ℝ _ _ ∧
      (∀ k < K, A (k + 1) = A k + dt k • B (k + 1)) ∧ (∀ k ≤ K, HasFDerivAt (fun y' => (traj p t0 dt y' k).1) (A k) y) ∧
      ∀ k < K, HasFDerivAt (fun y' => (traj p t0 dt y' (k + 1)).2) (B (k + 1)) y from h N le_rfl
  intro K
  induction K with
  | zero =>
    intro _
    refine ⟨fun _ => ContinuousLinearMap.fst ℝ _ _, fun _ => 0, rfl, fun k hk => absurd hk (Nat.not_lt_zero k), fun k hk => ?_, fun k hk => absurd hk (Nat.not_lt_zero k)⟩
    obtain rfl := Nat.le_zero.1 hk
    exact hasFDerivAt_fst
  | succ K ih =>
    intro hK
    obtain ⟨A, B, h0, h1, h2, h3⟩ := ih (by omega)
    obtain ⟨B', hB'⟩ := hR.step (k := K) (by omega) (h2 K le_rfl)
    refine ⟨Function.update A (K + 1) (A K + dt K • B'), Function.update B (K + 1) B', ?_, fun k hk => ?_, fun k hk => ?_, fun k hk => ?_⟩
    · rw [Function.update_of_ne (by omega), h0]
    · rcases Nat.lt_succ_iff_lt_or_eq.1 hk with h | rfl
      · rw [Function.update_of_ne (by omega), Function.update_of_ne (by omega), Function.update_of_ne (by omega), h1 k h]
      · rw [Function.update_self, Function.update_self, Function.update_of_ne (by omega)]
    · rcases Nat.le_succ_iff.1 hk with h | rfl
      · rw [Function.update_of_ne (by omega)]
        exact h2 k h
      · rw [Function.update_self]
        exact (h2 K le_rfl).add (hB'.const_smul (dt K))
    · rcases Nat.lt_succ_iff_lt_or_eq.1 hk with h | rfl
      · rw [Function.update_of_ne (by omega)]
        exact h3 k h
      · rw [Function.update_self]
        exact hB'

/-- What the nonlinear solver is asked for: the rate `r` of a step of size `dt` from temperature `T`, with temperature `g` at the fixed dofs at the end of it. -/
def Solves (fixed : List (Fin n)) (G : Ode.Vec n × Ode.Vec n × Ode.Vec m → Ode.Vec n) (g : Ode.Vec n) (dt : ℝ) (q : Ode.Vec m) (T r : Ode.Vec n) : Prop :=
  (∀ i ∈ fixed, (T + dt • r) i = g i) ∧ ∀ i ∉ fixed, G (T + dt • r, r, q) i = 0

theorem stepGap_zero {fixed : List (Fin n)} {G : Ode.Vec n × Ode.Vec n × Ode.Vec m → Ode.Vec n} {g : Ode.Vec n} {dt : ℝ} {q : Ode.Vec m} {T r : Ode.Vec n} :
    stepGap fixed G g dt ((T, q), r) = 0 ↔ Solves fixed G g dt q T r := by
  constructor
  · intro h
    refine ⟨fun i hi => ?_, fun i hi => ?_⟩
    · have := congrFun h i
      simp only [stepGap, if_pos hi, Pi.zero_apply] at this
      linarith
    · have := congrFun h i
      simpa only [stepGap, if_neg hi, Pi.zero_apply] using this
  · rintro ⟨h1, h2⟩
    funext i
    by_cases hi : i ∈ fixed
    · simp only [stepGap, if_pos hi, h1 i hi, sub_self, Pi.zero_apply]
    · simp only [stepGap, if_neg hi, h2 i hi, Pi.zero_apply]

/-- If the solver finds the rate of every step and there is only one, the analysis stays near. -/
theorem Run.of_unique (hsize : ∀ k < N, dt k ≠ 0)
    (hderiv : ∀ k < N, ∃ L : (Ode.Vec n × Ode.Vec n × Ode.Vec m) →L[ℝ] Ode.Vec n,
      HasStrictFDerivAt (G (time t0 dt (k + 1))) L ((traj p t0 dt y (k + 1)).1, (traj p t0 dt y (k + 1)).2, y.2) ∧
      ∀ v r w, L (v, r, w) = Elim.mulVec (p.K (time t0 dt (k + 1)) (traj p t0 dt y (k + 1)).1 (traj p t0 dt y (k + 1)).2 y.2) v +
        Elim.mulVec (p.M (time t0 dt (k + 1)) (traj p t0 dt y (k + 1)).1 (traj p t0 dt y (k + 1)).2 y.2) r +
        mulP (p.P (time t0 dt (k + 1)) (traj p t0 dt y (k + 1)).1 (traj p t0 dt y (k + 1)).2 y.2) w)
    (hsym : ∀ k < N, C30.Symmetric (p.M (time t0 dt (k + 1)) (traj p t0 dt y (k + 1)).1 (traj p t0 dt y (k + 1)).2 y.2))
    (hreg : ∀ k < N, ∀ w, Elim.mulVec (Elim.elim (addMat (p.M (time t0 dt (k + 1)) (traj p t0 dt y (k + 1)).1 (traj p t0 dt y (k + 1)).2 y.2) (dt k)
      (p.K (time t0 dt (k + 1)) (traj p t0 dt y (k + 1)).1 (traj p t0 dt y (k + 1)).2 y.2)) p.conds.flatten) w = 0 → w = 0)
    (g : ℕ → Ode.Vec n)
    (hsol : ∀ k < N, ∀ᶠ q in 𝓝 y.2, ∀ T, Solves p.conds.flatten (G (time t0 dt (k + 1))) (g k) (dt k) q T (p.solve (time t0 dt (k + 1)) (dt k) q T))
    (huniq : ∀ k < N, ∀ᶠ q in 𝓝 y.2, ∀ T r r', Solves p.conds.flatten (G (time t0 dt (k + 1))) (g k) (dt k) q T r →
      Solves p.conds.flatten (G (time t0 dt (k + 1))) (g k) (dt k) q T r' → r = r') : Run p G t0 dt N y := by
  have hq : Filter.Tendsto (fun y' : Ode.Vec n × Ode.Vec m => y'.2) (𝓝 y) (𝓝 y.2) := continuousAt_snd
  have hrate : ∀ k y', (traj p t0 dt y' (k + 1)).2 = p.solve (time t0 dt (k + 1)) (dt k) y'.2 (traj p t0 dt y' k).1 := fun k y' => rfl
  have hs' : ∀ k < N, ∀ᶠ y' in 𝓝 y, Solves p.conds.flatten (G (time t0 dt (k + 1))) (g k) (dt k) y'.2 (traj p t0 dt y' k).1 (traj p t0 dt y' (k + 1)).2 := by
    intro k hk
    filter_upwards [hq.eventually (hsol k hk)] with y' hy'
    exact hy' _
  have key : ∀ k < N, ContinuousAt (fun y' => (traj p t0 dt y' k).1) y → ContinuousAt (fun y' => (traj p t0 dt y' (k + 1)).2) y := by
    intro k hk hc
    obtain ⟨L, hL, hLa⟩ := hderiv k hk
    rw [traj_temp] at hL
    obtain ⟨D, hs, hinj⟩ := stepGap_regular hL hLa (hreg k hk) (hsize k hk) (g k)
    obtain ⟨U, hU0, hUc, hU⟩ := solution_branch hs hinj (stepGap_zero.2 (hs' k hk).self_of_nhds)
    have ht : ContinuousAt (fun y' : Ode.Vec n × Ode.Vec m => ((traj p t0 dt y' k).1, y'.2)) y := hc.prodMk continuousAt_snd
    have hcomp : ContinuousAt (fun y' : Ode.Vec n × Ode.Vec m => U ((traj p t0 dt y' k).1, y'.2)) y := ContinuousAt.comp (f := fun y' : Ode.Vec n × Ode.Vec m => ((traj p t0 dt y' k).1, y'.2)) hUc ht
    refine hcomp.congr_of_eventuallyEq ?_
    filter_upwards [ht.tendsto.eventually hU, hs' k hk, hq.eventually (huniq k hk)] with y' h1 h2 h3
    exact h3 _ _ _ h2 (stepGap_zero.1 h1)
  have htemp : ∀ k ≤ N, ContinuousAt (fun y' => (traj p t0 dt y' k).1) y := by
    intro k
    induction k with
    | zero => exact fun _ => continuousAt_fst
    | succ k ih =>
      intro hk
      have h1 := ih (by omega)
      exact h1.add ((key k (by omega) h1).const_smul (dt k))
  refine ⟨hsize, hderiv, hsym, hreg, fun k hk => key k hk (htemp k hk.le), fun k hk => ?_⟩
  have h0 := (hs' k hk).self_of_nhds
  filter_upwards [hs' k hk] with y' hy'
  exact ⟨fun i hi => (hy'.1 i hi).trans (h0.1 i hi).symm, hy'.2⟩

/-! ### The pass -/

/-- The steps as `Verif.Model.Adjoint` has them. -/
def stepAt (p : Problem n m) (t0 : ℝ) (dt : ℕ → ℝ) (y : Ode.Vec n × Ode.Vec m) (load : ℕ → HeatLoad n) (k : ℕ) : HeatStep n :=
  ⟨dt k, p.M (time t0 dt (k + 1)) (traj p t0 dt y (k + 1)).1 (traj p t0 dt y (k + 1)).2 y.2,
    p.K (time t0 dt (k + 1)) (traj p t0 dt y (k + 1)).1 (traj p t0 dt y (k + 1)).2 y.2, load k⟩

def stepList (p : Problem n m) (t0 : ℝ) (dt : ℕ → ℝ) (y : Ode.Vec n × Ode.Vec m) (load : ℕ → HeatLoad n) (N : ℕ) : List (HeatStep n) :=
  (List.range N).map (stepAt p t0 dt y load)

/-- The loads of a pass, last step first. -/
def loads (load : ℕ → HeatLoad n) (N : ℕ) : List (HeatLoad n) := ((List.range N).map load).reverse

theorem loads_succ (load : ℕ → HeatLoad n) (N : ℕ) : loads load (N + 1) = load N :: loads load N := by
  simp [loads, List.range_succ]

/-- The parts of the state that the forward analysis leaves and the adjoint pass does not change, with the position `k` of the pass. -/
structure At (p : Problem n m) (t0 : ℝ) (dt : ℕ → ℝ) (y : Ode.Vec n × Ode.Vec m) (N k : ℕ) (s : State n m) : Prop where
  cycle : s.cycle = k
  time : s.time = time t0 dt k
  checkpoints : s.checkpoints = (List.range (N + 1)).map (traj p t0 dt y)
  timesteps : s.timesteps = C59.steps dt N

theorem forward_append (p : Problem n m) (q : Ode.Vec m) (l : List ℝ) (d : ℝ) (s : State n m) : forward p q (l ++ [d]) s = advance p q d (forward p q l s) := by
  induction l generalizing s with
  | nil => rfl
  | cons a l ih => exact ih _

/-- **Forward analysis**: every step is solved at its own end time, and temperature and rate are kept. -/
theorem C87_forward (p : Problem n m) (t0 : ℝ) (dt : ℕ → ℝ) (y : Ode.Vec n × Ode.Vec m) (N : ℕ) :
    let s : State n m := forward p y.2 (C59.steps dt N) (start t0 y.1)
    At p t0 dt y N N s ∧ s.maxCycle = N ∧ s.adj = heatInit n ∧ (s.temp, s.rate) = traj p t0 dt y N := by
  induction N with
  | zero => exact ⟨⟨rfl, by simp [forward, start, C59.steps, time], rfl, rfl⟩, rfl, rfl, rfl⟩
  | succ N ih =>
    obtain ⟨h, hm, ha, hd⟩ := ih
    intro s
    have hs : s = advance p y.2 (dt N) (forward p y.2 (C59.steps dt N) (start t0 y.1)) := by
      simp only [s, C59.steps, List.range_succ, List.map_append, List.map_cons, List.map_nil]
      exact forward_append _ _ _ _ _
    generalize forward p y.2 (C59.steps dt N) (start t0 y.1 : State n m) = f at h hd hs hm ha
    have ht : f.time + dt N = time t0 dt (N + 1) := by rw [h.time, time, time, sum_range_succ, add_assoc]
    have hT : f.temp = (traj p t0 dt y N).1 := congrArg Prod.fst hd
    have hu : ((fun i => f.temp i + dt N * p.solve (f.time + dt N) (dt N) y.2 f.temp i, p.solve (f.time + dt N) (dt N) y.2 f.temp) : Ode.Vec n × Ode.Vec n) =
        traj p t0 dt y (N + 1) := by
      rw [ht, hT]
      rfl
    have hc : f.cycle + 1 > f.maxCycle := by rw [h.cycle, hm]; exact Nat.lt_succ_self N
    rw [hs]
    refine ⟨⟨?_, ht, ?_, ?_⟩, ?_, ha, hu⟩
    · show f.cycle + 1 = N + 1
      rw [h.cycle]
    · show f.checkpoints ++ [_] = _
      rw [List.range_succ (n := N + 1), List.map_append, h.checkpoints]
      exact congrArg (fun z => _ ++ [z]) hu
    · show (if f.cycle + 1 > f.maxCycle then f.timesteps ++ [dt N] else f.timesteps) = _
      rw [if_pos hc, h.timesteps, C59.steps, C59.steps, List.range_succ, List.map_append]
      rfl
    · show (if f.cycle + 1 > f.maxCycle then f.cycle + 1 else f.maxCycle) = _
      rw [if_pos hc, h.cycle]

theorem heatPass_append (conds : List (List (Fin n))) (solve : Elim.Mat n → Elim.Vec n → Elim.Vec n) (l : List (HeatStep n)) (st : HeatStep n) (s : HeatState n) :
    heatPass conds solve (l ++ [st]) s = (heatReverse conds solve st.dt st.M st.K (heatSetAdjointLoad st.load s)).bind fun s2 =>
      (heatPass conds solve l s2).map fun r => (r.1 ++ [s2.lam], r.2) := by
  induction l with
  | nil =>
    simp only [List.nil_append, heatPass, Option.bind_some]
    cases heatReverse conds solve st.dt st.M st.K (heatSetAdjointLoad st.load s) <;> rfl
  | cons a l ih =>
    rw [List.cons_append, heatPass, ih]
    cases heatReverse conds solve st.dt st.M st.K (heatSetAdjointLoad st.load s) with
    | none => rfl
    | some s2 =>
      simp only [Option.bind_some, heatPass]
      cases heatPass conds solve l s2 with
      | none => rfl
      | some r =>
        simp only [Option.map_some, Option.bind_some]
        cases heatReverse conds solve a.dt a.M a.K (heatSetAdjointLoad a.load r.2) <;> rfl

theorem heatPass_length {conds : List (List (Fin n))} {solve : Elim.Mat n → Elim.Vec n → Elim.Vec n} {l : List (HeatStep n)} {s : HeatState n} {z : List (Ode.Vec n) × HeatState n}
    (h : heatPass conds solve l s = some z) : z.1.length = l.length := by
  induction l generalizing z with
  | nil =>
    rw [heatPass, Option.some.injEq] at h
    rw [← h]
    rfl
  | cons a l ih =>
    obtain ⟨q, s2, hq, -, rfl⟩ := C30.pass_cons h
    rw [List.length_cons, List.length_cons, ih hq]

theorem paramPart_append (l : List (Ode.Vec n)) (x : Ode.Vec n) (f : ℕ → Ode.Vec n) : paramPart (l ++ [x]) f = paramPart l f + x ⬝ᵥ f l.length := by
  induction l generalizing f with
  | nil => simp [paramPart]
  | cons a l ih =>
    rw [List.cons_append, paramPart, paramPart, ih, add_assoc]
    rfl

/-- One reverse step from position `k + 1`. -/
theorem reverse_at (p : Problem n m) (t0 : ℝ) (dt : ℕ → ℝ) (y : Ode.Vec n × Ode.Vec m) {N k : ℕ} (hk : k < N) (s : State n m) (h : At p t0 dt y N (k + 1) s) (a : HeatState n)
    (ha : heatReverse p.conds p.linear (dt k) (p.M (time t0 dt (k + 1)) (traj p t0 dt y (k + 1)).1 (traj p t0 dt y (k + 1)).2 y.2)
      (p.K (time t0 dt (k + 1)) (traj p t0 dt y (k + 1)).1 (traj p t0 dt y (k + 1)).2 y.2) s.adj = some a) :
    ∃ s', reverse p y.2 s = some s' ∧ At p t0 dt y N k s' ∧ s'.adj = a ∧ s'.temp = (traj p t0 dt y (k + 1)).1 ∧ s'.rate = (traj p t0 dt y (k + 1)).2 ∧
      s'.timeEnd = time t0 dt (k + 1) := by
  have hck : s.checkpoints[k + 1]? = some (traj p t0 dt y (k + 1)) := by
    rw [h.checkpoints, List.getElem?_map, List.getElem?_range (by omega)]
    rfl
  have hdt : s.timesteps.getD k 0 = dt k := by
    rw [h.timesteps, C59.steps, List.getD_eq_getElem?_getD, List.getElem?_map, List.getElem?_range hk]
    rfl
  have hlen : ¬ k + 1 > s.timesteps.length := by
    rw [h.timesteps, C59.steps, List.length_map, List.length_range]
    omega
  have hrev : reverse p y.2 s = some { s with
      cycle := k
      temp := (traj p t0 dt y (k + 1)).1
      rate := (traj p t0 dt y (k + 1)).2
      adj := a
      timeEnd := s.time
      time := s.time - s.timesteps.getD k 0 } := by
    rw [reverse, if_neg (by rw [h.cycle]; omega)]
    dsimp only
    rw [h.cycle, Nat.add_sub_cancel, if_neg hlen, hck]
    dsimp only
    rw [h.time, hdt, ha, Option.map_some]
  refine ⟨_, hrev, ⟨rfl, ?_, h.checkpoints, h.timesteps⟩, rfl, rfl, rfl, h.time⟩
  show s.time - s.timesteps.getD k 0 = _
  rw [h.time, hdt, time, time, sum_range_succ]
  ring

/-- The pass with checkpoints is the pass over the steps; its sensitivities are the transposed parameter matrices times the adjoint temperatures. -/
theorem pass_eq (p : Problem n m) (t0 : ℝ) (dt : ℕ → ℝ) (y : Ode.Vec n × Ode.Vec m) (load : ℕ → HeatLoad n) {N : ℕ} (K : ℕ) (hK : K ≤ N) (s : State n m)
    (hs : At p t0 dt y N K s) (z : List (Ode.Vec n) × HeatState n) (hz : heatPass p.conds p.linear (stepList p t0 dt y load K) s.adj = some z) :
    ∃ r, pass p y.2 (loads load K) s = some r ∧ r.2.adj = z.2 ∧ ∀ w, r.1.sum ⬝ᵥ w =
      paramPart z.1 fun k => mulP (p.P (time t0 dt (k + 1)) (traj p t0 dt y (k + 1)).1 (traj p t0 dt y (k + 1)).2 y.2) w := by
  induction K generalizing s z with
  | zero =>
    simp only [stepList, List.range_zero, List.map_nil, heatPass, Option.some.injEq] at hz
    refine ⟨([], s), rfl, by rw [← hz], fun w => ?_⟩
    rw [← hz]
    simp [paramPart]
  | succ K ih =>
    have hl : stepList p t0 dt y load (K + 1) = stepList p t0 dt y load K ++ [stepAt p t0 dt y load K] := by
      rw [stepList, List.range_succ, List.map_append]
      rfl
    rw [hl, heatPass_append] at hz
    obtain ⟨s2, h2, hz⟩ := Option.bind_eq_some_iff.1 hz
    obtain ⟨z', hz', rfl⟩ := Option.map_eq_some_iff.1 hz
    have hset : At p t0 dt y N (K + 1) (setAdjointLoad (load K) s) := ⟨hs.cycle, hs.time, hs.checkpoints, hs.timesteps⟩
    obtain ⟨s', hrev, hat, hadj, hT, hr, hend⟩ := reverse_at p t0 dt y (Nat.lt_of_succ_le hK) _ hset s2 h2
    have hat' : At p t0 dt y N K (timestepSensitivity p y.2 s') := ⟨hat.cycle, hat.time, hat.checkpoints, hat.timesteps⟩
    have hadj' : (timestepSensitivity p y.2 s').adj = s2 := hadj
    obtain ⟨r, hr1, hr2, hr3⟩ := ih (by omega) _ hat' z' (by rw [hadj']; exact hz')
    refine ⟨((timestepSensitivity p y.2 s').sens :: r.1, r.2), ?_, hr2, fun w => ?_⟩
    · rw [loads_succ, pass, hrev]
      dsimp only
      rw [hr1, Option.map_some]
    · have hlen : z'.1.length = K := by
        rw [heatPass_length hz', stepList, List.length_map, List.length_range]
      rw [List.sum_cons, add_dotProduct, hr3, paramPart_append, hlen, add_comm]
      congr 1
      rw [timestepSensitivity]
      dsimp only
      rw [C59.multTranspose_dot, hend, hT, hr, hadj]

/-- Spec: the loads are the gradient of the objective `J` of the temperatures and rates of all steps; a rate load that is left out counts as zero. -/
def Gradient (J : (Fin N → Ode.Vec n × Ode.Vec n) → ℝ) (z : Fin N → Ode.Vec n × Ode.Vec n) (load : ℕ → HeatLoad n) : Prop :=
  ∃ L : (Fin N → Ode.Vec n × Ode.Vec n) →L[ℝ] ℝ, HasFDerivAt J L z ∧ ∀ dz, L dz = ∑ k : Fin N, ((load k).gT ⬝ᵥ (dz k).1 + ((load k).gr.getD 0) ⬝ᵥ (dz k).2)

/-- A step without a rate load is followed by steps without one only: the reverse pass would use the load given before (`C30_stale_load_wrong`). -/
def Fresh (load : ℕ → HeatLoad n) (N : ℕ) : Prop := ∀ k l, k < l → l < N → (load k).gr = none → (load l).gr = none

theorem objective_range (load : ℕ → HeatStep n) (N : ℕ) (x : ℕ → C30.Var n) : C30.objective (((List.range N).map load).map HeatStep.load) x =
    ∑ k : Fin N, ((load k).load.gT ⬝ᵥ (x (k + 1)).T + ((load k).load.gr.getD 0) ⬝ᵥ (x (k + 1)).R) := by
  have happ : ∀ (l : List (HeatLoad n)) (a : HeatLoad n) (x : ℕ → C30.Var n), C30.objective (l ++ [a]) x = C30.objective l x +
      (a.gT ⬝ᵥ (x (l.length + 1)).T + (a.gr.getD 0) ⬝ᵥ (x (l.length + 1)).R) := by
    intro l a
    induction l with
    | nil => intro x; simp [C30.objective]
    | cons b l ih =>
      intro x
      rw [List.cons_append, C30.objective, C30.objective, ih, add_assoc _ (C30.objective _ _)]
      rfl
  induction N with
  | zero => simp [C30.objective]
  | succ N ih =>
    rw [List.range_succ, List.map_append, List.map_append, List.map_cons, List.map_cons, List.map_nil, List.map_nil, happ, ih, Fin.sum_univ_castSucc]
    simp

/-- **C87, gradients of transient analyses.**  The analysis followed by the adjoint pass, with any number of steps: what it returns is the gradient of any differentiable
objective of the temperatures and rates of all steps: the sum of the parameter sensitivities with respect to the parameter, the initial condition sensitivity with respect to
the initial temperature of the free dofs. -/
theorem C87_transient (hR : Run p G t0 dt N y) (hl : C78.Exact p.linear) (J : (Fin N → Ode.Vec n × Ode.Vec n) → ℝ) (load : ℕ → HeatLoad n) (hf : Fresh load N)
    (hJ : Gradient J (fun k => traj p t0 dt y (k + 1)) load) :
    ∃ r, pass p y.2 (loads load N) (forward p y.2 (C59.steps dt N) (start t0 y.1)) = some r ∧
      ∃ L : (Ode.Vec n × Ode.Vec m) →L[ℝ] ℝ, HasFDerivAt (fun y' => J fun k : Fin N => traj p t0 dt y' (k + 1)) L y ∧
        ∀ v w, (∀ i ∈ p.conds.flatten, v i = 0) → L (v, w) = r.2.adj.D ⬝ᵥ v + r.1.sum ⬝ᵥ w := by
  obtain ⟨A, B, hA0, hAs, hA, hB⟩ := hR.diffs
  obtain ⟨hat, -, hini, -⟩ := C87_forward p t0 dt y N
  have hlen : (stepList p t0 dt y load N).length = N := by rw [stepList, List.length_map, List.length_range]
  have hget : ∀ k (h : k < (stepList p t0 dt y load N).length), (stepList p t0 dt y load N)[k] = stepAt p t0 dt y load k := by
    intro k h
    simp [stepList]
  have hmem : ∀ st ∈ stepList p t0 dt y load N, ∃ k < N, stepAt p t0 dt y load k = st := by
    intro st hst
    obtain ⟨k, hk, rfl⟩ := List.mem_map.1 hst
    exact ⟨k, List.mem_range.1 hk, rfl⟩
  obtain ⟨z, hz⟩ := C30.pass_isSome p.conds p.linear (stepList p t0 dt y load N) (heatInit n) fun st hst => by
    obtain ⟨k, hk, rfl⟩ := hmem st hst
    exact hR.size k hk
  obtain ⟨r, hr, hra, hrs⟩ := pass_eq p t0 dt y load N le_rfl _ hat z (by rw [hini]; exact hz)
  refine ⟨r, hr, ?_⟩
  obtain ⟨L, hL, hLa⟩ := hJ
  have hd : HasFDerivAt (fun y' => fun k : Fin N => traj p t0 dt y' (k + 1)) (ContinuousLinearMap.pi fun k : Fin N => (A (k + 1)).prod (B (k + 1))) y :=
    hasFDerivAt_pi.2 fun k => (hA (k + 1) k.2).prodMk (hB k k.2)
  refine ⟨L.comp (ContinuousLinearMap.pi fun k : Fin N => (A (k + 1)).prod (B (k + 1))), hL.comp y hd, fun v w hv => ?_⟩
  have hEss : ∀ i, Ess p.conds i ↔ i ∈ p.conds.flatten := fun i => List.mem_flatten.symm
  set x : ℕ → C30.Var n := fun k => ⟨A k (v, w), B k (v, w)⟩ with hx
  -- temperatures of constrained dofs do not change
  have hfix : ∀ k ≤ N, ∀ i ∈ p.conds.flatten, A k (v, w) i = 0 := by
    intro k hk i hi
    cases k with
    | zero => rw [hA0]; exact hv i hi
    | succ k =>
      have h1 := (hasFDerivAt_pi'.1 (hA (k + 1) hk)) i
      have h2 : HasFDerivAt (fun y' => (traj p t0 dt y' (k + 1)).1 i) (0 : (Ode.Vec n × Ode.Vec m) →L[ℝ] ℝ) y := by
        refine (hasFDerivAt_const ((traj p t0 dt y (k + 1)).1 i) y).congr_of_eventuallyEq ?_
        filter_upwards [hR.solved k hk] with y' hy'
        exact hy'.1 i hi
      exact DFunLike.congr_fun (h1.unique h2) (v, w)
  have hmot : C30.TangentMotion p.conds (stepList p t0 dt y load N)
      (fun k => mulP (p.P (time t0 dt (k + 1)) (traj p t0 dt y (k + 1)).1 (traj p t0 dt y (k + 1)).2 y.2) w) x := by
    intro k hk
    rw [hget k hk]
    have hk' : k < N := by rwa [hlen] at hk
    refine ⟨?_, fun i hi => ?_, fun i hi => ?_⟩
    · show A (k + 1) (v, w) = A k (v, w) + dt k • B (k + 1) (v, w)
      rw [hAs k hk']
      rfl
    · show B (k + 1) (v, w) i = 0
      have h1 := hfix (k + 1) hk' i ((hEss i).1 hi)
      rw [hAs k hk'] at h1
      have h2 : A k (v, w) i + dt k * B (k + 1) (v, w) i = 0 := h1
      rw [hfix k hk'.le i ((hEss i).1 hi), zero_add] at h2
      exact (mul_eq_zero.1 h2).resolve_left (hR.size k hk')
    · obtain ⟨LG, h1, h2⟩ := hR.deriv k hk'
      have h3 : HasFDerivAt (fun y' : Ode.Vec n × Ode.Vec m => G (time t0 dt (k + 1)) ((traj p t0 dt y' (k + 1)).1, (traj p t0 dt y' (k + 1)).2, y'.2))
          (LG.comp ((A (k + 1)).prod ((B (k + 1)).prod (ContinuousLinearMap.snd ℝ _ _)))) y :=
        HasFDerivAt.comp (f := fun y' : Ode.Vec n × Ode.Vec m => ((traj p t0 dt y' (k + 1)).1, (traj p t0 dt y' (k + 1)).2, y'.2)) y h1.hasFDerivAt
          ((hA (k + 1) hk').prodMk ((hB k hk').prodMk hasFDerivAt_snd))
      have h4 := (hasFDerivAt_pi'.1 h3) i
      have h5 : HasFDerivAt (fun y' : Ode.Vec n × Ode.Vec m => G (time t0 dt (k + 1)) ((traj p t0 dt y' (k + 1)).1, (traj p t0 dt y' (k + 1)).2, y'.2) i)
          (0 : (Ode.Vec n × Ode.Vec m) →L[ℝ] ℝ) y := by
        refine (hasFDerivAt_const (0 : ℝ) y).congr_of_eventuallyEq ?_
        filter_upwards [hR.solved k hk'] with y' hy'
        exact hy'.2 i fun h => hi ((hEss i).2 h)
      have h6 : LG (A (k + 1) (v, w), B (k + 1) (v, w), w) i = 0 := DFunLike.congr_fun (h4.unique h5) (v, w)
      rw [h2, add_comm (Elim.mulVec _ _)] at h6
      exact h6
  have hexact : C30.Exact p.conds p.linear (stepList p t0 dt y load N) := by
    intro st hst b
    obtain ⟨k, hk, rfl⟩ := hmem st hst
    have hM : C30.sysMat p.conds (stepAt p t0 dt y load k) = Elim.elim (transpose (addMat (stepAt p t0 dt y load k).M (stepAt p t0 dt y load k).dt (stepAt p t0 dt y load k).K))
        p.conds.flatten := (C26.applyAll_spec _ _ _ _).1
    rw [hM]
    exact hl _ _ (C85.elim_transpose _ _ (hR.regular k hk) b)
  have hfresh : C30.Fresh (stepList p t0 dt y load N) := by
    rw [C30.Fresh, stepList, List.pairwise_map]
    refine List.Pairwise.imp_of_mem (fun {k l} _ hl' h => hf k l h (List.mem_range.1 hl')) List.pairwise_lt_range
  have key := C30.pass_identity p.conds p.linear (stepList p t0 dt y load N) (heatInit n) z _ x hz hexact
    (fun st hst => by obtain ⟨k, hk, rfl⟩ := hmem st hst; exact hR.symmetric k hk) hfresh rfl hmot fun i hi => hfix 0 (Nat.zero_le _) i ((hEss i).1 hi)
  have hx0 : (x 0).T = v := by
    show A 0 (v, w) = v
    rw [hA0]
    rfl
  have hD0 : (heatInit n).D = 0 := rfl
  rw [hD0, zero_dotProduct, add_zero, hx0, stepList, objective_range] at key
  rw [hra, hrs, ← key, ContinuousLinearMap.comp_apply, hLa]
  rfl

end Abstract

/-! ## The operators of heat transfer -/

section Spec
open Serac.Tensor Serac.Transform Serac.Kernels Serac.Loads Serac.Heat Serac.Deriv
open Serac.C71 (M Shapes)
variable {d : Dim} (V : Heat.Variant d) (s sF : Shapes) (φ : ℕ → ℕ → ℝ)

/-- The tables of the parameter's element are those of its shape functions `φ`. -/
structure Field (dφ : ℕ → ℕ → ℕ → ℝ) : Prop where
  trial : C51.Trial V.E φ dφ
  dim : V.E.dim = d.n

/-- The parameter field at point `Q` of element `e`. -/
def theta (q : Ode.Vec V.nn) (e Q : ℕ) : ℝ := ∑ a ∈ range V.E.ndof, q (V.conn e a) * φ Q a

/-- `∫ (∂c/∂θ) θ(w) u̇ v - (∂q/∂θ) θ(w) · ∇v` -/
def slopeForm (D : ParamSlopes d) (u a : Ode.Vec V.X.S.nn) (q w : Ode.Vec V.nn) (v : Ode.Vec V.X.S.nn) : ℝ := C72.integral V.X.S s V.X.S.elements fun ee Q =>
  let p := ee.2 * V.X.S.E.npts + Q
  let θ := theta V φ q ee.1 Q
  D.capacityP p θ * theta V φ w ee.1 Q * C72.value V.X.S s a ee.1 Q * C72.value V.X.S s v ee.1 Q -
    ∑ m, D.fluxP p θ (C72.value V.X.S s u ee.1 Q) (C72.grad V.X.S s u ee.1 Q) m * theta V φ w ee.1 Q * C72.grad V.X.S s v ee.1 Q m

/-- Parameter, temperature and gradient at a point. -/
def at' (u : Ode.Vec V.X.S.nn) (q : Ode.Vec V.nn) (e Q : ℕ) : ℝ × ℝ × (Fin d.n → ℝ) := (theta V φ q e Q, C72.value V.X.S s u e Q, C72.grad V.X.S s u e Q)

/-- The heat flux as a function of them. -/
def flux (p : ℕ) (z : ℝ × ℝ × (Fin d.n → ℝ)) : Option (Vec ℝ d.n) := (V.law p z.1).flux z.2.1 z.2.2

/-- `D` are the derivatives of the user's functions at temperature `u`, parameter `q` and time `t`: near them the heat flux is defined, and everything is differentiable. -/
structure Tangent (D : ParamSlopes d) (t : ℝ) (u : Ode.Vec V.X.S.nn) (q : Ode.Vec V.nn) : Prop where
  flux : ∀ ee ∈ V.X.S.elements.zipIdx, ∀ Q < V.X.S.E.npts,
    let p := ee.2 * V.X.S.E.npts + Q
    let y := at' V s φ u q ee.1 Q
    (∀ᶠ z in 𝓝 y, (flux V p z).isSome) ∧
    ∀ m, Diff (fun z => (flux V p z).getD 0 m) (fun z => D.fluxP p y.1 y.2.1 y.2.2 m * z.1 + (D.fluxT p y.1 y.2.1 y.2.2 m * z.2.1 + ∑ n, D.fluxG p y.1 y.2.1 y.2.2 m n * z.2.2 n)) y
  capacity : ∀ ee ∈ V.X.S.elements.zipIdx, ∀ Q < V.X.S.E.npts,
    let p := ee.2 * V.X.S.E.npts + Q
    Diff (fun θ => (V.law p θ).capacity) (fun θ => D.capacityP p (theta V φ q ee.1 Q) * θ) (theta V φ q ee.1 Q)
  source : ∀ src ∈ V.X.S.sources, ∀ ee ∈ src.elements.zipIdx, ∀ Q < V.X.S.E.npts,
    let p := ee.2 * V.X.S.E.npts + Q
    let y : ℝ × (Fin d.n → ℝ) := (C72.value V.X.S s u ee.1 Q, C72.grad V.X.S s u ee.1 Q)
    Diff (fun z : ℝ × (Fin d.n → ℝ) => src.value t p z.1 z.2) (fun z => D.base.sourceT src t p y.1 y.2 * z.1 + ∑ n, D.base.sourceG src t p y.1 y.2 n * z.2 n) y
  exchange : ∀ l ∈ V.X.fluxes, ∀ ee ∈ l.elements.zipIdx, ∀ Q < V.X.F.E.npts,
    let A := C75.area d (C75.tangents V.X.F sF V.X.S.pos ee.1 Q)
    let x := C75.place V.X.F sF V.X.S.pos ee.1 Q
    let T := C75.along V.X.F sF u ee.1 Q
    Diff (fun z : ℝ => l.f x ((C75.size A)⁻¹ • A) t z) (fun z => D.base.exchange l x ((C75.size A)⁻¹ • A) t T * z) T

/-- and they are continuously differentiable there. -/
structure Smooth (t : ℝ) (u : Ode.Vec V.X.S.nn) (q : Ode.Vec V.nn) : Prop where
  flux : ∀ ee ∈ V.X.S.elements.zipIdx, ∀ Q < V.X.S.E.npts, ∀ m, ContDiffAt ℝ 1 (fun z => (flux V (ee.2 * V.X.S.E.npts + Q) z).getD 0 m) (at' V s φ u q ee.1 Q)
  capacity : ∀ ee ∈ V.X.S.elements.zipIdx, ∀ Q < V.X.S.E.npts, ContDiffAt ℝ 1 (fun θ => (V.law (ee.2 * V.X.S.E.npts + Q) θ).capacity) (theta V φ q ee.1 Q)
  source : ∀ src ∈ V.X.S.sources, ∀ ee ∈ src.elements.zipIdx, ∀ Q < V.X.S.E.npts,
    ContDiffAt ℝ 1 (fun z : ℝ × (Fin d.n → ℝ) => src.value t (ee.2 * V.X.S.E.npts + Q) z.1 z.2) (C72.value V.X.S s u ee.1 Q, C72.grad V.X.S s u ee.1 Q)
  exchange : ∀ l ∈ V.X.fluxes, ∀ ee ∈ l.elements.zipIdx, ∀ Q < V.X.F.E.npts,
    let A := C75.area d (C75.tangents V.X.F sF V.X.S.pos ee.1 Q)
    ContDiffAt ℝ 1 (fun z : ℝ => l.f (C75.place V.X.F sF V.X.S.pos ee.1 Q) ((C75.size A)⁻¹ • A) t z) (C75.along V.X.F sF u ee.1 Q)

end Spec

section Form
open Serac.Tensor Serac.Transform Serac.Kernels Serac.Solid Serac.Loads Serac.Heat Serac.Deriv
open Serac.C71 (M Shapes)
open Serac.C81 (one dot_one)

/-- The action of derivatives of source and flux with respect to the value of a scalar field, tested. -/
theorem actionP_tested {E E' : Elem ℝ} {phi dphi wt phi' dphi'} (h : C51.Test E phi dphi wt) (h' : C51.Trial E' phi' dphi') {dim : ℕ} (hd : E.dim = dim) (hd0 : 0 < dim)
    (hE : E.dim = E'.dim) (D : Buffer ℝ) {nn nn' ne : ℕ} (conn : ℕ → ℕ → Fin nn) (conn' : ℕ → ℕ → Fin nn') {l : List ℕ} (hl : ∀ e ∈ l, e < ne) (w : Fin nn' → Vec ℝ 1)
    (v : Fin nn → ℝ) :
    ∑ n, scatterE E.ndof ne conn (actionKernel E E' 1 1 parameterShape D l (gatherE E'.ndof conn' w) fun _ => 0) n (0 : Fin 1) * v n =
      (l.zipIdx.map fun ee => ∑ Q ∈ range E.npts, wt Q *
          ((D (ee.2 * E.npts + Q)).d00 0 0 * (∑ a ∈ range E'.ndof, w (conn' ee.1 a) 0 * phi' Q a) * (∑ a ∈ range E.ndof, v (conn ee.1 a) * phi Q a) +
          ∑ q : Fin dim, (D (ee.2 * E.npts + Q)).d10 0 q 0 * (∑ a ∈ range E'.ndof, w (conn' ee.1 a) 0 * phi' Q a) *
            ∑ a ∈ range E.ndof, v (conn ee.1 a) * dphi Q a q)).sum := by
  have ht := C77.form_tested (c := 1) (ndof := E.ndof) (npts := E.npts) (dim := dim) conn wt phi dphi hl
      (actionKernel E E' 1 1 parameterShape D l (gatherE E'.ndof conn' w) fun _ => 0)
      (fun ee Q _ => (D (ee.2 * E.npts + Q)).d00 0 0 * ∑ a ∈ range E'.ndof, w (conn' ee.1 a) 0 * phi' Q a)
      (fun ee Q _ q => (D (ee.2 * E.npts + Q)).d10 0 q 0 * ∑ a ∈ range E'.ndof, w (conn' ee.1 a) 0 * phi' Q a) (fun e k hk i => ?_) (fun n _ => v n)
  · simp only [Fin.sum_univ_one] at ht
    exact ht
  · obtain ⟨e1, e2⟩ := C75.at_div (p := (i : ℕ)) hk
    rw [C51.action_at h 1 1 (by norm_num) (by rw [hd]; exact hd0) parameterShape D l _ _ e _ (C77.idx_lt i hk) (Or.inl hE), zero_add, e1, e2]
    congr 1
    refine List.map_congr_left fun ee _ => ?_
    by_cases he : ee.1 = e
    · rw [if_pos he, if_pos he]
      dsimp only
      unfold C51.weigh C51.dSource C51.dFlux
      subst hd
      refine sum_congr rfl fun Q _ => ?_
      have hds : ∀ f : ℕ → ℝ, ∑ j ∈ range E.dim, f j = ∑ j : Fin E.dim, f j := fun f => (Fin.sum_univ_eq_sum_range f E.dim).symm
      have hv := C77.value_at h' conn' w e Q (0 : Fin 1)
      simp only [Fin.val_zero] at hv
      beta_reduce
      have hi : (i : ℕ) = 0 := by omega
      rw [he, hds, hi]
      simp only [sum_range_one, C51.e00, C51.e01, C51.e10, C51.e11, parameterShape, if_true, Bool.false_eq_true, if_false, zero_mul, sum_const_zero, add_zero, hv]
    · rw [if_neg he, if_neg he]

variable {d : Dim} {V : Heat.Variant d} {s sF : Shapes} {φ : ℕ → ℕ → ℝ} {dφ : ℕ → ℕ → ℕ → ℝ}

/-- What the kernel hands to the material is the parameter field. -/
theorem value_eq (hP : Field V φ dφ) (q : Ode.Vec V.nn) {ee : ℕ × ℕ} (hee : ee ∈ V.X.S.elements.zipIdx) {Q : ℕ} (hQ : Q < V.X.S.E.npts) :
    V.value q (ee.2 * V.X.S.E.npts + Q) = theta V φ q ee.1 Q := by
  obtain ⟨q1, q2⟩ := C75.at_div (p := ee.2) hQ
  unfold Heat.Variant.value
  rw [q1, q2, C85.getD_zipIdx hee]
  exact C77.value_at hP.trial V.conn (V.field q) ee.1 Q 0

/-- **C87, the form of the parameter derivative.**  The assembled matrix times a change of the parameter, tested with any field: the slope of the capacity times the rate
against the field, minus the slope of the heat flux against its gradient; whatever the buffers held before. -/
theorem C87_form (h : C81.Sound V.X s sF) (hP : Field V φ dφ) (D : ParamSlopes d) (old : Buffer ℝ) (u a v : Ode.Vec V.X.S.nn) (q w : Ode.Vec V.nn) :
    ∑ k, mulP (V.paramMatrix D old u a q) w k * v k = slopeForm V s φ D u a q w v := by
  have hd : 0 < d.n := by cases d <;> decide
  have hm := h.meaning
  have hE : 0 < V.X.S.E.dim := by rw [hm.dim]; exact hd
  have hdim : V.X.S.E.dim = V.E.dim := hm.dim.trans hP.dim.symm
  have e1 : ∀ k, mulP (V.paramMatrix D old u a q) w k = scatterE V.X.S.E.ndof V.X.S.ne V.X.S.conn
      (actionKernel V.X.S.E V.E 1 1 parameterShape (V.paramBuffer D old u a q) V.X.S.elements (gatherE V.E.ndof V.conn (V.field w)) fun _ => 0) k (0 : Fin 1) := by
    intro k
    unfold mulP Heat.Variant.paramMatrix
    exact (C85.assembleP_mul hm.test hP.trial (by norm_num) hE parameterShape (Or.inl hdim) _ V.X.S.conn V.conn _ (V.field w) _ _).symm
  rw [sum_congr rfl fun k _ => by rw [e1 k], actionP_tested hm.test hP.trial hm.dim hd hdim _ V.X.S.conn V.conn fun e he => (h.good.1 e he).1]
  unfold slopeForm C72.integral
  congr 1
  refine List.map_congr_left fun ee hee => sum_congr rfl fun Q hQ => ?_
  congr 1
  have hJ := (h.good.1 ee.1 (C71.mem_zipIdx_fst hee)).2 Q (mem_range.1 hQ)
  have hJT : ((C72.jac V.X.S s ee.1 Q)ᵀ).det ≠ 0 := by rwa [Matrix.det_transpose]
  obtain ⟨q1, q2⟩ := C75.at_div (p := ee.2) (mem_range.1 hQ)
  obtain ⟨s1, s2⟩ := C81.seen hm u ee.1 Q _ rfl
  obtain ⟨r1, -⟩ := C81.seen hm a ee.1 Q _ rfl
  have hv := C77.value_at hP.trial V.conn (V.field q) ee.1 Q (0 : Fin 1)
  simp only [Fin.val_zero] at hv
  set p := ee.2 * V.X.S.E.npts + Q with hp
  set T := C72.value V.X.S s u ee.1 Q
  set G := C72.grad V.X.S s u ee.1 Q
  have hD0 : (V.paramBuffer D old u a q p).d00 0 0 = D.capacityP p (theta V φ q ee.1 Q) * C72.value V.X.S s a ee.1 Q * (C72.jac V.X.S s ee.1 Q).det := by
    unfold Heat.Variant.paramBuffer
    rw [hp, C77.store_at _ _ _ hee (mem_range.1 hQ)]
    unfold Heat.Variant.paramGrad Problem.interp
    dsimp only
    rw [hv, q1, q2, C72.jacobian_eq hm hee, C85.getD_zipIdx hee, Tensor.transpose_eq, Transform.det_eq, Matrix.det_transpose]
    have := r1
    simp only [Fin.val_zero]
    rw [this]
    rfl
  have hD1 : ∀ l : Fin d.n, (V.paramBuffer D old u a q p).d10 0 l 0 =
      (∑ m, (-1 * D.fluxP p (theta V φ q ee.1 Q) T G m) * (C72.jac V.X.S s ee.1 Q)ᵀ⁻¹ m l) * (C72.jac V.X.S s ee.1 Q).det := by
    intro l
    unfold Heat.Variant.paramBuffer
    rw [hp, C77.store_at _ _ _ hee (mem_range.1 hQ)]
    unfold Heat.Variant.paramGrad Problem.interp
    dsimp only
    rw [C81.flatV_eq, hv, q1, q2, C72.jacobian_eq hm hee, C85.getD_zipIdx hee, Tensor.transpose_eq, Transform.inv_eq d _ hJ, Transform.inv_eq d _ hJT, Transform.det_eq,
      Matrix.det_transpose]
    simp only [Option.getD_some, Fin.val_zero]
    rw [s1]
    simp only [Fin.val_eq_zero] at s2 ⊢
    rw [s2]
    rfl
  have hT : ∀ m l, (C72.jac V.X.S s ee.1 Q)ᵀ⁻¹ m l = (C72.jac V.X.S s ee.1 Q)⁻¹ l m := fun m l => by rw [← Matrix.transpose_nonsing_inv, Matrix.transpose_apply]
  simp only [hD0, hD1]
  have e2 := C81.contract_value (fun m => -1 * D.fluxP p (theta V φ q ee.1 Q) T G m) ((C72.jac V.X.S s ee.1 Q)⁻¹ : M d.n) ((C72.jac V.X.S s ee.1 Q)ᵀ⁻¹ : M d.n)
    (C72.parGrad V.X.S s v ee.1 Q) hT (C72.jac V.X.S s ee.1 Q).det (theta V φ w ee.1 Q)
  refine (congrArg (fun x => _ + x) e2).trans ?_
  rw [mul_sub, sub_eq_add_neg, ← mul_neg, ← sum_neg_distrib]
  refine congrArg₂ (· + ·) ?_ ?_
  · change D.capacityP p (theta V φ q ee.1 Q) * C72.value V.X.S s a ee.1 Q * (C72.jac V.X.S s ee.1 Q).det * theta V φ w ee.1 Q * C72.value V.X.S s v ee.1 Q = _
    ring
  · refine congrArg _ (sum_congr rfl fun m _ => ?_)
    change -1 * _ * theta V φ w ee.1 Q * C72.grad V.X.S s v ee.1 Q m = _
    ring

end Form

/-! ## The derivative of the residual -/

section Derivative
open Serac.Tensor Serac.Transform Serac.Kernels Serac.Loads Serac.Heat Serac.Deriv
open Serac.C71 (M Shapes)
open Serac.C81 (one dot_one)
variable {d : Dim} {V : Heat.Variant d} {s sF : Shapes} {φ : ℕ → ℕ → ℝ} {dφ : ℕ → ℕ → ℕ → ℝ}

/-- Temperature, rate and parameter. -/
abbrev Point (V : Heat.Variant d) : Type := Ode.Vec V.X.S.nn × Ode.Vec V.X.S.nn × Ode.Vec V.nn

def thetaMap (V : Heat.Variant d) (φ : ℕ → ℕ → ℝ) (e Q : ℕ) : Ode.Vec V.nn →L[ℝ] ℝ :=
  LinearMap.toContinuousLinearMap
    { toFun := fun q => theta V φ q e Q
      map_add' := fun v w => by simp only [theta, Pi.add_apply, add_mul, sum_add_distrib]
      map_smul' := fun x v => by simp only [theta, Pi.smul_apply, smul_eq_mul, mul_assoc, mul_sum, RingHom.id_apply] }

def paramMap (V : Heat.Variant d) (φ : ℕ → ℕ → ℝ) (e Q : ℕ) : Point V →L[ℝ] ℝ :=
  (thetaMap V φ e Q).comp ((ContinuousLinearMap.snd ℝ (Ode.Vec V.X.S.nn) (Ode.Vec V.nn)).comp (ContinuousLinearMap.snd ℝ (Ode.Vec V.X.S.nn) (Ode.Vec V.X.S.nn × Ode.Vec V.nn)))

def tempMap (V : Heat.Variant d) (s : Shapes) (e Q : ℕ) : Point V →L[ℝ] ℝ × (Fin d.n → ℝ) :=
  (C81.pointMap V.X s e Q).comp (ContinuousLinearMap.fst ℝ (Ode.Vec V.X.S.nn) (Ode.Vec V.X.S.nn × Ode.Vec V.nn))

def rateMap (V : Heat.Variant d) (s : Shapes) (e Q : ℕ) : Point V →L[ℝ] ℝ :=
  (ContinuousLinearMap.fst ℝ ℝ (Fin d.n → ℝ)).comp ((C81.pointMap V.X s e Q).comp
    ((ContinuousLinearMap.fst ℝ (Ode.Vec V.X.S.nn) (Ode.Vec V.nn)).comp (ContinuousLinearMap.snd ℝ (Ode.Vec V.X.S.nn) (Ode.Vec V.X.S.nn × Ode.Vec V.nn))))

def faceMap (V : Heat.Variant d) (sF : Shapes) (e Q : ℕ) : Point V →L[ℝ] ℝ :=
  (C81.alongMap V.X sF e Q).comp (ContinuousLinearMap.fst ℝ (Ode.Vec V.X.S.nn) (Ode.Vec V.X.S.nn × Ode.Vec V.nn))

def allMap (V : Heat.Variant d) (s : Shapes) (φ : ℕ → ℕ → ℝ) (e Q : ℕ) : Point V →L[ℝ] ℝ × ℝ × (Fin d.n → ℝ) := (paramMap V φ e Q).prod (tempMap V s e Q)

/-- The flux the residual uses. -/
def fluxes (V : Heat.Variant d) (s : Shapes) (φ : ℕ → ℕ → ℝ) (z : Point V) (ee : ℕ × ℕ) (Q : ℕ) : Vec ℝ d.n :=
  (flux V (ee.2 * V.X.S.E.npts + Q) (at' V s φ z.1 z.2.2 ee.1 Q)).getD 0

theorem sound (h : C81.Sound V.X s sF) (q : Ode.Vec V.nn) : C81.Sound (V.body q) s sF := ⟨⟨h.meaning.trial, h.meaning.test, h.meaning.geom, h.meaning.dim⟩, h.good, h.faces, h.fluxes⟩

/-- The weak form, as a function of temperature, rate and parameter. -/
def weak (V : Heat.Variant d) (s sF : Shapes) (φ : ℕ → ℕ → ℝ) (t : ℝ) (k : Fin V.X.S.nn) (z : Point V) : ℝ :=
  C72.integral V.X.S s V.X.S.elements (fun ee Q => (V.law (ee.2 * V.X.S.E.npts + Q) (theta V φ z.2.2 ee.1 Q)).capacity * C72.value V.X.S s z.2.1 ee.1 Q *
    C72.value V.X.S s (one k) ee.1 Q - ∑ j, fluxes V s φ z ee Q j * C72.grad V.X.S s (one k) ee.1 Q j) - C72.supplied V.X.S s t z.1 (one k) + C75.outflow V.X sF t z.1 (one k)

theorem near {D : ParamSlopes d} {t : ℝ} {u : Ode.Vec V.X.S.nn} (a : Ode.Vec V.X.S.nn) {q : Ode.Vec V.nn} (hT : Tangent V s sF φ D t u q) :
    ∀ᶠ z : Point V in 𝓝 (u, a, q), ∀ ee ∈ V.X.S.elements.zipIdx, ∀ Q < V.X.S.E.npts, (flux V (ee.2 * V.X.S.E.npts + Q) (at' V s φ z.1 z.2.2 ee.1 Q)).isSome := by
  have h : ∀ᶠ z : Point V in 𝓝 (u, a, q), ∀ ee ∈ V.X.S.elements.zipIdx, ∀ Q ∈ List.range V.X.S.E.npts,
      (flux V (ee.2 * V.X.S.E.npts + Q) (at' V s φ z.1 z.2.2 ee.1 Q)).isSome := by
    refine C77.eventually_list _ _ _ fun ee hee => C77.eventually_list _ _ _ fun Q hQ => ?_
    exact (allMap V s φ ee.1 Q).continuous.continuousAt (x := ((u, a, q) : Point V)) |>.eventually (hT.flux ee hee Q (List.mem_range.1 hQ)).1
  filter_upwards [h] with z hz ee hee Q hQ
  exact hz ee hee Q (List.mem_range.2 hQ)

theorem residual_eq (h : C81.Sound V.X s sF) (hP : Field V φ dφ) (t : ℝ) (k : Fin V.X.S.nn) (z : Point V)
    (hz : ∀ ee ∈ V.X.S.elements.zipIdx, ∀ Q < V.X.S.E.npts, (flux V (ee.2 * V.X.S.E.npts + Q) (at' V s φ z.1 z.2.2 ee.1 Q)).isSome) :
    V.residual t z.1 z.2.1 z.2.2 k = weak V s sF φ t k z := by
  have hb := sound h z.2.2
  have hq : C72.Flux (V.body z.2.2).S s z.1 (fluxes V s φ z) := by
    intro ee hee Q hQ
    obtain ⟨x, hx⟩ := Option.isSome_iff_exists.1 (hz ee hee Q hQ)
    unfold fluxes
    rw [hx, Option.getD_some, ← hx]
    have hv := value_eq hP z.2.2 hee hQ
    change (V.law (ee.2 * V.X.S.E.npts + Q) (V.value z.2.2 (ee.2 * V.X.S.E.npts + Q))).flux _ _ = _
    rw [hv]
    rfl
  have hw := C75.C75_heat_weak_form hb.meaning hb.good hb.faces hb.fluxes t z.1 z.2.1 (one k) _ hq
  refine (dot_one (n := V.X.S.nn) (V.residual t z.1 z.2.1 z.2.2) k).symm.trans (hw.trans ?_)
  unfold weak
  refine congrArg₂ (· + ·) (congrArg₂ (· - ·) ?_ rfl) rfl
  refine C72.integral_congr (S := V.X.S) fun ee hee Q hQ => ?_
  have hv := value_eq hP z.2.2 hee hQ
  refine congrArg₂ (· - ·) (congrArg₂ (· * ·) (congrArg₂ (· * ·) ?_ rfl) rfl) rfl
  change (V.law (ee.2 * V.X.S.E.npts + Q) (V.value z.2.2 (ee.2 * V.X.S.E.npts + Q))).capacity = _
  rw [hv]

/-- What the material contributes to the derivative at one point. -/
def pointSlope (V : Heat.Variant d) (s : Shapes) (φ : ℕ → ℕ → ℝ) (D : ParamSlopes d) (u a : Ode.Vec V.X.S.nn) (q : Ode.Vec V.nn) (v : Ode.Vec V.X.S.nn) (z : Point V)
    (ee : ℕ × ℕ) (Q : ℕ) : ℝ :=
  let p := ee.2 * V.X.S.E.npts + Q
  let y := at' V s φ u q ee.1 Q
  ((V.law p y.1).capacity * C72.value V.X.S s z.2.1 ee.1 Q + D.capacityP p y.1 * theta V φ z.2.2 ee.1 Q * C72.value V.X.S s a ee.1 Q) * C72.value V.X.S s v ee.1 Q -
    ∑ m, (D.fluxP p y.1 y.2.1 y.2.2 m * theta V φ z.2.2 ee.1 Q + (D.fluxT p y.1 y.2.1 y.2.2 m * C72.value V.X.S s z.1 ee.1 Q +
      ∑ n, D.fluxG p y.1 y.2.1 y.2.2 m n * C72.grad V.X.S s z.1 ee.1 Q n)) * C72.grad V.X.S s v ee.1 Q m

theorem point_diff {D : ParamSlopes d} {t : ℝ} {u a : Ode.Vec V.X.S.nn} {q : Ode.Vec V.nn} (hT : Tangent V s sF φ D t u q) (v : Ode.Vec V.X.S.nn) {ee : ℕ × ℕ}
    (hee : ee ∈ V.X.S.elements.zipIdx) {Q : ℕ} (hQ : Q < V.X.S.E.npts) :
    Diff (fun z : Point V => (V.law (ee.2 * V.X.S.E.npts + Q) (theta V φ z.2.2 ee.1 Q)).capacity * C72.value V.X.S s z.2.1 ee.1 Q * C72.value V.X.S s v ee.1 Q -
      ∑ j, fluxes V s φ z ee Q j * C72.grad V.X.S s v ee.1 Q j) (fun z => pointSlope V s φ D u a q v z ee Q) (u, a, q) := by
  refine Diff.sub (Diff.mul_const _ ?_) (Diff.sum _ fun m _ => Diff.mul_const _ ?_)
  · exact Diff.mul (Diff.comp (x := ((u, a, q) : Point V)) (paramMap V φ ee.1 Q) (hT.capacity ee hee Q hQ)) (Diff.linear (rateMap V s ee.1 Q) ((u, a, q) : Point V))
  · exact Diff.comp (x := ((u, a, q) : Point V)) (allMap V s φ ee.1 Q) ((hT.flux ee hee Q hQ).2 m)

theorem weak_diff {D : ParamSlopes d} {t : ℝ} {u a : Ode.Vec V.X.S.nn} {q : Ode.Vec V.nn} (hT : Tangent V s sF φ D t u q) (k : Fin V.X.S.nn) :
    Diff (weak V s sF φ t k) (fun z => C72.integral V.X.S s V.X.S.elements (pointSlope V s φ D u a q (one k) z) - C81.feedback V.X s D.base t u z.1 (one k) +
      C81.release V.X sF D.base t u z.1 (one k)) (u, a, q) := by
  have h1 : Diff (fun z : Point V => C72.integral V.X.S s V.X.S.elements (fun ee Q => (V.law (ee.2 * V.X.S.E.npts + Q) (theta V φ z.2.2 ee.1 Q)).capacity *
      C72.value V.X.S s z.2.1 ee.1 Q * C72.value V.X.S s (one k) ee.1 Q - ∑ j, fluxes V s φ z ee Q j * C72.grad V.X.S s (one k) ee.1 Q j))
      (fun z => C72.integral V.X.S s V.X.S.elements (pointSlope V s φ D u a q (one k) z)) (u, a, q) := by
    unfold C72.integral
    exact Diff.list _ fun ee hee => Diff.sum _ fun Q hQ => Diff.const_mul _ (Diff.const_mul _ (point_diff hT _ hee (mem_range.1 hQ)))
  have h2 : Diff (fun z : Point V => C72.supplied V.X.S s t z.1 (one k)) (fun z => C81.feedback V.X s D.base t u z.1 (one k)) (u, a, q) := by
    unfold C72.supplied C81.feedback C72.integral
    refine Diff.list _ fun src hs => Diff.list _ fun ee hee => Diff.sum _ fun Q hQ => Diff.const_mul _ (Diff.const_mul _ (Diff.mul_const _ ?_))
    exact Diff.comp (x := ((u, a, q) : Point V)) (tempMap V s ee.1 Q) (hT.source src hs ee hee Q (mem_range.1 hQ))
  have h3 : Diff (fun z : Point V => C75.outflow V.X sF t z.1 (one k)) (fun z => C81.release V.X sF D.base t u z.1 (one k)) (u, a, q) := by
    unfold C75.outflow C81.release C75.integral
    refine Diff.list _ fun l hl => Diff.list _ fun ee hee => Diff.sum _ fun Q hQ => Diff.const_mul _ (Diff.mul_const _ ?_)
    refine Diff.congr (Diff.const_mul _ (Diff.comp (x := ((u, a, q) : Point V)) (faceMap V sF ee.1 Q) (hT.exchange l hl ee hee Q (mem_range.1 hQ)))) (fun w => rfl) fun w => ?_
    rw [mul_assoc]
    rfl
  exact (h1.sub h2).add h3

/-- The three matrices, tested. -/
theorem matrices_tested (h : C81.Sound V.X s sF) (hP : Field V φ dφ) (D : ParamSlopes d) (old : Buffer ℝ) (t : ℝ) (u a v : Ode.Vec V.X.S.nn) (q : Ode.Vec V.nn) (z : Point V) :
    ∑ k, (Elim.mulVec (V.conductMatrix D old t u q) z.1 k + Elim.mulVec (V.storeMatrix old a q) z.2.1 k + mulP (V.paramMatrix D old u a q) z.2.2 k) * v k =
      C72.integral V.X.S s V.X.S.elements (pointSlope V s φ D u a q v z) - C81.feedback V.X s D.base t u z.1 v + C81.release V.X sF D.base t u z.1 v := by
  have hb := sound h q
  obtain ⟨m1, m2⟩ := C81.C81_matrix hb (V.slopes D q) old old t u a z.1
  obtain ⟨-, m3⟩ := C81.C81_matrix hb (V.slopes D q) old old t u a z.2.1
  have f1 := C81.C81_form hb (V.slopes D q) old t u z.1 v
  have f2 := C81.C81_store_form hb old a z.2.1 v
  have f3 := C87_form h hP D old u a v q z.2.2
  rw [← m1] at f1
  rw [← m3] at f2
  simp only [add_mul, sum_add_distrib]
  refine (congrArg₂ (· + ·) (congrArg₂ (· + ·) f1 f2) f3).trans ?_
  have e1 : C81.conduction (V.body q) s (V.slopes D q) u z.1 v = C72.integral V.X.S s V.X.S.elements fun ee Q =>
      -∑ m, (D.fluxT (ee.2 * V.X.S.E.npts + Q) (theta V φ q ee.1 Q) (C72.value V.X.S s u ee.1 Q) (C72.grad V.X.S s u ee.1 Q) m * C72.value V.X.S s z.1 ee.1 Q +
        ∑ n, D.fluxG (ee.2 * V.X.S.E.npts + Q) (theta V φ q ee.1 Q) (C72.value V.X.S s u ee.1 Q) (C72.grad V.X.S s u ee.1 Q) m n * C72.grad V.X.S s z.1 ee.1 Q n) *
        C72.grad V.X.S s v ee.1 Q m := by
    refine C72.integral_congr (S := V.X.S) fun ee hee Q hQ => ?_
    rw [← value_eq hP q hee hQ]
    rfl
  have e2 : C81.storage (V.body q) s z.2.1 v = C72.integral V.X.S s V.X.S.elements fun ee Q =>
      (V.law (ee.2 * V.X.S.E.npts + Q) (theta V φ q ee.1 Q)).capacity * C72.value V.X.S s z.2.1 ee.1 Q * C72.value V.X.S s v ee.1 Q := by
    refine C72.integral_congr (S := V.X.S) fun ee hee Q hQ => ?_
    rw [← value_eq hP q hee hQ]
    rfl
  rw [e1, e2]
  have e3 : ∀ x y w f g : ℝ, x - f + g + y + w = (x + y + w) - f + g := fun x y w f g => by ring
  refine (e3 _ _ _ _ _).trans (congrArg₂ (· + ·) (congrArg₂ (· - ·) ?_ rfl) rfl)
  have l1 := C72.integral_lin (S := V.X.S) (s := s) V.X.S.elements 1 1
  simp only [one_mul] at l1
  unfold slopeForm
  rw [← l1, ← l1]
  refine C72.integral_congr fun ee _ Q _ => ?_
  unfold pointSlope at'
  dsimp only
  rw [← sum_neg_distrib, sub_eq_add_neg, ← sum_neg_distrib, sub_eq_add_neg, ← sum_neg_distrib]
  have hs : ∀ (x y w : Fin d.n → ℝ) (b c e : ℝ), (∀ m, w m = x m + y m) → b + c = e → ∑ m, x m + b + (c + ∑ m, y m) = e + ∑ m, w m := by
    intro x y w b c e hw he
    rw [sum_congr rfl fun m _ => hw m, sum_add_distrib, ← he]
    ring
  refine hs _ _ _ _ _ _ (fun m => by ring) (by ring)

/-- **C87, the derivative.**  Where the user's functions are differentiable the residual is differentiable in temperature, rate and parameter, jointly, and its derivative is the three
assembled matrices, whatever the buffers held before. -/
theorem C87_derivative (h : C81.Sound V.X s sF) (hP : Field V φ dφ) {D : ParamSlopes d} {t : ℝ} {u : Ode.Vec V.X.S.nn} {q : Ode.Vec V.nn} (hT : Tangent V s sF φ D t u q)
    (a : Ode.Vec V.X.S.nn) (old : Buffer ℝ) : ∃ L : Point V →L[ℝ] Ode.Vec V.X.S.nn, HasFDerivAt (fun z : Point V => V.residual t z.1 z.2.1 z.2.2) L (u, a, q) ∧
      ∀ v r w, L (v, r, w) = Elim.mulVec (V.conductMatrix D old t u q) v + Elim.mulVec (V.storeMatrix old a q) r + mulP (V.paramMatrix D old u a q) w := by
  have hk : ∀ k, Diff (fun z : Point V => V.residual t z.1 z.2.1 z.2.2 k) (fun z => Elim.mulVec (V.conductMatrix D old t u q) z.1 k +
      Elim.mulVec (V.storeMatrix old a q) z.2.1 k + mulP (V.paramMatrix D old u a q) z.2.2 k) (u, a, q) := by
    intro k
    refine ((weak_diff (a := a) hT k).congr_near ?_).congr (fun z => rfl) fun z => ?_
    · filter_upwards [near a hT] with z hz
      exact residual_eq h hP t k z hz
    · have := matrices_tested h hP D old t u a (one k) q z
      rw [dot_one] at this
      exact this
  obtain ⟨L, h1, h2⟩ := Diff.pi (f' := fun (z : Point V) k => Elim.mulVec (V.conductMatrix D old t u q) z.1 k +
      Elim.mulVec (V.storeMatrix old a q) z.2.1 k + mulP (V.paramMatrix D old u a q) z.2.2 k) hk
  exact ⟨L, h2, fun v r w => h1 (v, r, w)⟩

/-- If the functions are continuously differentiable, so is the residual. -/
theorem residual_smooth (h : C81.Sound V.X s sF) (hP : Field V φ dφ) {D : ParamSlopes d} {t : ℝ} {u : Ode.Vec V.X.S.nn} {q : Ode.Vec V.nn} (hT : Tangent V s sF φ D t u q)
    (hS : Smooth V s sF φ t u q) (a : Ode.Vec V.X.S.nn) : ContDiffAt ℝ 1 (fun z : Point V => V.residual t z.1 z.2.1 z.2.2) (u, a, q) := by
  refine contDiffAt_pi.2 fun k => ?_
  have hw : ContDiffAt ℝ 1 (weak V s sF φ t k) (u, a, q) := by
    refine ContDiffAt.add (ContDiffAt.sub ?_ ?_) ?_
    · unfold C72.integral
      refine C85.smooth_list _ fun ee hee => ContDiffAt.sum fun Q hQ => contDiffAt_const.mul (contDiffAt_const.mul (ContDiffAt.sub (ContDiffAt.mul (ContDiffAt.mul ?_ ?_) contDiffAt_const)
        (ContDiffAt.sum fun m _ => ContDiffAt.mul ?_ contDiffAt_const)))
      · exact ContDiffAt.comp ((u, a, q) : Point V) (f := paramMap V φ ee.1 Q) (hS.capacity ee hee Q (mem_range.1 hQ)) (paramMap V φ ee.1 Q).contDiff.contDiffAt
      · exact (rateMap V s ee.1 Q).contDiff.contDiffAt
      · exact ContDiffAt.comp ((u, a, q) : Point V) (f := allMap V s φ ee.1 Q) (hS.flux ee hee Q (mem_range.1 hQ) m) (allMap V s φ ee.1 Q).contDiff.contDiffAt
    · unfold C72.supplied C72.integral
      refine C85.smooth_list _ fun src hs => C85.smooth_list _ fun ee hee => ContDiffAt.sum fun Q hQ => contDiffAt_const.mul (contDiffAt_const.mul (ContDiffAt.mul ?_ contDiffAt_const))
      exact ContDiffAt.comp ((u, a, q) : Point V) (f := tempMap V s ee.1 Q) (hS.source src hs ee hee Q (mem_range.1 hQ)) (tempMap V s ee.1 Q).contDiff.contDiffAt
    · unfold C75.outflow C75.integral
      refine C85.smooth_list _ fun l hl => C85.smooth_list _ fun ee hee => ContDiffAt.sum fun Q hQ => contDiffAt_const.mul (ContDiffAt.mul (contDiffAt_const.mul ?_) contDiffAt_const)
      exact ContDiffAt.comp ((u, a, q) : Point V) (f := faceMap V sF ee.1 Q) (hS.exchange l hl ee hee Q (mem_range.1 hQ)) (faceMap V sF ee.1 Q).contDiff.contDiffAt
  refine hw.congr_of_eventuallyEq ?_
  filter_upwards [near a hT] with z hz
  exact residual_eq h hP t k z hz

theorem residual_strict (h : C81.Sound V.X s sF) (hP : Field V φ dφ) {D : ParamSlopes d} {t : ℝ} {u : Ode.Vec V.X.S.nn} {q : Ode.Vec V.nn} (hT : Tangent V s sF φ D t u q)
    (hS : Smooth V s sF φ t u q) (a : Ode.Vec V.X.S.nn) (old : Buffer ℝ) :
    ∃ L : Point V →L[ℝ] Ode.Vec V.X.S.nn, HasStrictFDerivAt (fun z : Point V => V.residual t z.1 z.2.1 z.2.2) L (u, a, q) ∧
      ∀ v r w, L (v, r, w) = Elim.mulVec (V.conductMatrix D old t u q) v + Elim.mulVec (V.storeMatrix old a q) r + mulP (V.paramMatrix D old u a q) w := by
  obtain ⟨L, h1, h2⟩ := C87_derivative h hP hT a old
  exact ⟨L, (residual_smooth h hP hT hS a).hasStrictFDerivAt' h1 one_ne_zero, h2⟩

end Derivative

/-! ## Gradients -/

section Gradient
open Serac.Tensor Serac.Transform Serac.Kernels Serac.Loads Serac.Heat Serac.Deriv
open Serac.C71 (M Shapes)
variable {d : Dim} {V : Heat.Variant d} {s sF : Shapes} {φ : ℕ → ℕ → ℝ} {dφ : ℕ → ℕ → ℕ → ℝ} {D : ParamSlopes d} {old : Buffer ℝ} {conds : List (List (Fin V.X.S.nn))}
  {linear : Elim.Mat V.X.S.nn → Ode.Vec V.X.S.nn → Ode.Vec V.X.S.nn}

/-- Spec: a transient analysis of `N` steps near the initial temperature and parameter `y`.  At the end of each step the user's functions are smooth where they are evaluated and
the step is regular; for nearby data the analysis stays nearby, satisfies the equations and has the same prescribed temperatures. -/
structure March (V : Heat.Variant d) (s sF : Shapes) (φ : ℕ → ℕ → ℝ) (D : ParamSlopes d) (old : Buffer ℝ) (conds : List (List (Fin V.X.S.nn)))
    (z : Ode.Vec V.X.S.nn × Ode.Vec V.nn → ℕ → Ode.Vec V.X.S.nn × Ode.Vec V.X.S.nn) (t0 : ℝ) (dt : ℕ → ℝ) (N : ℕ) (y : Ode.Vec V.X.S.nn × Ode.Vec V.nn) : Prop where
  size : ∀ k < N, dt k ≠ 0
  tangent : ∀ k < N, Tangent V s sF φ D (time t0 dt (k + 1)) (z y (k + 1)).1 y.2
  smooth : ∀ k < N, Smooth V s sF φ (time t0 dt (k + 1)) (z y (k + 1)).1 y.2
  regular : ∀ k < N, ∀ w, Elim.mulVec (Elim.elim (addMat (V.storeMatrix old (z y (k + 1)).2 y.2) (dt k) (V.conductMatrix D old (time t0 dt (k + 1)) (z y (k + 1)).1 y.2)) conds.flatten) w = 0 → w = 0
  near : ∀ k < N, ContinuousAt (fun y' => (z y' (k + 1)).2) y
  solved : ∀ k < N, ∀ᶠ y' in 𝓝 y, (∀ i ∈ conds.flatten, (z y' (k + 1)).1 i = (z y (k + 1)).1 i) ∧
    ∀ i ∉ conds.flatten, V.residual (time t0 dt (k + 1)) (z y' (k + 1)).1 (z y' (k + 1)).2 y'.2 i = 0

section
variable {solve : ℝ → ℝ → Ode.Vec V.nn → Ode.Vec V.X.S.nn → Ode.Vec V.X.S.nn} {t0 : ℝ} {dt : ℕ → ℝ} {N : ℕ} {y : Ode.Vec V.X.S.nn × Ode.Vec V.nn}

theorem store_symmetric (D : ParamSlopes d) (h : C81.Sound V.X s sF) (a : Ode.Vec V.X.S.nn) (q : Ode.Vec V.nn) : C30.Symmetric (V.storeMatrix old a q) :=
  fun k m => (C81.C81_symmetric (sound h q) (V.slopes D q) old 0 a a).1 k m

theorem March.run (hR : March V s sF φ D old conds (traj (V.transient D old conds solve linear) t0 dt) t0 dt N y) (h : C81.Sound V.X s sF) (hP : Field V φ dφ) :
    Run (V.transient D old conds solve linear) (fun t z => V.residual t z.1 z.2.1 z.2.2) t0 dt N y :=
  ⟨hR.size, fun k hk => residual_strict h hP (hR.tangent k hk) (hR.smooth k hk) _ old, fun _ _ => store_symmetric D h _ _, hR.regular, hR.near, hR.solved⟩

/-- **C87, gradients of transient analyses.**  The analysis by backward Euler followed by the adjoint pass with the assembled matrices: the sum of the sensitivities that the pass
returns is the gradient, with respect to the nodal values of the parameter, of any differentiable objective of the temperatures and rates of all steps; and what
`computeInitialConditionSensitivity` returns is the gradient with respect to the initial temperature at the free nodes. -/
theorem C87_gradient (hR : March V s sF φ D old conds (traj (V.transient D old conds solve linear) t0 dt) t0 dt N y) (h : C81.Sound V.X s sF) (hP : Field V φ dφ)
    (hl : C78.Exact linear) (J : (Fin N → Ode.Vec V.X.S.nn × Ode.Vec V.X.S.nn) → ℝ) (load : ℕ → HeatLoad V.X.S.nn) (hf : Fresh load N)
    (hJ : Gradient J (fun k => traj (V.transient D old conds solve linear) t0 dt y (k + 1)) load) :
    ∃ r, pass (V.transient D old conds solve linear) y.2 (loads load N) (forward (V.transient D old conds solve linear) y.2 (C59.steps dt N) (start t0 y.1)) = some r ∧
      ∃ L : (Ode.Vec V.X.S.nn × Ode.Vec V.nn) →L[ℝ] ℝ, HasFDerivAt (fun y' => J fun k : Fin N => traj (V.transient D old conds solve linear) t0 dt y' (k + 1)) L y ∧
        ∀ v w, (∀ i ∈ conds.flatten, v i = 0) → L (v, w) = r.2.adj.D ⬝ᵥ v + r.1.sum ⬝ᵥ w :=
  C87_transient (hR.run h hP) hl J load hf hJ

/-- For fixed parameters: a tangent in the sense of C81. -/
theorem tangent_body {t : ℝ} {u : Ode.Vec V.X.S.nn} {q : Ode.Vec V.nn} (hT : Tangent V s sF φ D t u q) (hP : Field V φ dφ) : C81.Tangent (V.body q) s sF (V.slopes D q) t u := by
  refine ⟨fun ee hee Q hQ => ?_, hT.source, hT.exchange⟩
  obtain ⟨h1, h2⟩ := hT.flux ee hee Q hQ
  have hv : V.value q (ee.2 * V.X.S.E.npts + Q) = theta V φ q ee.1 Q := value_eq hP q hee hQ
  have hfl : ∀ z : ℝ × (Fin d.n → ℝ), ((V.body q).S.material (ee.2 * (V.body q).S.E.npts + Q)).flux z.1 z.2 = flux V (ee.2 * V.X.S.E.npts + Q) (theta V φ q ee.1 Q, z) := by
    intro z
    rw [← hv]
    rfl
  dsimp only
  simp only [hfl]
  refine ⟨?_, fun m => ?_⟩
  · exact ((Continuous.prodMk_right (theta V φ q ee.1 Q)).continuousAt (x := ((C72.value V.X.S s u ee.1 Q, C72.grad V.X.S s u ee.1 Q) : ℝ × (Fin d.n → ℝ)))).eventually h1
  · obtain ⟨L, l1, l2⟩ := h2 m
    refine ⟨L.comp (ContinuousLinearMap.inr ℝ ℝ (ℝ × (Fin d.n → ℝ))), fun G => (l1 (0, G)).trans ?_, ?_⟩
    · beta_reduce
      have e : (at' V s φ u q ee.1 Q).1 = V.value q (ee.2 * V.X.S.E.npts + Q) := hv.symm
      rw [mul_zero, zero_add, e]
      rfl
    · exact HasFDerivAt.comp (f := fun G : ℝ × (Fin d.n → ℝ) => (theta V φ q ee.1 Q, G)) _ l2 (hasFDerivAt_prodMk_right _ _)

/-- **C87, linear problems.**  Dissipative linear problems, with any solver that finds the rates (the code's does, `C81_solves`), give such analyses, for sources and boundary
values that change in any way from step to step. -/
theorem C87_linear (h : C81.Sound V.X s sF) (hP : Field V φ dφ) {A : Ode.Vec V.nn → ℕ → M d.n} {g e : Flux d → Vec ℝ d.n → Vec ℝ d.n → ℝ → ℝ}
    (hL : ∀ᶠ q in 𝓝 y.2, C81.LinearProblem (V.body q) s sF (A q) g e ∧ C81.Dissipative (X := V.body q) (s := s) (sF := sF))
    (hT : ∀ᶠ q in 𝓝 y.2, ∀ t u, Tangent V s sF φ D t u q) (hS : ∀ t u, Smooth V s sF φ t u y.2) (hdt : ∀ k < N, 0 < dt k) (bc : ℕ → Ode.Vec V.X.S.nn)
    (hsol : ∀ k < N, ∀ᶠ q in 𝓝 y.2, ∀ T, Solves conds.flatten (fun z : Point V => V.residual (time t0 dt (k + 1)) z.1 z.2.1 z.2.2) (bc k) (dt k) q T (solve (time t0 dt (k + 1)) (dt k) q T)) :
    March V s sF φ D old conds (traj (V.transient D old conds solve linear) t0 dt) t0 dt N y := by
  have hT0 := hT.self_of_nhds
  have haff : ∀ q, C81.LinearProblem (V.body q) s sF (A q) g e ∧ C81.Dissipative (X := V.body q) (s := s) (sF := sF) → (∀ t u, Tangent V s sF φ D t u q) → ∀ t τ T, 0 < τ →
      C81.Affine conds.flatten (fun r => V.residual t (T + τ • r) r q) ((V.body q).rateMatrix (V.slopes D q) old old ⟨t, T, τ, 0, 0⟩) := by
    intro q hq hTq t τ T hτ
    have := C81.rate_affine hq.1 hq.2 (fun t u => tangent_body (hTq t u) hP) old old conds.flatten ⟨t, T, τ, 0, 0⟩ hτ.le
    have he : (fun r : Ode.Vec V.X.S.nn => V.residual t (T + τ • r) r q) = fun k => (V.body q).residual t (fun m => 1 * T m + τ * k m) k := by
      funext r
      have : (T + τ • r : Ode.Vec V.X.S.nn) = fun m => 1 * T m + τ * r m := by funext m; simp
      rw [this]
      rfl
    rw [he]
    exact this
  have hreg : ∀ k < N, ∀ w, Elim.mulVec (Elim.elim (addMat (V.storeMatrix old (traj (V.transient D old conds solve linear) t0 dt y (k + 1)).2 y.2) (dt k)
      (V.conductMatrix D old (time t0 dt (k + 1)) (traj (V.transient D old conds solve linear) t0 dt y (k + 1)).1 y.2)) conds.flatten) w = 0 → w = 0 := by
    intro k hk w hw
    refine (haff y.2 hL.self_of_nhds hT0 (time t0 dt (k + 1)) (dt k) (traj (V.transient D old conds solve linear) t0 dt y k).1 (hdt k hk)).injective
      (traj (V.transient D old conds solve linear) t0 dt y (k + 1)).2 ?_
    have he : (V.body y.2).rateMatrix (V.slopes D y.2) old old ⟨time t0 dt (k + 1), (traj (V.transient D old conds solve linear) t0 dt y k).1, dt k, 0, 0⟩
        (traj (V.transient D old conds solve linear) t0 dt y (k + 1)).2 = addMat (V.storeMatrix old (traj (V.transient D old conds solve linear) t0 dt y (k + 1)).2 y.2) (dt k)
      (V.conductMatrix D old (time t0 dt (k + 1)) (traj (V.transient D old conds solve linear) t0 dt y (k + 1)).1 y.2) := by
      have hu : (fun m => 1 * (traj (V.transient D old conds solve linear) t0 dt y k).1 m + dt k * (traj (V.transient D old conds solve linear) t0 dt y (k + 1)).2 m) =
          (traj (V.transient D old conds solve linear) t0 dt y (k + 1)).1 := by
        funext m
        rw [traj_temp]
        simp
      funext i j
      unfold Exchange.rateMatrix addMat
      exact congrArg (fun x : Ode.Vec V.X.S.nn => 1 * (V.body y.2).storeMatrix old (traj (V.transient D old conds solve linear) t0 dt y (k + 1)).2 i j +
        dt k * (V.body y.2).conductMatrix (V.slopes D y.2) old (time t0 dt (k + 1)) x i j) hu
    rw [he]
    exact hw
  have hrun := Run.of_unique (p := V.transient D old conds solve linear) (G := fun t (z : Point V) => V.residual t z.1 z.2.1 z.2.2) (t0 := t0) (dt := dt) (N := N) (y := y)
    (fun k hk => (hdt k hk).ne') (fun k hk => residual_strict h hP (hT0 _ _) (hS _ _) _ old) (fun _ _ => store_symmetric D h _ _) hreg bc hsol (fun k hk => by
      filter_upwards [hL, hT] with q hq hTq T r r' h1 h2
      have ha := haff q hq hTq (time t0 dt (k + 1)) (dt k) T (hdt k hk)
      refine ha.unique h1.2 h2.2 fun i hi => ?_
      have := (h1.1 i hi).trans (h2.1 i hi).symm
      simp only [Pi.add_apply, Pi.smul_apply, smul_eq_mul, add_right_inj] at this
      exact mul_left_cancel₀ (hdt k hk).ne' this)
  exact ⟨hrun.size, fun _ _ => hT0 _ _, fun _ _ => hS _ _, hreg, hrun.near, hrun.solved⟩

/-- **C87, the code's steps.**  The rate that `FirstOrderODE` computes with the code's own Newton solver and exact linear solves, boundary values enforced directly, is the one
that `C87_linear` asks for. -/
theorem C87_solver (hP : Field V φ dφ) {A : ℕ → M d.n} {g e : Flux d → Vec ℝ d.n → Vec ℝ d.n → ℝ → ℝ} {q : Ode.Vec V.nn} (hL : C81.LinearProblem (V.body q) s sF A g e)
    (hv : C81.Dissipative (X := V.body q) (s := s) (sF := sF)) (hT : ∀ t u, Tangent V s sF φ D t u q) {o : Solver V.X.S.nn} (hlin : C78.Exact o.linear) (hrows : C81.Rows o.linear)
    (hnorm : C78.Length o.norm) (ho : C81.Iterates o.newton) {b : Ode.BCs V.X.S.nn} {bc : ℝ → Ode.Vec V.X.S.nn} (hb : Ode.Prescribes b bc) (rep : Newton.Report)
    (st : Ode.State1 V.X.S.nn) (t : ℝ) {τ : ℝ} (hτ : 0 < τ) (T : Ode.Vec V.X.S.nn) :
    Solves b.allDofs (fun z : Point V => V.residual t z.1 z.2.1 z.2.2) (bc t) τ q T
      (Ode.solve1 b .direct ((V.body q).rateSolve (V.slopes D q) old old o b.allDofs rep) st t τ T).2 := by
  have hs := C81.C81_solves hL hv (fun t u => tangent_body (hT t u) hP) old old (o := o) hlin hrows hnorm ho b rep
  have ht : t - τ + τ = t := sub_add_cancel t τ
  have hx : (Ode.stepBE1 b .direct ((V.body q).rateSolve (V.slopes D q) old old o b.allDofs rep) τ ⟨st, T, t - τ⟩).x =
      T + τ • (Ode.solve1 b .direct ((V.body q).rateSolve (V.slopes D q) old old o b.allDofs rep) st t τ T).2 := by
    unfold Ode.stepBE1
    dsimp only
    rw [ht]
    rfl
  obtain ⟨k, h1, -, h3⟩ := C75.heat_step_spec hs (m := .direct) (Or.inl rfl) hτ ⟨st, T, t - τ⟩
  have hk : k = (Ode.solve1 b .direct ((V.body q).rateSolve (V.slopes D q) old old o b.allDofs rep) st t τ T).2 := by
    funext i
    have := congrFun (h1.symm.trans hx) i
    simp only [one_mul] at this
    exact mul_left_cancel₀ hτ.ne' (add_left_cancel this)
  refine ⟨fun i hi => ?_, fun i hi => ?_⟩
  · have := (C21.C21_direct_run hb hs.keeps [] τ hτ.ne' ⟨st, T, t - τ⟩ i hi).2
    have hr : C21.run b .direct ((V.body q).rateSolve (V.slopes D q) old old o b.allDofs rep) ([] ++ [τ]) ⟨st, T, t - τ⟩ =
        Ode.stepBE1 b .direct ((V.body q).rateSolve (V.slopes D q) old old o b.allDofs rep) τ ⟨st, T, t - τ⟩ := rfl
    rw [hr, hx] at this
    have h5 : (Ode.stepBE1 b .direct ((V.body q).rateSolve (V.slopes D q) old old o b.allDofs rep) τ ⟨st, T, t - τ⟩).t = t := ht
    rw [h5] at this
    exact this
  · have e : ∀ (t' : ℝ) (x k' : Ode.Vec V.X.S.nn), t' = t → x = T + τ • k' → V.residual t' x k' q i = 0 → V.residual t (T + τ • k') k' q i = 0 := by
      rintro t' x k' rfl rfl h
      exact h
    exact e _ _ _ ht hx (by rw [← hk]; exact h3 i hi)


end

/-! ### Quasi-static analyses -/

section
variable {solve : ℝ → Ode.Vec V.nn → Ode.Vec V.X.S.nn → Ode.Vec V.X.S.nn} {a u0 : Ode.Vec V.X.S.nn} {t0 : ℝ} {dt : ℕ → ℝ} {N : ℕ} {q : Ode.Vec V.nn}

/-- Spec: a quasi-static analysis of `N` steps near the parameter `q`, with temperatures `z`; `a` is the rate that the module holds. -/
structure Rest (V : Heat.Variant d) (s sF : Shapes) (φ : ℕ → ℕ → ℝ) (D : ParamSlopes d) (old : Buffer ℝ) (a : Ode.Vec V.X.S.nn) (conds : List (List (Fin V.X.S.nn)))
    (z : Ode.Vec V.nn → ℕ → Ode.Vec V.X.S.nn) (t0 : ℝ) (dt : ℕ → ℝ) (N : ℕ) (q : Ode.Vec V.nn) : Prop where
  tangent : ∀ k, 1 ≤ k → k ≤ N → Tangent V s sF φ D (time t0 dt k) (z q k) q
  smooth : ∀ k, 1 ≤ k → k ≤ N → Smooth V s sF φ (time t0 dt k) (z q k) q
  regular : ∀ k, 1 ≤ k → k ≤ N → ∀ w, Elim.mulVec (Elim.elim (V.conductMatrix D old (time t0 dt k) (z q k) q) conds.flatten) w = 0 → w = 0
  near : ∀ k, 1 ≤ k → k ≤ N → ContinuousAt (fun q' => z q' k) q
  solved : ∀ k, 1 ≤ k → k ≤ N → ∀ᶠ q' in 𝓝 q, (∀ i ∈ conds.flatten, z q' k i = z q k i) ∧ ∀ i ∉ conds.flatten, V.residual (time t0 dt k) (z q' k) a q' i = 0

/-- The derivative of the residual by temperature and parameter. -/
theorem steady_strict (h : C81.Sound V.X s sF) (hP : Field V φ dφ) {t : ℝ} {u : Ode.Vec V.X.S.nn} (hT : Tangent V s sF φ D t u q) (hS : Smooth V s sF φ t u q)
    (a : Ode.Vec V.X.S.nn) (old : Buffer ℝ) :
    ∃ L : (Ode.Vec V.X.S.nn × Ode.Vec V.nn) →L[ℝ] Ode.Vec V.X.S.nn, HasStrictFDerivAt (fun z : Ode.Vec V.X.S.nn × Ode.Vec V.nn => V.residual t z.1 a z.2) L (u, q) ∧
      ∀ v w, L (v, w) = Elim.mulVec (V.conductMatrix D old t u q) v + mulP (V.paramMatrix D old u a q) w := by
  obtain ⟨L, h1, h2⟩ := residual_strict h hP hT hS a old
  let E : (Ode.Vec V.X.S.nn × Ode.Vec V.nn) →L[ℝ] Point V := (ContinuousLinearMap.fst ℝ _ _).prod ((0 : (Ode.Vec V.X.S.nn × Ode.Vec V.nn) →L[ℝ] Ode.Vec V.X.S.nn).prod (ContinuousLinearMap.snd ℝ _ _))
  refine ⟨L.comp E, ?_, fun v w => ?_⟩
  · have hE : HasStrictFDerivAt (fun z : Ode.Vec V.X.S.nn × Ode.Vec V.nn => ((z.1, a, z.2) : Point V)) E (u, q) :=
      hasStrictFDerivAt_fst.prodMk ((hasStrictFDerivAt_const a _).prodMk hasStrictFDerivAt_snd)
    exact HasStrictFDerivAt.comp (f := fun z : Ode.Vec V.X.S.nn × Ode.Vec V.nn => ((z.1, a, z.2) : Point V)) (u, q) h1 hE
  · have e : L.comp E (v, w) = L (v, 0, w) := rfl
    rw [e, h2]
    have : Elim.mulVec (V.storeMatrix old a q) 0 = 0 := by funext i; simp [Elim.mulVec]
    rw [this, add_zero]

/-- What a quasi-static step solves for: the boundary values, and no residual elsewhere. -/
def steadyGap (V : Heat.Variant d) (t : ℝ) (a : Ode.Vec V.X.S.nn) (fixed : List (Fin V.X.S.nn)) (bc : Ode.Vec V.X.S.nn) (w : Ode.Vec V.nn × Ode.Vec V.X.S.nn) : Ode.Vec V.X.S.nn :=
  fun i => if i ∈ fixed then w.2 i - bc i else V.residual t w.2 a w.1 i

theorem steadyGap_zero {t : ℝ} {fixed : List (Fin V.X.S.nn)} {bc u : Ode.Vec V.X.S.nn} :
    steadyGap V t a fixed bc (q, u) = 0 ↔ (∀ i ∈ fixed, u i = bc i) ∧ ∀ i ∉ fixed, V.residual t u a q i = 0 := by
  constructor
  · intro h
    refine ⟨fun i hi => ?_, fun i hi => ?_⟩
    · have := congrFun h i
      simp only [steadyGap, if_pos hi, Pi.zero_apply] at this
      linarith
    · have := congrFun h i
      simpa only [steadyGap, if_neg hi, Pi.zero_apply] using this
  · rintro ⟨h1, h2⟩
    funext i
    by_cases hi : i ∈ fixed
    · simp only [steadyGap, if_pos hi, h1 i hi, sub_self, Pi.zero_apply]
    · simp only [steadyGap, if_neg hi, h2 i hi, Pi.zero_apply]

theorem steadyGap_regular (h : C81.Sound V.X s sF) (hP : Field V φ dφ) {t : ℝ} {u : Ode.Vec V.X.S.nn} (hT : Tangent V s sF φ D t u q) (hS : Smooth V s sF φ t u q)
    (a : Ode.Vec V.X.S.nn) (old : Buffer ℝ) {fixed : List (Fin V.X.S.nn)} (hreg : ∀ w, Elim.mulVec (Elim.elim (V.conductMatrix D old t u q) fixed) w = 0 → w = 0)
    (bc : Ode.Vec V.X.S.nn) : ∃ B : (Ode.Vec V.nn × Ode.Vec V.X.S.nn) →L[ℝ] Ode.Vec V.X.S.nn, HasStrictFDerivAt (steadyGap V t a fixed bc) B (q, u) ∧ ∀ v, B (0, v) = 0 → v = 0 := by
  obtain ⟨L, hL, hLa⟩ := steady_strict h hP hT hS a old
  let W := Ode.Vec V.nn × Ode.Vec V.X.S.nn
  let E : W →L[ℝ] Ode.Vec V.X.S.nn × Ode.Vec V.nn := (ContinuousLinearMap.snd ℝ _ _).prod (ContinuousLinearMap.fst ℝ _ _)
  let π : Fin V.X.S.nn → (Ode.Vec V.X.S.nn →L[ℝ] ℝ) := fun i => ContinuousLinearMap.proj (R := ℝ) (φ := fun _ : Fin V.X.S.nn => ℝ) i
  let B : W →L[ℝ] Ode.Vec V.X.S.nn := ContinuousLinearMap.pi fun i => if i ∈ fixed then (π i).comp (ContinuousLinearMap.snd ℝ _ _) else (π i).comp (L.comp E)
  have hB : ∀ w i, B w i = if i ∈ fixed then w.2 i else L (E w) i := by
    intro w i
    change (if i ∈ fixed then (π i).comp (ContinuousLinearMap.snd ℝ _ _) else (π i).comp (L.comp E)) w = _
    split_ifs <;> rfl
  refine ⟨B, hasStrictFDerivAt_pi'.2 fun i => ?_, fun v hv => ?_⟩
  · by_cases hi : i ∈ fixed
    · have e : (fun w => steadyGap V t a fixed bc w i) = fun w => w.2 i - bc i := by funext w; simp only [steadyGap, if_pos hi]
      have e' : (ContinuousLinearMap.proj i).comp B = (π i).comp (ContinuousLinearMap.snd ℝ _ _) := by
        refine ContinuousLinearMap.ext fun w => ?_
        exact (hB w i).trans (if_pos hi)
      rw [e, e']
      exact ((π i).comp (ContinuousLinearMap.snd ℝ (Ode.Vec V.nn) (Ode.Vec V.X.S.nn))).hasStrictFDerivAt.sub_const _
    · have e : (fun w => steadyGap V t a fixed bc w i) = fun w => V.residual t w.2 a w.1 i := by funext w; simp only [steadyGap, if_neg hi]
      have e' : (ContinuousLinearMap.proj i).comp B = (π i).comp (L.comp E) := by
        refine ContinuousLinearMap.ext fun w => ?_
        exact (hB w i).trans (if_neg hi)
      rw [e, e']
      have h1 : HasStrictFDerivAt (fun w : W => V.residual t w.2 a w.1) (L.comp E) (q, u) :=
        HasStrictFDerivAt.comp (g := fun z : Ode.Vec V.X.S.nn × Ode.Vec V.nn => V.residual t z.1 a z.2) (f := E) (q, u) hL E.hasStrictFDerivAt
      exact (π i).hasStrictFDerivAt.comp _ h1
  · have h1 : ∀ i ∈ fixed, v i = 0 := by
      intro i hi
      have := congrFun hv i
      rwa [hB, if_pos hi] at this
    apply hreg
    rw [C77.elim_free _ _ _ h1]
    funext i
    by_cases hi : i ∈ fixed
    · rw [if_pos hi]; rfl
    · rw [if_neg hi]
      have := congrFun hv i
      rw [hB, if_neg hi] at this
      have e : L (E (0, v)) = L (v, 0) := rfl
      rw [e, hLa] at this
      have h3 : mulP (V.paramMatrix D old u a q) (0 : Ode.Vec V.nn) = 0 := by funext j; simp [mulP]
      rw [h3, add_zero] at this
      exact this

theorem Rest.diff (hR : Rest V s sF φ D old a conds (C59.traj (V.steady D old a conds solve linear) t0 dt u0) t0 dt N q) (h : C81.Sound V.X s sF) (hP : Field V φ dφ) (k : ℕ) (h1 : 1 ≤ k)
    (hk : k ≤ N) : ∃ B : Ode.Vec V.nn →L[ℝ] Ode.Vec V.X.S.nn, HasFDerivAt (fun q' => C59.traj (V.steady D old a conds solve linear) t0 dt u0 q' k) B q := by
  obtain ⟨B, hs, hinj⟩ := steadyGap_regular h hP (hR.tangent k h1 hk) (hR.smooth k h1 hk) a old (hR.regular k h1 hk) (C59.traj (V.steady D old a conds solve linear) t0 dt u0 q k)
  refine solution_diff (c := id) hs hinj (hasFDerivAt_id q) (hR.near k h1 hk) ?_
  filter_upwards [hR.solved k h1 hk] with q' hq'
  exact steadyGap_zero.2 hq'

/-- **C87, linear quasi-static problems.**  If steady temperatures are unique (`C81_anchored` reads this off the mesh), any solver that finds them (the code's does, `C81_steady_step`)
gives such analyses, for sources and boundary values that change in any way from step to step. -/
theorem C87_steady_linear (h : C81.Sound V.X s sF) (hP : Field V φ dφ) {A : Ode.Vec V.nn → ℕ → M d.n} {g e : Flux d → Vec ℝ d.n → Vec ℝ d.n → ℝ → ℝ}
    (hL : ∀ᶠ q' in 𝓝 q, C81.LinearProblem (V.body q') s sF (A q') g e ∧ ∀ t, C81.Anchored (V.body q') s sF (A q') e t conds.flatten)
    (hT : ∀ᶠ q' in 𝓝 q, ∀ t u, Tangent V s sF φ D t u q') (hS : ∀ t u, Smooth V s sF φ t u q) (bc : ℕ → Ode.Vec V.X.S.nn)
    (hsol : ∀ k < N, ∀ᶠ q' in 𝓝 q, ∀ T, C81.SteadyAt (V.body q') conds.flatten (bc k) (time t0 dt (k + 1)) a (solve (time t0 dt (k + 1)) q' T)) :
    Rest V s sF φ D old a conds (C59.traj (V.steady D old a conds solve linear) t0 dt u0) t0 dt N q := by
  have hT0 := hT.self_of_nhds
  have hreg : ∀ k, 1 ≤ k → k ≤ N → ∀ w, Elim.mulVec (Elim.elim (V.conductMatrix D old (time t0 dt k) (C59.traj (V.steady D old a conds solve linear) t0 dt u0 q k) q) conds.flatten) w = 0 → w = 0 :=
    fun k _ _ w hw => (C81.static_affine hL.self_of_nhds.1 (fun t u => tangent_body (hT0 t u) hP) old conds.flatten (time t0 dt k) (hL.self_of_nhds.2 _) a).injective
      (C59.traj (V.steady D old a conds solve linear) t0 dt u0 q k) hw
  have hst : ∀ k, k < N → ∀ᶠ q' in 𝓝 q, C81.SteadyAt (V.body q') conds.flatten (bc k) (time t0 dt (k + 1)) a (C59.traj (V.steady D old a conds solve linear) t0 dt u0 q' (k + 1)) := by
    intro k hk
    filter_upwards [hsol k hk] with q' hq'
    exact hq' _
  refine ⟨fun _ _ _ => hT0 _ _, fun _ _ _ => hS _ _, hreg, fun k h1 hk => ?_, fun k h1 hk => ?_⟩
  · obtain ⟨k, rfl⟩ : ∃ j, k = j + 1 := ⟨k - 1, by omega⟩
    obtain ⟨B, hs, hinj⟩ := steadyGap_regular h hP (hT0 (time t0 dt (k + 1)) _) (hS _ _) a old (hreg (k + 1) h1 hk) (bc k)
    obtain ⟨U, hU0, hUc, hU⟩ := solution_branch hs hinj (steadyGap_zero.2 (hst k hk).self_of_nhds)
    refine hUc.congr_of_eventuallyEq ?_
    filter_upwards [hU, hst k hk, hL, hT] with q' h2 h3 h4 h5
    exact (C81.C81_steady_unique h4.1 (fun t u => tangent_body (h5 t u) hP) conds.flatten (time t0 dt (k + 1)) (h4.2 _) a (bc k)).unique h3 (steadyGap_zero.1 h2)
  · obtain ⟨k, rfl⟩ : ∃ j, k = j + 1 := ⟨k - 1, by omega⟩
    have h0 := (hst k hk).self_of_nhds
    filter_upwards [hst k hk] with q' hq'
    exact ⟨fun i hi => (hq'.1 i hi).trans (h0.1 i hi).symm, hq'.2⟩

theorem Rest.family (hR : Rest V s sF φ D old a conds (C59.traj (V.steady D old a conds solve linear) t0 dt u0) t0 dt N q) (h : C81.Sound V.X s sF) (hP : Field V φ dφ)
    (hl : C78.Exact linear) (B : ℕ → Ode.Vec V.nn →L[ℝ] Ode.Vec V.X.S.nn)
    (hB : ∀ k, 1 ≤ k → k ≤ N → HasFDerivAt (fun q' => C59.traj (V.steady D old a conds solve linear) t0 dt u0 q' k) (B k) q) (w : Ode.Vec V.nn) :
    C59.Family (V.steady D old a conds solve linear) t0 dt u0 N (fun r => q + r • w) w (fun k => B k w) 0 := by
  have hq : q + (0 : ℝ) • w = q := by rw [zero_smul, add_zero]
  have hp : HasDerivAt (fun r : ℝ => q + r • w) w 0 := by
    simpa using ((hasDerivAt_id (0 : ℝ)).smul_const w).const_add q
  have ht : Filter.Tendsto (fun r : ℝ => q + r • w) (𝓝 0) (𝓝 q) := by
    have := hp.continuousAt.tendsto
    rwa [hq] at this
  refine ⟨hp, fun k h1 hk => ?_, fun k h1 hk i hi => ?_, fun k h1 hk i hi => ?_, fun k h1 hk => ?_, fun k h1 hk b => ?_⟩
  · have := hB k h1 hk
    rw [← hq] at this
    exact this.comp_hasDerivAt (0 : ℝ) hp
  · filter_upwards [ht.eventually (hR.solved k h1 hk)] with r hr
    exact hr.2 i fun hi' => hi (by rwa [List.mem_flatten] at hi')
  · rw [hq]
    filter_upwards [ht.eventually (hR.solved k h1 hk)] with r hr
    exact hr.1 i (by rwa [List.mem_flatten])
  · rw [hq]
    obtain ⟨L, l1, l2⟩ := steady_strict h hP (hR.tangent k h1 hk) (hR.smooth k h1 hk) a old
    exact ⟨L, l1.hasFDerivAt, l2⟩
  · rw [hq]
    intro M
    have hM : M = Elim.elim (Adj.transpose (V.conductMatrix D old (time t0 dt k) (C59.traj (V.steady D old a conds solve linear) t0 dt u0 q k) q)) conds.flatten :=
      (C26.applyAll_spec _ _ _ _).1
    rw [hM]
    exact hl _ _ (C85.elim_transpose _ _ (hR.regular k h1 hk) b)

/-- **C87, gradients of quasi-static analyses.** -/
theorem C87_steady (hR : Rest V s sF φ D old a conds (C59.traj (V.steady D old a conds solve linear) t0 dt u0) t0 dt N q) (h : C81.Sound V.X s sF) (hP : Field V φ dφ)
    (hl : C78.Exact linear) (J : (Fin N → Ode.Vec V.X.S.nn) → ℝ) (g : ℕ → Ode.Vec V.X.S.nn)
    (hJ : C59.Gradient J (fun k => C59.traj (V.steady D old a conds solve linear) t0 dt u0 q (k + 1)) g) :
    ∃ r, StaticAdj.pass (V.steady D old a conds solve linear) q (C59.loads g N)
        (StaticAdj.forward (V.steady D old a conds solve linear) q (C59.steps dt N) (StaticAdj.start t0 u0)) = some r ∧
      ∃ G : Ode.Vec V.nn →L[ℝ] ℝ, HasFDerivAt (fun q' => J fun k : Fin N => C59.traj (V.steady D old a conds solve linear) t0 dt u0 q' (k + 1)) G q ∧ ∀ w, G w = r.1.sum ⬝ᵥ w := by
  have hex : ∀ k, ∃ B : Ode.Vec V.nn →L[ℝ] Ode.Vec V.X.S.nn, 1 ≤ k → k ≤ N → HasFDerivAt (fun q' => C59.traj (V.steady D old a conds solve linear) t0 dt u0 q' k) B q := by
    intro k
    by_cases hk : 1 ≤ k ∧ k ≤ N
    · obtain ⟨B, hB⟩ := hR.diff h hP k hk.1 hk.2
      exact ⟨B, fun _ _ => hB⟩
    · exact ⟨0, fun h1 h2 => absurd ⟨h1, h2⟩ hk⟩
  choose B hB using hex
  have hq : ∀ w : Ode.Vec V.nn, q + (0 : ℝ) • w = q := fun w => by rw [zero_smul, add_zero]
  have hg : ∀ w, ∃ r, StaticAdj.pass (V.steady D old a conds solve linear) q (C59.loads g N)
      (StaticAdj.forward (V.steady D old a conds solve linear) q (C59.steps dt N) (StaticAdj.start t0 u0)) = some r ∧
      HasDerivAt (fun e : ℝ => J fun k : Fin N => C59.traj (V.steady D old a conds solve linear) t0 dt u0 (q + e • w) (k + 1)) (r.1.sum ⬝ᵥ w) 0 := by
    intro w
    have := C59.C59_gradient (hR.family h hP hl B hB w) J g (by rw [hq]; exact hJ)
    rw [hq] at this
    exact this
  obtain ⟨r, hr, -⟩ := hg 0
  obtain ⟨L, hL, -⟩ := hJ
  have hd : HasFDerivAt (fun q' => fun k : Fin N => C59.traj (V.steady D old a conds solve linear) t0 dt u0 q' (k + 1))
      (ContinuousLinearMap.pi fun k : Fin N => B (k + 1)) q := hasFDerivAt_pi.2 fun k => hB (k + 1) (by omega) (by have := k.2; omega)
  have hc : HasFDerivAt (fun q' => J fun k : Fin N => C59.traj (V.steady D old a conds solve linear) t0 dt u0 q' (k + 1)) (L.comp _) q := hL.comp q hd
  refine ⟨r, hr, _, hc, fun w => ?_⟩
  obtain ⟨r', hr', hw⟩ := hg w
  rw [hr, Option.some.injEq] at hr'
  subst hr'
  have hp : HasDerivAt (fun r : ℝ => q + r • w) w 0 := by
    simpa using ((hasDerivAt_id (0 : ℝ)).smul_const w).const_add q
  rw [← hq w] at hc
  have hc2 := hc.comp_hasDerivAt (0 : ℝ) hp
  exact hc2.unique hw

end
end Gradient

/-! ## Materials -/

section Materials
open Serac.Tensor Serac.Deriv
variable {n : ℕ}

/-- A material that depends on a parameter: near a parameter, temperature and gradient it has a flux, which is continuously differentiable with derivative `b` by the parameter, `a` by
the temperature and `B` by the gradient. -/
structure Conducts (law : ℝ → Conductors.Material n) (z : ℝ × ℝ × (Fin n → ℝ)) (b a : Fin n → ℝ) (B : Matrix (Fin n) (Fin n) ℝ) : Prop where
  some : ∀ᶠ y : ℝ × ℝ × (Fin n → ℝ) in 𝓝 z, ((law y.1).flux y.2.1 y.2.2).isSome
  diff : ∀ m, Diff (fun y : ℝ × ℝ × (Fin n → ℝ) => ((law y.1).flux y.2.1 y.2.2).getD 0 m) (fun y => b m * y.1 + (a m * y.2.1 + ∑ l, B m l * y.2.2 l)) z
  smooth : ∀ m, ContDiffAt ℝ 1 (fun y : ℝ × ℝ × (Fin n → ℝ) => ((law y.1).flux y.2.1 y.2.2).getD 0 m) z

/-- Near `z` the flux is minus a conductivity, affine in parameter and temperature, times the gradient. -/
theorem conducts_affine {law : ℝ → Conductors.Material n} {z : ℝ × ℝ × (Fin n → ℝ)} {c x y : ℝ}
    (h : ∀ᶠ w : ℝ × ℝ × (Fin n → ℝ) in 𝓝 z, (law w.1).flux w.2.1 w.2.2 = Option.some fun i => (-1 * (c + x * w.1 + y * w.2.1)) * w.2.2 i) :
    Conducts law z (-(x • z.2.2)) (-(y • z.2.2)) (-((c + x * z.1 + y * z.2.1) • (1 : Matrix (Fin n) (Fin n) ℝ))) := by
  have hev : ∀ m, (fun w : ℝ × ℝ × (Fin n → ℝ) => ((law w.1).flux w.2.1 w.2.2).getD 0 m) =ᶠ[𝓝 z] fun w => (-1 * (c + x * w.1 + y * w.2.1)) * w.2.2 m := by
    intro m
    filter_upwards [h] with w hw
    rw [hw, Option.getD_some]
  refine ⟨?_, fun m => ?_, fun m => ?_⟩
  · filter_upwards [h] with w hw
    rw [hw]; rfl
  · have h1 : Diff (fun w : ℝ × ℝ × (Fin n → ℝ) => w.1) (fun w => w.1) z := Diff.linear (ContinuousLinearMap.fst ℝ _ _) z
    have h2 : Diff (fun w : ℝ × ℝ × (Fin n → ℝ) => w.2.1) (fun w => w.2.1) z :=
      Diff.linear ((ContinuousLinearMap.fst ℝ ℝ (Fin n → ℝ)).comp (ContinuousLinearMap.snd ℝ ℝ (ℝ × (Fin n → ℝ)))) z
    have h3 : Diff (fun w : ℝ × ℝ × (Fin n → ℝ) => w.2.2 m) (fun w => w.2.2 m) z :=
      Diff.linear ((ContinuousLinearMap.proj (R := ℝ) (φ := fun _ : Fin n => ℝ) m).comp ((ContinuousLinearMap.snd ℝ ℝ (Fin n → ℝ)).comp (ContinuousLinearMap.snd ℝ ℝ (ℝ × (Fin n → ℝ))))) z
    refine (Diff.congr (((((h1.const_mul x).const_add c).add (h2.const_mul y)).const_mul (-1)).mul h3) (fun w => rfl) fun w => ?_).congr_near (hev m)
    simp only [Pi.neg_apply, Pi.smul_apply, smul_eq_mul, Matrix.neg_apply, Matrix.smul_apply, Matrix.one_apply, mul_ite, mul_one, mul_zero, neg_mul, ite_mul, zero_mul]
    rw [sum_neg_distrib, sum_ite_eq univ m, if_pos (mem_univ m)]
    ring
  · refine ContDiffAt.congr_of_eventuallyEq ?_ (hev m)
    have h1 : ContDiff ℝ 1 fun w : ℝ × ℝ × (Fin n → ℝ) => w.1 := contDiff_fst
    have h2 : ContDiff ℝ 1 fun w : ℝ × ℝ × (Fin n → ℝ) => w.2.1 := contDiff_fst.comp contDiff_snd
    have h3 : ContDiff ℝ 1 fun w : ℝ × ℝ × (Fin n → ℝ) => w.2.2 m := (contDiff_apply ℝ ℝ m).comp (contDiff_snd.comp contDiff_snd)
    exact ((contDiff_const.mul ((contDiff_const.add (contDiff_const.mul h1)).add (contDiff_const.mul h2))).mul h3).contDiffAt

/-- **C87, the shipped materials.**  Conductors with a parameter in the conductivity, wherever the total conductivity is positive (the second; the first everywhere): minus the
gradient is the derivative by the parameter, and the capacity does not depend on it. -/
theorem C87_conductors (n : ℕ) (density cp offset : ℝ) (law : ℝ → Conductors.Material n) (z : ℝ × ℝ × (Fin n → ℝ)) :
    (Conductors.parameterizedIsotropic n density cp offset = some law →
      Conducts law z (-z.2.2) 0 (-((offset + z.1) • (1 : Matrix (Fin n) (Fin n) ℝ))) ∧ ∀ θ, (law θ).capacity = density * cp) ∧
    ∀ slope, Conductors.parameterizedTemperatureDependent n density cp offset slope = some law → 0 < offset + z.1 + slope * z.2.1 →
      Conducts law z (-z.2.2) (-(slope • z.2.2)) (-((offset + z.1 + slope * z.2.1) • (1 : Matrix (Fin n) (Fin n) ℝ))) ∧ ∀ θ, (law θ).capacity = density * cp := by
  refine ⟨fun h => ?_, fun slope h hk => ?_⟩
  · unfold Conductors.parameterizedIsotropic at h
    split_ifs at h
    rw [Option.some.injEq] at h
    subst h
    refine ⟨?_, fun _ => rfl⟩
    have := conducts_affine (n := n) (law := fun θ => ⟨density * cp, fun _ g => Option.some fun i => (-1 * (offset + θ)) * g i⟩) (z := z) (c := offset) (x := 1) (y := 0)
      (Filter.Eventually.of_forall fun w => by simp)
    simpa using this
  · unfold Conductors.parameterizedTemperatureDependent at h
    split_ifs at h
    rw [Option.some.injEq] at h
    subst h
    refine ⟨?_, fun _ => rfl⟩
    have hc : ContinuousAt (fun w : ℝ × ℝ × (Fin n → ℝ) => offset + w.1 + slope * w.2.1) z := by fun_prop
    have := conducts_affine (n := n) (law := fun θ => ⟨density * cp, fun T g =>
      let k := offset + θ + slope * T
      if k < 0 then none else Option.some fun i => (-1 * k) * g i⟩) (z := z) (c := offset) (x := 1) (y := slope) (by
        filter_upwards [hc.eventually (lt_mem_nhds hk)] with w hw
        dsimp only
        rw [if_neg hw.not_gt, one_mul])
    simpa using this

/-- The heat flux never points up the gradient. -/
def Dissipates (law : ℝ → Conductors.Material n) (θ : ℝ) : Prop := ∀ T g q, (law θ).flux T g = some q → ∑ i, q i * g i ≤ 0

/-- **C87, which parameters are physical.**  The second material refuses a negative total conductivity.  The first checks its offset only, and conducts heat from cold to hot as soon
as the parameter takes the total conductivity below zero. -/
theorem C87_dissipation (n : ℕ) (hn : 0 < n) (density cp offset θ : ℝ) (law : ℝ → Conductors.Material n) :
    (Conductors.parameterizedIsotropic n density cp offset = some law → (Dissipates law θ ↔ 0 ≤ offset + θ)) ∧
    ∀ slope, Conductors.parameterizedTemperatureDependent n density cp offset slope = some law → Dissipates law θ := by
  have hs : ∀ (k : ℝ) (g : Fin n → ℝ), ∑ i, (-1 * k) * g i * g i = -(k * ∑ i, g i * g i) := fun k g => by
    rw [mul_sum, ← sum_neg_distrib]
    exact sum_congr rfl fun i _ => by ring
  refine ⟨fun h => ?_, fun slope h => ?_⟩
  · unfold Conductors.parameterizedIsotropic at h
    split_ifs at h
    rw [Option.some.injEq] at h
    subst h
    constructor
    · intro hd
      have := hd 0 (fun i => if i = ⟨0, hn⟩ then 1 else 0) _ rfl
      rw [hs] at this
      have e : ∑ i : Fin n, (if i = ⟨0, hn⟩ then (1 : ℝ) else 0) * (if i = ⟨0, hn⟩ then 1 else 0) = 1 := by simp
      rw [e] at this
      linarith
    · intro hk T g q hq
      simp only [Option.some.injEq] at hq
      subst hq
      rw [hs, neg_nonpos]
      exact mul_nonneg hk (sum_nonneg fun i _ => mul_self_nonneg _)
  · unfold Conductors.parameterizedTemperatureDependent at h
    split_ifs at h
    rw [Option.some.injEq] at h
    subst h
    intro T g q hq
    dsimp only at hq
    split_ifs at hq with hk
    rw [Option.some.injEq] at hq
    subst hq
    rw [hs, neg_nonpos]
    exact mul_nonneg (not_lt.1 hk) (sum_nonneg fun i _ => mul_self_nonneg _)

end Materials

/-! ## Example: the square of C72 and C81, heated inside and cooled through two sides; the parameter is a field of linear elements that changes the conductivity -/

section Example
open Serac.Tensor Serac.Transform Serac.Kernels Serac.Loads Serac.Heat Serac.Deriv
open Serac.C71 (M Shapes)

def exLaw : ℝ → Conductors.Material 2 := (Conductors.parameterizedIsotropic 2 1 3 2).getD fun _ => ⟨0, fun _ _ => none⟩
theorem ex_law : Conductors.parameterizedIsotropic 2 1 3 2 = some exLaw := by
  unfold exLaw Conductors.parameterizedIsotropic
  norm_num
theorem ex_capacity (θ : ℝ) : (exLaw θ).capacity = 3 := by
  rw [((C87_conductors 2 1 3 2 exLaw (0, 0, 0)).1 ex_law).2 θ]
  norm_num
theorem ex_flux (θ T : ℝ) (g : Fin 2 → ℝ) : (exLaw θ).flux T g = some fun i => (-1 * (2 + θ)) * g i := by
  unfold exLaw Conductors.parameterizedIsotropic
  norm_num

def exVariant : Heat.Variant .two where
  X := C81.exLinear [C72.exSource]
  E := simplex C72.tri3
  nn := 5
  conn := C71.exConn
  law := fun _ => exLaw

def exSlopes : ParamSlopes .two where
  base := C81.exSlopes
  fluxT _ _ _ _ := 0
  fluxG _ θ _ _ := -((2 + θ) • (1 : M 2))
  fluxP _ _ _ g := -g
  capacityP _ _ := 0

theorem ex_field : Field exVariant C72.exShapes.phi C72.exShapes.dphi := ⟨(C72.ex_meaning []).trial, rfl⟩

theorem ex_sound : C81.Sound exVariant.X C72.exShapes C75.exSF := (C81.ex_linear [C72.exSource] (by simp)).toSound

theorem ex_tangent (t : ℝ) (u q : Ode.Vec 5) : Tangent exVariant C72.exShapes C75.exSF C72.exShapes.phi exSlopes t u q := by
  have h := C81.ex_tangent [C72.exSource] (by simp) t u
  refine ⟨fun ee _ Q _ => ?_, fun ee _ Q _ => ?_, h.source, h.exchange⟩
  · have := ((C87_conductors 2 1 3 2 exLaw (at' exVariant C72.exShapes C72.exShapes.phi u q ee.1 Q)).1 ex_law).1
    exact ⟨this.some, this.diff⟩
  · refine (Diff.const 3 _).congr (fun θ => ex_capacity θ) fun θ => ?_
    simp [exSlopes]

theorem ex_smooth (t : ℝ) (u q : Ode.Vec 5) : Smooth exVariant C72.exShapes C75.exSF C72.exShapes.phi t u q := by
  refine ⟨fun ee _ Q _ m => ?_, fun ee _ Q _ => ?_, fun src hsrc ee hee Q hQ => ?_, fun l hl ee hee Q hQ => ?_⟩
  · exact ((C87_conductors 2 1 3 2 exLaw (at' exVariant C72.exShapes C72.exShapes.phi u q ee.1 Q)).1 ex_law).1.smooth m
  · have : (fun θ => (exVariant.law (ee.2 * exVariant.X.S.E.npts + Q) θ).capacity) = fun _ => 3 := funext ex_capacity
    rw [this]
    exact contDiffAt_const
  · rw [List.mem_singleton.1 (show src ∈ [C72.exSource] from hsrc)]
    exact contDiffAt_const
  · rw [List.mem_singleton.1 (show l ∈ [C75.exCooling] from hl)]
    exact contDiffAt_const.mul contDiffAt_id

/-- The parameter at a point lies between its nodal values. -/
theorem ex_value {q : Ode.Vec 5} (hq : ∀ i, -2 < q i) (p : ℕ) : 0 < 2 + exVariant.value q p := by
  have e : exVariant.value q p = theta exVariant C72.exShapes.phi q ([0, 1, 2, 3].getD (p / 3) 0) (p % 3) :=
    C77.value_at ex_field.trial exVariant.conn (exVariant.field q) _ _ 0
  rw [e]
  generalize [0, 1, 2, 3].getD (p / 3) 0 = el
  have hQ : p % 3 < 3 := Nat.mod_lt _ (by norm_num)
  generalize p % 3 = Q at hQ
  have e1 : theta exVariant C72.exShapes.phi q el Q = ∑ a ∈ range 3, q (C71.exConn el a) * C72.tri3.phi (C72.tri3.xi Q) a := rfl
  rw [e1]
  simp only [sum_range_succ, sum_range_zero, C72.tri3]
  have h0 := hq (C71.exConn el 0)
  have h1 := hq (C71.exConn el 1)
  have h2 := hq (C71.exConn el 2)
  interval_cases Q <;> norm_num <;> linarith

theorem ex_square (q : Ode.Vec 5) (x : Fin 5 → ℝ) : C72.square (exVariant.body q).S C72.exShapes x = C72.square (C72.exHeat [C72.exSource]) C72.exShapes x := by
  refine C72.integral_congr (S := C72.exHeat [C72.exSource]) fun ee _ Q _ => ?_
  have hc : C72.exMaterial.capacity = 3 := by
    rw [((C49.C49_isotropic 2 1 3 2).2 _ C72.ex_material).1]
    norm_num
  change (exLaw _).capacity * _ = C72.exMaterial.capacity * _
  rw [ex_capacity, hc]
  rfl

/-- Conductivities between zero and anything: linear and dissipative. -/
theorem ex_linear {q : Ode.Vec 5} (hq : ∀ i, -2 < q i) :
    C81.LinearProblem (exVariant.body q) C72.exShapes C75.exSF (fun p => (2 + exVariant.value q p) • (1 : M 2)) (fun _ _ _ _ => 0) (fun _ x _ _ => 1 + x (0 : Fin 2) ^ 2) ∧
      C81.Dissipative (X := exVariant.body q) (s := C72.exShapes) (sF := C75.exSF) := by
  have h := C81.ex_linear [C72.exSource] (by simp)
  have hd := C81.ex_dissipative [C72.exSource]
  refine ⟨⟨sound ex_sound q, ⟨fun p T g => ?_, fun p i j => ?_⟩, h.sources, ⟨h.exchange.1, h.exchange.2⟩⟩, ⟨hd.volumes, hd.weights, fun p => ?_, fun p => ?_, fun x hx => ?_⟩⟩
  · refine (ex_flux (exVariant.value q p) T g).trans ?_
    congr 1
    funext i
    have e : ∑ j : Fin 2, ((2 + exVariant.value q p) • (1 : M 2)) i j * g j = (2 + exVariant.value q p) * g i := by
      simp [Matrix.one_apply]
    exact (by rw [neg_one_mul, neg_mul]; exact congrArg Neg.neg e.symm)
  · rw [Matrix.smul_apply, Matrix.smul_apply]
    congr 1
    exact congrFun (congrFun (Matrix.transpose_one (n := Fin 2) (α := ℝ)).symm i) j
  · exact ((C87_dissipation 2 (by norm_num) 1 3 2 (exVariant.value q p) exLaw).1 ex_law).2 (ex_value hq p).le
  · change 0 ≤ (exLaw _).capacity
    rw [ex_capacity]
    norm_num
  · exact C72.ex_definite [C72.exSource] x ((ex_square q x).symm.trans hx)

/-- The code's solver, started from rest in every step. -/
def exSolve (old : Buffer ℝ) (o : Newton.Options) : ℝ → ℝ → Ode.Vec exVariant.nn → Ode.Vec exVariant.X.S.nn → Ode.Vec exVariant.X.S.nn := fun t τ q T =>
  (Ode.solve1 C72.exWalls .direct ((exVariant.body q).rateSolve (exVariant.slopes exSlopes q) old old (C81.exSolver o) C72.exWalls.allDofs ⟨.fin 0, false, 0, .fin 0⟩)
    ⟨0, 0, 0, 0, 0⟩ t τ T).2

theorem ex_walls : Ode.Prescribes C72.exWalls fun _ _ => 0 := by
  refine ⟨fun bc hbc i hi t => ?_, ?_⟩
  · rw [List.mem_singleton.1 (show bc ∈ [_] from hbc)]
  · intro i
    simp [C72.exWalls]

theorem ex_march (old : Buffer ℝ) (o : Newton.Options) (ho : C81.Iterates o) {dt : ℕ → ℝ} (hdt : ∀ k, 0 < dt k) (N : ℕ) (T : Ode.Vec exVariant.X.S.nn) {q : Ode.Vec exVariant.nn}
    (hq : ∀ i : Fin 5, -2 < q i) :
    March exVariant C72.exShapes C75.exSF C72.exShapes.phi exSlopes old [C72.exWalls.allDofs]
      (traj (exVariant.transient exSlopes old [C72.exWalls.allDofs] (exSolve old o) (C81.exSolver o).linear) 0 dt) 0 dt N (T, q) := by
  have hnear : ∀ᶠ q' : Ode.Vec exVariant.nn in 𝓝 q, ∀ i : Fin 5, -2 < q' i :=
    Filter.eventually_all.2 fun i => (continuous_apply (A := fun _ : Fin 5 => ℝ) i).continuousAt.eventually (lt_mem_nhds (hq i))
  refine C87_linear (A := fun q p => (2 + exVariant.value q p) • (1 : M 2)) (g := fun _ _ _ _ => 0) (e := fun _ x _ _ => 1 + x (0 : Fin 2) ^ 2) ex_sound ex_field ?_
    (Filter.Eventually.of_forall fun q' t u => ex_tangent t u q') (fun t u => ex_smooth t u q) (fun k _ => hdt k) (fun _ => 0) fun k _ => ?_
  · filter_upwards [hnear] with q' hq'
    exact ex_linear hq'
  · filter_upwards [hnear] with q' hq' T'
    have hl := ex_linear hq'
    exact C87_solver (bc := fun _ _ => 0) ex_field hl.1 hl.2 (fun t u => ex_tangent t u q') (C81.ex_exact o) (C81.ex_rows o) (C81.ex_length o) ho ex_walls _ _ _ (hdt k) T'

/-- Two steps; the objective is the temperature after the first step times the rate in the second. -/
example (old : Buffer ℝ) (o : Newton.Options) (ho : C81.Iterates o) (dt : ℕ → ℝ) (hdt : ∀ k, 0 < dt k) (T : Ode.Vec exVariant.X.S.nn) (q : Ode.Vec exVariant.nn)
    (hq : ∀ i : Fin 5, -2 < q i) :
    let pr := exVariant.transient exSlopes old [C72.exWalls.allDofs] (exSolve old o) (C81.exSolver o).linear
    ∃ r, pass pr q (loads (fun j => if j = 0 then ⟨(traj pr 0 dt (T, q) 2).2, some 0⟩ else ⟨0, some (traj pr 0 dt (T, q) 1).1⟩) 2) (forward pr q (C59.steps dt 2) (start 0 T)) = some r ∧
      ∃ L : (Ode.Vec exVariant.X.S.nn × Ode.Vec exVariant.nn) →L[ℝ] ℝ, HasFDerivAt (fun y' => (traj pr 0 dt y' 1).1 ⬝ᵥ (traj pr 0 dt y' 2).2) L (T, q) ∧
        ∀ v w, (∀ i ∈ [C72.exWalls.allDofs].flatten, v i = 0) → L (v, w) = r.2.adj.D ⬝ᵥ v + r.1.sum ⬝ᵥ w := by
  intro pr
  refine C87_gradient (y := (T, q)) (ex_march old o ho hdt 2 T hq) ex_sound ex_field (C81.ex_exact o) (fun z => (z 0).1 ⬝ᵥ (z 1).2) _ (fun k l hkl hl h0 => ?_) ?_
  · exfalso
    by_cases hk : k = 0
    · simp [hk] at h0
    · simp [hk] at h0
  have hd : ∀ z : Fin 2 → Ode.Vec exVariant.X.S.nn × Ode.Vec exVariant.X.S.nn,
      Diff (fun z : Fin 2 → Ode.Vec exVariant.X.S.nn × Ode.Vec exVariant.X.S.nn => (z 0).1 ⬝ᵥ (z 1).2) (fun v => (z 1).2 ⬝ᵥ (v 0).1 + (z 0).1 ⬝ᵥ (v 1).2) z := by
    intro z
    have h1 : ∀ i, Diff (fun z : Fin 2 → Ode.Vec exVariant.X.S.nn × Ode.Vec exVariant.X.S.nn => (z 0).1 i) (fun v => (v 0).1 i) z := fun i =>
      Diff.linear ((ContinuousLinearMap.proj (R := ℝ) (φ := fun _ : Fin exVariant.X.S.nn => ℝ) i).comp ((ContinuousLinearMap.fst ℝ (Ode.Vec exVariant.X.S.nn) (Ode.Vec exVariant.X.S.nn)).comp
        (ContinuousLinearMap.proj (R := ℝ) (φ := fun _ : Fin 2 => Ode.Vec exVariant.X.S.nn × Ode.Vec exVariant.X.S.nn) 0))) z
    have h2 : ∀ i, Diff (fun z : Fin 2 → Ode.Vec exVariant.X.S.nn × Ode.Vec exVariant.X.S.nn => (z 1).2 i) (fun v => (v 1).2 i) z := fun i =>
      Diff.linear ((ContinuousLinearMap.proj (R := ℝ) (φ := fun _ : Fin exVariant.X.S.nn => ℝ) i).comp ((ContinuousLinearMap.snd ℝ (Ode.Vec exVariant.X.S.nn) (Ode.Vec exVariant.X.S.nn)).comp
        (ContinuousLinearMap.proj (R := ℝ) (φ := fun _ : Fin 2 => Ode.Vec exVariant.X.S.nn × Ode.Vec exVariant.X.S.nn) 1))) z
    refine (Diff.sum univ fun i _ => (h1 i).mul (h2 i)).congr (fun _ => rfl) fun v => ?_
    simp only [dotProduct, ← sum_add_distrib]
    exact sum_congr rfl fun i _ => by ring
  obtain ⟨L, h1, h2⟩ := hd fun k => traj pr 0 dt (T, q) (k + 1)
  refine ⟨L, h2, fun v => (h1 v).trans ?_⟩
  rw [Fin.sum_univ_two]
  simp

/-! Quasi-static, without fixed nodes: the heat of the source leaves through the cooled sides. -/

theorem reached_body {d : Dim} (V : Heat.Variant d) (q : Ode.Vec V.nn) {sF : Shapes} {h : Flux d → Vec ℝ d.n → Vec ℝ d.n → ℝ → ℝ} {t : ℝ} {fixed : List (Fin V.X.S.nn)}
    {n : Fin V.X.S.nn} (hn : C81.Reached V.X sF h t fixed n) : C81.Reached (V.body q) sF h t fixed n := by
  induction hn with
  | fixed n hn => exact .fixed (X := V.body q) n hn
  | element e a b he ha hb _ ih => exact .element (X := V.body q) e a b he ha hb ih
  | cooled l ee Q e a hl hee hQ hh he hface ha => exact .cooled (X := V.body q) l ee Q e a hl hee hQ hh he hface ha

theorem ex_last {n : ℕ} (N : ℕ) (i : Fin n) (z : Fin (N + 1) → Elim.Vec n) :
    C59.Gradient (fun z : Fin (N + 1) → Elim.Vec n => z (Fin.last N) i) z (fun k => if k = N then Pi.single i 1 else 0) := by
  let L : (Fin (N + 1) → Elim.Vec n) →L[ℝ] ℝ :=
    (ContinuousLinearMap.proj (R := ℝ) (φ := fun _ : Fin n => ℝ) i).comp (ContinuousLinearMap.proj (R := ℝ) (φ := fun _ : Fin (N + 1) => Elim.Vec n) (Fin.last N))
  refine ⟨L, L.hasFDerivAt, fun v => ?_⟩
  rw [sum_eq_single (Fin.last N) (fun k _ hk => ?_) (by simp)]
  · beta_reduce
    rw [Fin.val_last, if_pos rfl]
    exact (single_one_dotProduct i (v (Fin.last N))).symm
  · have : (k : ℕ) ≠ N := fun h => hk (Fin.ext h)
    beta_reduce
    rw [if_neg this, zero_dotProduct]

theorem ex_anchored {q : Ode.Vec 5} (hq : ∀ i, -2 < q i) (t : ℝ) :
    C81.Anchored (exVariant.body q) C72.exShapes C75.exSF (fun p => (2 + exVariant.value q p) • (1 : M 2)) (fun _ x _ _ => 1 + x (0 : Fin 2) ^ 2) t [] := by
  have h := C81.ex_solid [C72.exSource]
  refine C81.C81_anchored (ex_linear hq).1.exchange ⟨h.volume, h.area, h.weights, fun p g hg => ?_, h.constants, h.unity⟩ t [] fun n => ?_
  · have h1 := h.conducts p g hg
    have hv := ex_value hq p
    have e : ∀ c : ℝ, ∑ i : Fin 2, ∑ j : Fin 2, g i * (c • (1 : M 2)) i j * g j = c * ∑ i : Fin 2, g i * g i := by
      intro c
      rw [mul_sum]
      refine sum_congr rfl fun i _ => ?_
      rw [sum_eq_single i (fun j _ hj => by rw [Matrix.smul_apply, Matrix.one_apply_ne (Ne.symm hj)]; simp) (by simp), Matrix.smul_apply, Matrix.one_apply_eq]
      simp only [smul_eq_mul]
      ring
    have h2 : 0 < 2 * ∑ i : Fin 2, g i * g i := (e 2) ▸ h1
    have h3 : 0 < (2 + exVariant.value q p) * ∑ i : Fin 2, g i * g i := mul_pos hv (by linarith)
    exact lt_of_lt_of_eq h3 (e _).symm
  · exact reached_body exVariant q (C81.ex_reached [C72.exSource] t n)

def exSteady (old : Buffer ℝ) (o : Newton.Options) : ℝ → Ode.Vec exVariant.nn → Ode.Vec exVariant.X.S.nn → Ode.Vec exVariant.X.S.nn := fun t q T =>
  ((exVariant.body q).steadyStep (exVariant.slopes exSlopes q) old (C81.exSolver o) ⟨[], []⟩ 0 ⟨0, T, 0, ⟨.fin 0, false, 0, .fin 0⟩⟩ t).u

theorem ex_rest (old : Buffer ℝ) (o : Newton.Options) (ho : C81.Iterates o) (dt : ℕ → ℝ) (N : ℕ) (T : Ode.Vec exVariant.X.S.nn) {q : Ode.Vec exVariant.nn} (hq : ∀ i : Fin 5, -2 < q i) :
    Rest exVariant C72.exShapes C75.exSF C72.exShapes.phi exSlopes old 0 []
      (C59.traj (exVariant.steady exSlopes old 0 [] (exSteady old o) (C81.exSolver o).linear) 0 dt T) 0 dt N q := by
  have hnear : ∀ᶠ q' : Ode.Vec exVariant.nn in 𝓝 q, ∀ i : Fin 5, -2 < q' i :=
    Filter.eventually_all.2 fun i => (continuous_apply (A := fun _ : Fin 5 => ℝ) i).continuousAt.eventually (lt_mem_nhds (hq i))
  refine C87_steady_linear (A := fun q p => (2 + exVariant.value q p) • (1 : M 2)) (g := fun _ _ _ _ => 0) (e := fun _ x _ _ => 1 + x (0 : Fin 2) ^ 2) ex_sound ex_field ?_
    (Filter.Eventually.of_forall fun q' t u => ex_tangent t u q') (fun t u => ex_smooth t u q) (fun _ => 0) fun k _ => ?_
  · filter_upwards [hnear] with q' hq'
    exact ⟨(ex_linear hq').1, ex_anchored hq'⟩
  · filter_upwards [hnear] with q' hq' T'
    have := (C81.C81_steady_step (ex_linear hq').1 (fun t u => tangent_body (ex_tangent t u q') ex_field) old (C81.ex_exact o) (C81.ex_length o) ho (b := ⟨[], []⟩)
      (q := fun _ _ => 0) ⟨by simp, by simp⟩ 0 ⟨0, T', 0, ⟨.fin 0, false, 0, .fin 0⟩⟩ (C59.time 0 dt (k + 1)) (ex_anchored hq' _)).1
    rwa [zero_add] at this

/-- The gradient of the temperature of the central node after `N` steps. -/
example (old : Buffer ℝ) (o : Newton.Options) (ho : C81.Iterates o) (dt : ℕ → ℝ) (N : ℕ) (T : Ode.Vec exVariant.X.S.nn) (q : Ode.Vec exVariant.nn) (hq : ∀ i : Fin 5, -2 < q i) :
    let pr := exVariant.steady exSlopes old 0 [] (exSteady old o) (C81.exSolver o).linear
    ∃ r, StaticAdj.pass pr q (C59.loads (fun k => if k = N then Pi.single (4 : Fin 5) 1 else 0) (N + 1)) (StaticAdj.forward pr q (C59.steps dt (N + 1)) (StaticAdj.start 0 T)) = some r ∧
      ∃ G : Ode.Vec exVariant.nn →L[ℝ] ℝ, HasFDerivAt (fun q' => C59.traj pr 0 dt T q' (N + 1) (4 : Fin 5)) G q ∧ ∀ w, G w = r.1.sum ⬝ᵥ w := by
  intro pr
  exact C87_steady (ex_rest old o ho dt (N + 1) T hq) ex_sound ex_field (C81.ex_exact o) (fun z => z (Fin.last N) (4 : Fin 5)) _ (ex_last N (4 : Fin 5) _)

end Example
end Serac.C87
