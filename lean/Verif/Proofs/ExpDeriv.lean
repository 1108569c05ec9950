import Mathlib.Analysis.Normed.Algebra.Exponential
import Mathlib.Analysis.Calculus.FDeriv.Pow
import Mathlib.Analysis.Calculus.SmoothSeries
import Mathlib.Analysis.SpecialFunctions.Exponential
/-!
# Derivative of the exponential in a normed algebra that need not commute
-/

noncomputable section
namespace Serac.ExpDeriv
open Finset NormedSpace
open scoped Nat RightActions

variable {𝔸 : Type*} [NormedRing 𝔸] [NormedAlgebra ℝ 𝔸] [NormOneClass 𝔸]

/-- The derivative of `x ^ n`. -/
def powDeriv (n : ℕ) (x : 𝔸) : 𝔸 →L[ℝ] 𝔸 := ∑ i ∈ range n, x ^ (n.pred - i) •> ContinuousLinearMap.id ℝ 𝔸 <• x ^ i

omit [NormOneClass 𝔸] in
theorem powDeriv_apply (n : ℕ) (x h : 𝔸) : powDeriv n x h = ∑ i ∈ range n, x ^ (n - 1 - i) * h * x ^ i := by
  simp [powDeriv, mul_assoc]

theorem powDeriv_norm (n : ℕ) (x : 𝔸) (R : ℝ) (hx : ‖x‖ ≤ R) : ‖powDeriv n x‖ ≤ n * R ^ (n - 1) := by
  have hR : 0 ≤ R := (norm_nonneg x).trans hx
  refine ContinuousLinearMap.opNorm_le_bound _ (by positivity) fun h => ?_
  rw [powDeriv_apply]
  calc ‖∑ i ∈ range n, x ^ (n - 1 - i) * h * x ^ i‖ ≤ ∑ i ∈ range n, R ^ (n - 1) * ‖h‖ := by
        refine norm_sum_le_of_le _ fun i hi => ?_
        have hi' : n - 1 - i + i = n - 1 := by have := mem_range.1 hi; omega
        calc ‖x ^ (n - 1 - i) * h * x ^ i‖ ≤ ‖x ^ (n - 1 - i)‖ * ‖h‖ * ‖x ^ i‖ := by
              refine (norm_mul_le _ _).trans ?_
              gcongr
              exact norm_mul_le _ _
          _ ≤ R ^ (n - 1 - i) * ‖h‖ * R ^ i := by
              gcongr
              · exact (norm_pow_le _ _).trans (by gcongr)
              · exact (norm_pow_le _ _).trans (by gcongr)
          _ = R ^ (n - 1) * ‖h‖ := by rw [mul_right_comm, ← pow_add, hi']
    _ = n * R ^ (n - 1) * ‖h‖ := by simp [mul_assoc]

theorem summable_bound (R : ℝ) : Summable fun n : ℕ => (n ! : ℝ)⁻¹ * (n * R ^ (n - 1)) := by
  rw [← summable_nat_add_iff 1]
  refine (Real.summable_pow_div_factorial R).congr fun n => ?_
  rw [Nat.factorial_succ, Nat.add_sub_cancel]
  push_cast
  field_simp

/-- Terms of the derivative series. -/
def term (n : ℕ) (x : 𝔸) : 𝔸 →L[ℝ] 𝔸 := (n ! : ℝ)⁻¹ • powDeriv n x

theorem term_norm (n : ℕ) (x : 𝔸) (R : ℝ) (hx : ‖x‖ ≤ R) : ‖term n x‖ ≤ (n ! : ℝ)⁻¹ * (n * R ^ (n - 1)) := by
  rw [term, norm_smul, Real.norm_of_nonneg (by positivity)]
  exact mul_le_mul_of_nonneg_left (powDeriv_norm n x R hx) (by positivity)

theorem summable_term [CompleteSpace 𝔸] (x : 𝔸) : Summable fun n => term n x :=
  Summable.of_norm_bounded (summable_bound ‖x‖) fun n => term_norm n x _ le_rfl

omit [NormOneClass 𝔸] in
theorem hasSum_eval {f : ℕ → 𝔸 →L[ℝ] 𝔸} {l : 𝔸 →L[ℝ] 𝔸} (hs : HasSum f l) (h : 𝔸) : HasSum (fun n => f n h) (l h) := by
  have := (ContinuousLinearMap.apply ℝ 𝔸 h).hasSum hs
  simpa only [ContinuousLinearMap.apply_apply] using this

theorem hasSum_apply [CompleteSpace 𝔸] (x h : 𝔸) : HasSum (fun n => term n x h) ((∑' n, term n x) h) :=
  hasSum_eval (summable_term x).hasSum h

theorem hasFDerivAt_exp [CompleteSpace 𝔸] (x : 𝔸) : HasFDerivAt (exp : 𝔸 → 𝔸) (∑' n, term n x) x := by
  rw [exp_eq_tsum ℝ]
  have hx : x ∈ Metric.ball (0 : 𝔸) (‖x‖ + 1) := by simp
  have hpre : IsPreconnected (Metric.ball (0 : 𝔸) (‖x‖ + 1)) := (convex_ball _ _).isPreconnected
  have hf : ∀ n, ∀ y ∈ Metric.ball (0 : 𝔸) (‖x‖ + 1), HasFDerivAt (fun z : 𝔸 => (n ! : ℝ)⁻¹ • z ^ n) (term n y) y := fun n y _ =>
    (hasFDerivAt_pow' (𝕜 := ℝ) n (x := y)).fun_const_smul (n ! : ℝ)⁻¹
  have hb : ∀ n, ∀ y ∈ Metric.ball (0 : 𝔸) (‖x‖ + 1), ‖term n y‖ ≤ (n ! : ℝ)⁻¹ * (n * (‖x‖ + 1) ^ (n - 1)) := fun n y hy =>
    term_norm n y _ (by simpa using (mem_ball_zero_iff.1 hy).le)
  have hs : Summable fun n : ℕ => (n ! : ℝ)⁻¹ • x ^ n := expSeries_summable' (𝕂 := ℝ) x
  exact hasFDerivAt_tsum_of_isPreconnected (summable_bound _) Metric.isOpen_ball hpre hf hb hx hs hx

end Serac.ExpDeriv
