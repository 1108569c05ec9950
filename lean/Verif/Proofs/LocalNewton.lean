import Mathlib.Analysis.Calculus.MeanValue
import Mathlib.Analysis.Normed.Module.FiniteDimension
import Mathlib.Topology.MetricSpace.Basic
import Mathlib.Topology.MetricSpace.Contracting
import Mathlib.Tactic.Linarith
import Mathlib.Tactic.Positivity
import Mathlib.Tactic.FieldSimp
/-!
# Newton's method near a regular zero

Estimates for one step `x - c`, `D' c = H x`, near a zero of `H` where the derivative is injective (`contract`), uniform along a continuous branch of zeros over a compact set
of parameters (`near_exists`), and the quadratic estimate when the derivative is Lipschitz (`quadratic`).
-/

noncomputable section
namespace Serac.LocalNewton
open Metric Set Filter Topology

variable {E : Type} [NormedAddCommGroup E] [NormedSpace ℝ E]

theorem contract {H : E → E} {D : E → E →L[ℝ] E} {A : E →L[ℝ] E} {B : Set E} (hB : Convex ℝ B) (hD : ∀ x ∈ B, HasFDerivAt H (D x) x) {a η : ℝ}
    (ha : ∀ w, a * ‖w‖ ≤ ‖A w‖) (hη : ∀ x ∈ B, ‖D x - A‖ ≤ η) {z x c : E} (hz : z ∈ B) (hx : x ∈ B) (hz0 : H z = 0) {D' : E →L[ℝ] E} (hD' : ‖D' - A‖ ≤ η)
    (hc : D' c = H x) :
    (a - η) * ‖x - z‖ ≤ ‖H x‖ ∧ ‖H x‖ ≤ (‖A‖ + η) * ‖x - z‖ ∧ (∀ w, (a - η) * ‖w‖ ≤ ‖D' w‖) ∧ (a - η) * ‖x - c - z‖ ≤ 2 * η * ‖x - z‖ ∧
      (x - c ∈ B → η ≤ a → (a - η) * ‖H (x - c)‖ ≤ 2 * η * ‖H x‖) := by
  have mv : ∀ y ∈ B, ∀ y' ∈ B, ‖H y' - H y - A (y' - y)‖ ≤ η * ‖y' - y‖ := fun y hy y' hy' =>
    hB.norm_image_sub_le_of_norm_hasFDerivWithin_le' (fun x hx => (hD x hx).hasFDerivWithinAt) hη hy hy'
  have hxz := mv z hz x hx
  rw [hz0, sub_zero] at hxz
  have hη0 : 0 ≤ η := (norm_nonneg _).trans hD'
  have dif : ∀ w, ‖D' w - A w‖ ≤ η * ‖w‖ := fun w => ((D' - A).le_opNorm w).trans (mul_le_mul_of_nonneg_right hD' (norm_nonneg w))
  have low : ∀ w, (a - η) * ‖w‖ ≤ ‖D' w‖ := by
    intro w
    have h1 := ha w
    have h2 := dif w
    have h3 : ‖A w‖ ≤ ‖D' w‖ + ‖D' w - A w‖ := by
      have := norm_sub_le (D' w) (D' w - A w)
      rwa [sub_sub_cancel] at this
    linarith
  refine ⟨?_, ?_, low, ?_, fun hxc hηa => ?_⟩
  · have h1 := ha (x - z)
    have h3 : ‖A (x - z)‖ ≤ ‖H x‖ + ‖H x - A (x - z)‖ := by
      have := norm_sub_le (H x) (H x - A (x - z))
      rwa [sub_sub_cancel] at this
    linarith
  · have h1 := A.le_opNorm (x - z)
    have h3 : ‖H x‖ ≤ ‖H x - A (x - z)‖ + ‖A (x - z)‖ := by
      have := norm_add_le (H x - A (x - z)) (A (x - z))
      rwa [sub_add_cancel] at this
    linarith
  · refine (low _).trans ?_
    have e : D' (x - c - z) = (D' (x - z) - A (x - z)) - (H x - A (x - z)) := by
      rw [show x - c - z = (x - z) - c by abel, map_sub D' (x - z) c, hc]
      abel
    rw [e]
    have := norm_sub_le (D' (x - z) - A (x - z)) (H x - A (x - z))
    have := dif (x - z)
    linarith
  · have h1 := mv x hx (x - c) hxc
    rw [sub_sub_cancel_left, norm_neg, map_neg, sub_neg_eq_add] at h1
    have h2 := dif c
    rw [hc] at h2
    have h3 : ‖H (x - c)‖ ≤ ‖H (x - c) - H x + A c‖ + ‖H x - A c‖ := by
      have := norm_add_le (H (x - c) - H x + A c) (H x - A c)
      rwa [show H (x - c) - H x + A c + (H x - A c) = H (x - c) by abel] at this
    have h4 := low c
    rw [hc] at h4
    have h5 : ‖H (x - c)‖ ≤ 2 * η * ‖c‖ := by linarith
    calc (a - η) * ‖H (x - c)‖ ≤ (a - η) * (2 * η * ‖c‖) := mul_le_mul_of_nonneg_left h5 (sub_nonneg.2 hηa)
      _ = 2 * η * ((a - η) * ‖c‖) := by ring
      _ ≤ 2 * η * ‖H x‖ := mul_le_mul_of_nonneg_left h4 (by positivity)

theorem exists_lower [FiniteDimensional ℝ E] (A : E →L[ℝ] E) (hA : ∀ w, A w = 0 → w = 0) : ∃ a > 0, ∀ w, a * ‖w‖ ≤ ‖A w‖ := by
  obtain ⟨K, hK, h⟩ := LinearMap.exists_antilipschitzWith (A : E →ₗ[ℝ] E) (LinearMap.ker_eq_bot'.2 hA)
  have hK' : (0 : ℝ) < K := hK
  refine ⟨(K : ℝ)⁻¹, inv_pos.2 hK', fun w => ?_⟩
  have := h.le_mul_dist w 0
  rw [dist_zero_right, map_zero, dist_zero_right] at this
  rw [inv_mul_le_iff₀ hK']
  exact this

/-- Uniform estimates near the branch `u`, for parameters in `S`; derivatives may be taken at nearby parameters in `I` and nearby points. -/
structure Near (H : ℝ → E → E) (D : ℝ → E → E →L[ℝ] E) (u : ℝ → E) (I S : Set ℝ) (θ δ a b : ℝ) : Prop where
  lower : ∀ τ ∈ S, ∀ x, ‖x - u τ‖ ≤ δ → a * ‖x - u τ‖ ≤ ‖H τ x‖
  upper : ∀ τ ∈ S, ∀ x, ‖x - u τ‖ ≤ δ → ‖H τ x‖ ≤ b * ‖x - u τ‖
  inj : ∀ τ ∈ S, ∀ τ' ∈ I, |τ' - τ| ≤ δ → ∀ x', ‖x' - u τ'‖ ≤ δ → ∀ w, a * ‖w‖ ≤ ‖D τ' x' w‖
  step : ∀ τ ∈ S, ∀ τ' ∈ I, |τ' - τ| ≤ δ → ∀ x', ‖x' - u τ'‖ ≤ δ → ∀ x, ‖x - u τ‖ ≤ δ → ∀ c, D τ' x' c = H τ x →
    ‖x - c - u τ‖ ≤ θ * ‖x - u τ‖ ∧ ‖H τ (x - c)‖ ≤ θ * ‖H τ x‖

theorem Near.mono {H : ℝ → E → E} {D : ℝ → E → E →L[ℝ] E} {u : ℝ → E} {I S S' : Set ℝ} {θ δ δ' a a' b b' : ℝ} (h : Near H D u I S θ δ a b) (hS : S' ⊆ S) (hδ : δ' ≤ δ)
    (ha : a' ≤ a) (hb : b ≤ b') : Near H D u I S' θ δ' a' b' :=
  ⟨fun τ hτ x hx => (mul_le_mul_of_nonneg_right ha (norm_nonneg _)).trans (h.lower τ (hS hτ) x (hx.trans hδ)),
    fun τ hτ x hx => (h.upper τ (hS hτ) x (hx.trans hδ)).trans (mul_le_mul_of_nonneg_right hb (norm_nonneg _)),
    fun τ hτ τ' hτ' hd x' hx' w => (mul_le_mul_of_nonneg_right ha (norm_nonneg _)).trans (h.inj τ (hS hτ) τ' hτ' (hd.trans hδ) x' (hx'.trans hδ) w),
    fun τ hτ τ' hτ' hd x' hx' x hx => h.step τ (hS hτ) τ' hτ' (hd.trans hδ) x' (hx'.trans hδ) x (hx.trans hδ)⟩

theorem Near.union {H : ℝ → E → E} {D : ℝ → E → E →L[ℝ] E} {u : ℝ → E} {I S S' : Set ℝ} {θ δ a b : ℝ} (h : Near H D u I S θ δ a b) (h' : Near H D u I S' θ δ a b) :
    Near H D u I (S ∪ S') θ δ a b :=
  ⟨fun τ hτ => hτ.elim (h.lower τ) (h'.lower τ), fun τ hτ => hτ.elim (h.upper τ) (h'.upper τ), fun τ hτ => hτ.elim (h.inj τ) (h'.inj τ), fun τ hτ => hτ.elim (h.step τ) (h'.step τ)⟩

/-- A branch of regular zeros over a compact set. -/
theorem near_exists [FiniteDimensional ℝ E] {H : ℝ → E → E} {D : ℝ → E → E →L[ℝ] E} {u : ℝ → E} {I : Set ℝ} (hI : IsCompact I) (hu : ContinuousOn u I)
    (hzero : ∀ τ ∈ I, H τ (u τ) = 0) (hder : ∀ τ ∈ I, ∀ᶠ p in 𝓝[I ×ˢ univ] (τ, u τ), HasFDerivAt (H p.1) (D p.1 p.2) p.2)
    (hcont : ∀ τ ∈ I, ContinuousWithinAt (fun p : ℝ × E => D p.1 p.2) (I ×ˢ univ) (τ, u τ)) (hreg : ∀ τ ∈ I, ∀ w, D τ (u τ) w = 0 → w = 0) {θ : ℝ} (hθ : 0 < θ) (hθ1 : θ ≤ 1) :
    ∃ δ > 0, ∃ a > 0, ∃ b > 0, Near H D u I I θ δ a b := by
  refine hI.induction_on (p := fun S => ∃ δ > 0, ∃ a > 0, ∃ b > 0, Near H D u I S θ δ a b) ?_ ?_ ?_ ?_
  · exact ⟨1, one_pos, 1, one_pos, 1, one_pos, ⟨fun _ h => h.elim, fun _ h => h.elim, fun _ h => h.elim, fun _ h => h.elim⟩⟩
  · rintro S S' hS ⟨δ, hδ, a, ha, b, hb, h⟩
    exact ⟨δ, hδ, a, ha, b, hb, h.mono hS le_rfl le_rfl le_rfl⟩
  · rintro S S' ⟨δ, hδ, a, ha, b, hb, h⟩ ⟨δ', hδ', a', ha', b', hb', h'⟩
    exact ⟨min δ δ', lt_min hδ hδ', min a a', lt_min ha ha', max b b', lt_max_of_lt_left hb,
      (h.mono subset_rfl (min_le_left _ _) (min_le_left _ _) (le_max_left _ _)).union (h'.mono subset_rfl (min_le_right _ _) (min_le_right _ _) (le_max_right _ _))⟩
  · intro t ht
    obtain ⟨a, ha, hA⟩ := exists_lower (D t (u t)) (hreg t ht)
    set A := D t (u t) with hAd
    set η := θ * a / 4 with hη
    have hη0 : 0 < η := by positivity
    have hηa : η ≤ a / 4 := by rw [hη]; nlinarith
    have h1 : ∀ᶠ p in 𝓝[I ×ˢ univ] (t, u t), ‖D p.1 p.2 - A‖ ≤ η := by
      have := (hcont t ht) (Metric.ball_mem_nhds _ hη0)
      filter_upwards [this] with p hp
      have : dist (D p.1 p.2) A < η := hp
      rw [dist_eq_norm] at this
      exact this.le
    obtain ⟨r, hr, hball⟩ := Metric.mem_nhdsWithin_iff.1 ((hder t ht).and h1)
    have good : ∀ τ ∈ I, |τ - t| < r → ∀ x, ‖x - u t‖ < r → HasFDerivAt (H τ) (D τ x) x ∧ ‖D τ x - A‖ ≤ η := by
      intro τ hτ hd x hx
      refine @hball (τ, x) ⟨?_, hτ, mem_univ _⟩
      rw [Metric.mem_ball, Prod.dist_eq, Real.dist_eq, dist_eq_norm]
      exact max_lt hd hx
    obtain ⟨ρ, hρ, hu'⟩ := Metric.continuousWithinAt_iff.1 (hu t ht) (r / 2) (by positivity)
    set σ := min (r / 2) (ρ / 2) with hσ
    have hσ0 : 0 < σ := lt_min (by positivity) (by positivity)
    refine ⟨I ∩ ball t σ, mem_nhdsWithin.2 ⟨ball t σ, isOpen_ball, mem_ball_self hσ0, fun x hx => ⟨hx.2, hx.1⟩⟩, σ / 2, by positivity, a / 2, by positivity, ‖A‖ + η,
      add_pos_of_nonneg_of_pos (norm_nonneg _) hη0, ?_⟩
    have hσr : σ ≤ r / 2 := min_le_left _ _
    have hσρ : σ ≤ ρ / 2 := min_le_right _ _
    have close : ∀ τ ∈ I, |τ - t| < 2 * σ → ‖u τ - u t‖ < r / 2 := by
      intro τ hτ hd
      have := hu' hτ (by rw [Real.dist_eq]; linarith)
      rwa [dist_eq_norm] at this
    have inB : ∀ τ ∈ I, |τ - t| < 2 * σ → ∀ x, ‖x - u τ‖ ≤ σ / 2 → ‖x - u t‖ < r := by
      intro τ hτ hd x hx
      have h2 := close τ hτ hd
      have h3 := norm_add_le (x - u τ) (u τ - u t)
      rw [sub_add_sub_cancel] at h3
      linarith
    have key : ∀ τ ∈ I ∩ ball t σ, ∀ τ' ∈ I, |τ' - τ| ≤ σ / 2 → ∀ x', ‖x' - u τ'‖ ≤ σ / 2 → ∀ x, ‖x - u τ‖ ≤ σ / 2 → ∀ c, D τ' x' c = H τ x →
        (a - η) * ‖x - u τ‖ ≤ ‖H τ x‖ ∧ ‖H τ x‖ ≤ (‖A‖ + η) * ‖x - u τ‖ ∧ (∀ w, (a - η) * ‖w‖ ≤ ‖D τ' x' w‖) ∧ (a - η) * ‖x - c - u τ‖ ≤ 2 * η * ‖x - u τ‖ ∧
          (x - c ∈ ball (u t) r → η ≤ a → (a - η) * ‖H τ (x - c)‖ ≤ 2 * η * ‖H τ x‖) := by
      intro τ hτ τ' hτ' hd x' hx' x hx c hc
      have hτt : |τ - t| < σ := by have := hτ.2; rwa [Metric.mem_ball, Real.dist_eq] at this
      have hτ't : |τ' - t| < 2 * σ := by
        have := abs_add_le (τ' - τ) (τ - t)
        rw [sub_add_sub_cancel] at this
        linarith
      have hw := inB τ hτ.1 (by linarith)
      exact contract (convex_ball (u t) r) (D := D τ) (A := A) (a := a) (η := η) (fun y hy => (good τ hτ.1 (by linarith) y (by rwa [← dist_eq_norm])).1) hA
        (fun y hy => (good τ hτ.1 (by linarith) y (by rwa [← dist_eq_norm])).2) (z := u τ) (x := x) (c := c) (by rw [Metric.mem_ball, dist_eq_norm]; exact hw _ (by simp; positivity))
        (by rw [Metric.mem_ball, dist_eq_norm]; exact hw x hx) (hzero τ hτ.1) (D' := D τ' x') (good τ' hτ' (by linarith) x' (inB τ' hτ' hτ't x' hx')).2 hc
    have lin : ∀ τ ∈ I ∩ ball t σ, ∀ τ' ∈ I, |τ' - τ| ≤ σ / 2 → ∀ x', ‖x' - u τ'‖ ≤ σ / 2 → ∀ w, a / 2 * ‖w‖ ≤ ‖D τ' x' w‖ := by
      intro τ hτ τ' hτ' hd x' hx' w
      have := (key τ hτ τ' hτ' hd x' hx' (u τ) (by simp; positivity) 0 (by rw [map_zero, hzero τ hτ.1])).2.2.1 w
      refine le_trans (mul_le_mul_of_nonneg_right ?_ (norm_nonneg _)) this
      linarith
    have sol : ∀ τ ∈ I ∩ ball t σ, ∀ x, ‖x - u τ‖ ≤ σ / 2 → ∃ c, D τ (u τ) c = H τ x := by
      intro τ hτ x hx
      have hi : Function.Injective (D τ (u τ) : E →ₗ[ℝ] E) := by
        rw [← LinearMap.ker_eq_bot, LinearMap.ker_eq_bot']
        exact fun w hw => hreg τ hτ.1 w hw
      exact LinearMap.injective_iff_surjective.1 hi (H τ x)
    refine ⟨fun τ hτ x hx => ?_, fun τ hτ x hx => ?_, lin, fun τ hτ τ' hτ' hd x' hx' x hx c hc => ?_⟩
    · obtain ⟨c, hc⟩ := sol τ hτ x hx
      have := (key τ hτ τ hτ.1 (by simp; positivity) (u τ) (by simp; positivity) x hx c hc).1
      refine le_trans (mul_le_mul_of_nonneg_right ?_ (norm_nonneg _)) this
      linarith
    · obtain ⟨c, hc⟩ := sol τ hτ x hx
      exact (key τ hτ τ hτ.1 (by simp; positivity) (u τ) (by simp; positivity) x hx c hc).2.1
    · obtain ⟨-, -, -, h4, h5⟩ := key τ hτ τ' hτ' hd x' hx' x hx c hc
      have small : ∀ {p q : ℝ}, 0 ≤ q → (a - η) * p ≤ 2 * η * q → p ≤ θ * q := by
        intro p q hq hpq
        have e : 2 * η * q = a / 2 * (θ * q) := by rw [hη]; ring
        by_contra hc
        push Not at hc
        have h0 : 0 ≤ θ * q := by positivity
        have : a / 2 * (θ * q) < (a - η) * p := by
          have : a / 2 ≤ a - η := by linarith
          have : a / 2 * (θ * q) < a / 2 * p := mul_lt_mul_of_pos_left hc (by positivity)
          have : a / 2 * p ≤ (a - η) * p := mul_le_mul_of_nonneg_right (by linarith) (by linarith)
          linarith
        linarith
      have h6 := small (norm_nonneg _) h4
      refine ⟨h6, small (norm_nonneg _) (h5 ?_ (by linarith))⟩
      have hτt : |τ - t| < σ := by have := hτ.2; rwa [Metric.mem_ball, Real.dist_eq] at this
      rw [Metric.mem_ball, dist_eq_norm]
      refine inB τ hτ.1 (by linarith) _ (h6.trans ?_)
      have := mul_le_mul_of_nonneg_right hθ1 (norm_nonneg (x - u τ))
      linarith

/-- The quadratic estimate, with a Lipschitz derivative. -/
theorem quadratic [FiniteDimensional ℝ E] {H : E → E} {D : E → E →L[ℝ] E} {z : E} (hz : H z = 0) (hreg : ∀ w, D z w = 0 → w = 0) {r Λ : ℝ} (hr : 0 < r) (hΛ : 0 < Λ)
    (hder : ∀ x, ‖x - z‖ ≤ r → HasFDerivAt H (D x) x) (hlip : ∀ x, ‖x - z‖ ≤ r → ‖D x - D z‖ ≤ Λ * ‖x - z‖) :
    ∃ δ > 0, ∃ K > 0, ∀ x, ‖x - z‖ ≤ δ → ∀ c, D x c = H x → ‖x - c - z‖ ≤ K * ‖x - z‖ ^ 2 := by
  obtain ⟨a, ha, hA⟩ := exists_lower (D z) hreg
  refine ⟨min r (a / (2 * Λ)), lt_min hr (by positivity), 4 * Λ / a, by positivity, fun x hx c hc => ?_⟩
  have hxr : ‖x - z‖ ≤ r := hx.trans (min_le_left _ _)
  have hxa : Λ * ‖x - z‖ ≤ a / 2 := by
    have := mul_le_mul_of_nonneg_left (hx.trans (min_le_right _ _)) hΛ.le
    refine this.trans (le_of_eq ?_)
    field_simp
  have h := (contract (convex_closedBall z ‖x - z‖) (D := D) (A := D z) (a := a) (η := Λ * ‖x - z‖)
    (fun y hy => hder y (by rw [mem_closedBall, dist_eq_norm] at hy; exact hy.trans hxr)) hA
    (fun y hy => by
      rw [mem_closedBall, dist_eq_norm] at hy
      exact (hlip y (hy.trans hxr)).trans (mul_le_mul_of_nonneg_left hy hΛ.le))
    (mem_closedBall_self (norm_nonneg _)) (by rw [mem_closedBall, dist_eq_norm]) hz (D' := D x) (hlip x hxr) hc).2.2.2.1
  have h2 : a / 2 * ‖x - c - z‖ ≤ 2 * (Λ * ‖x - z‖) * ‖x - z‖ := (mul_le_mul_of_nonneg_right (by linarith) (norm_nonneg _)).trans h
  rw [div_mul_eq_mul_div, le_div_iff₀ ha]
  nlinarith

/-- A regular zero lies on a continuous branch of zeros, the only ones near it. -/
theorem branch_exists [FiniteDimensional ℝ E] {H : ℝ → E → E} {D : ℝ → E → E →L[ℝ] E} {τ : ℝ} {z : E} (h0 : H τ z = 0)
    (hD : ∀ᶠ p in 𝓝 (τ, z), HasFDerivAt (H p.1) (D p.1 p.2) p.2) (hc : ContinuousAt (fun p : ℝ × E => D p.1 p.2) (τ, z))
    (ht : ∀ᶠ p in 𝓝 (τ, z), ContinuousAt (fun t => H t p.2) p.1) (hinj : ∀ w, D τ z w = 0 → w = 0) {Q : ℝ × E → Prop} (hQ : ∀ᶠ p in 𝓝 (τ, z), Q p) :
    ∃ η > 0, ∃ u : ℝ → E, u τ = z ∧ ContinuousOn u (Icc (τ - η) (τ + η)) ∧
      ∀ t ∈ Icc (τ - η) (τ + η), H t (u t) = 0 ∧ Q (t, u t) ∧ ∀ w, D t (u t) w = 0 → w = 0 := by
  obtain ⟨a, ha, hlow⟩ := exists_lower _ hinj
  set A := D τ z with hA
  have hclose : ∀ᶠ p : ℝ × E in 𝓝 (τ, z), ‖D p.1 p.2 - A‖ ≤ a / 2 := by
    have h1 : Tendsto (fun p : ℝ × E => ‖D p.1 p.2 - A‖) (𝓝 (τ, z)) (𝓝 ‖A - A‖) := (hc.sub continuousAt_const).norm
    rw [sub_self, norm_zero] at h1
    exact h1.eventually (eventually_le_nhds (by positivity))
  obtain ⟨r, hr, hball⟩ := (nhds_basis_closedBall.eventually_iff).1 (hD.and (ht.and (hclose.and hQ)))
  have hgood : ∀ t x, |t - τ| ≤ r → ‖x - z‖ ≤ r → HasFDerivAt (H t) (D t x) x ∧ ContinuousAt (fun s => H s x) t ∧ ‖D t x - A‖ ≤ a / 2 ∧ Q (t, x) := by
    intro t x h1 h2
    refine @hball (t, x) ?_
    rw [mem_closedBall, Prod.dist_eq, dist_eq_norm, dist_eq_norm]
    exact max_le h1 h2
  have hsurj : Function.Surjective A := LinearMap.injective_iff_surjective (f := A.toLinearMap) |>.1 (injective_iff_map_eq_zero A.toLinearMap |>.2 hinj)
  have mv : ∀ t, |t - τ| ≤ r → ∀ y ∈ closedBall z r, ∀ y' ∈ closedBall z r, ‖H t y' - H t y - A (y' - y)‖ ≤ a / 2 * ‖y' - y‖ := by
    intro t h1 y hy y' hy'
    refine (convex_closedBall z r).norm_image_sub_le_of_norm_hasFDerivWithin_le' (fun x hx => (hgood t x h1 ?_).1.hasFDerivWithinAt) (fun x hx => (hgood t x h1 ?_).2.2.1) hy hy'
    · rw [← dist_eq_norm]; exact hx
    · rw [← dist_eq_norm]; exact hx
  have low : ∀ t, |t - τ| ≤ r → ∀ y ∈ closedBall z r, ∀ y' ∈ closedBall z r, a / 2 * ‖y' - y‖ ≤ ‖H t y' - H t y‖ := by
    intro t h1 y hy y' hy'
    have e1 := mv t h1 y hy y' hy'
    have e2 := hlow (y' - y)
    have e3 := norm_sub_le (H t y' - H t y) (H t y' - H t y - A (y' - y))
    rw [sub_sub_cancel] at e3
    linarith
  have hzr : z ∈ closedBall z r := mem_closedBall_self hr.le
  obtain ⟨s, hs, hsmall⟩ : ∃ s > 0, ∀ t, |t - τ| ≤ s → ‖H t z‖ ≤ a * r / 2 := by
    have hz : ContinuousAt (fun t => H t z) τ := (hgood τ z (by simpa using hr.le) (by simpa using hr.le)).2.1
    have h1 : Tendsto (fun t => ‖H t z‖) (𝓝 τ) (𝓝 ‖H τ z‖) := hz.norm
    rw [h0, norm_zero] at h1
    obtain ⟨s, hs, h2⟩ := (nhds_basis_closedBall.eventually_iff).1 (h1.eventually (eventually_le_nhds (show 0 < a * r / 2 by positivity)))
    exact ⟨s, hs, fun t ht => h2 (by rw [mem_closedBall, Real.dist_eq]; exact ht)⟩
  choose B hB using hsurj
  have hBn : ∀ y, a * ‖B y‖ ≤ ‖y‖ := fun y => by
    have := hlow (B y)
    rwa [hB] at this
  have key : ∀ t, |t - τ| ≤ min r s → ∃ x ∈ closedBall z r, H t x = 0 := by
    intro t h1
    have h1r := h1.trans (min_le_left _ _)
    have h1s := h1.trans (min_le_right _ _)
    have dif : ∀ y ∈ closedBall z r, ∀ y' ∈ closedBall z r, ‖(y' - B (H t y')) - (y - B (H t y))‖ ≤ 1 / 2 * ‖y' - y‖ := by
      intro y hy y' hy'
      have e1 := mv t h1r y hy y' hy'
      have e2 := hlow ((y' - B (H t y')) - (y - B (H t y)))
      have e3 : A ((y' - B (H t y')) - (y - B (H t y))) = -(H t y' - H t y - A (y' - y)) := by
        rw [map_sub, map_sub, map_sub, hB, hB, map_sub]
        abel
      rw [e3, norm_neg] at e2
      have : a * ‖(y' - B (H t y')) - (y - B (H t y))‖ ≤ a * (1 / 2 * ‖y' - y‖) := by linarith
      exact le_of_mul_le_mul_left this ha
    have hmaps : MapsTo (fun x => x - B (H t x)) (closedBall z r) (closedBall z r) := by
      intro x hx
      have e1 := dif z hzr x hx
      rw [mem_closedBall, dist_eq_norm] at hx ⊢
      have e2 := hBn (H t z)
      have e3 := hsmall t h1s
      have e4 : ‖B (H t z)‖ ≤ r / 2 := le_of_mul_le_mul_left (by linarith : a * ‖B (H t z)‖ ≤ a * (r / 2)) ha
      have e5 := norm_sub_le ((x - B (H t x)) - (z - B (H t z))) (B (H t z))
      rw [show (x - B (H t x)) - (z - B (H t z)) - B (H t z) = x - B (H t x) - z by abel] at e5
      linarith
    have hcon : ContractingWith (1 / 2) (hmaps.restrict (fun x => x - B (H t x)) (closedBall z r) (closedBall z r)) := by
      refine ⟨by rw [← NNReal.coe_lt_coe]; norm_num, LipschitzWith.of_dist_le_mul fun x y => ?_⟩
      rw [Subtype.dist_eq, Subtype.dist_eq, dist_eq_norm, dist_eq_norm]
      have := dif y.1 y.2 x.1 x.2
      simpa using this
    obtain ⟨x, hx, hfix, -⟩ := hcon.exists_fixedPoint' isClosed_closedBall.isComplete hmaps hzr (edist_ne_top _ _)
    refine ⟨x, hx, ?_⟩
    have e : B (H t x) = 0 := by
      have : x - B (H t x) = x := hfix
      rwa [sub_eq_self] at this
    have := hB (H t x)
    rw [e, map_zero] at this
    exact this.symm
  have hη : 0 < min r s := lt_min hr hs
  have habs : ∀ t ∈ Icc (τ - min r s) (τ + min r s), |t - τ| ≤ min r s := fun t h => abs_le.2 ⟨by linarith [h.1], by linarith [h.2]⟩
  choose! u hu hu0 using key
  have huniq : ∀ t, |t - τ| ≤ r → ∀ y ∈ closedBall z r, ∀ y' ∈ closedBall z r, H t y = 0 → H t y' = 0 → y' = y := by
    intro t h1 y hy y' hy' e1 e2
    have := low t h1 y hy y' hy'
    rw [e1, e2, sub_zero, norm_zero] at this
    exact sub_eq_zero.1 (norm_le_zero_iff.1 (by nlinarith [norm_nonneg (y' - y)]))
  refine ⟨min r s, hη, u, ?_, ?_, ?_⟩
  · have h1 : |τ - τ| ≤ min r s := by simpa using hη.le
    exact huniq τ (h1.trans (min_le_left _ _)) z hzr (u τ) (hu τ h1) h0 (hu0 τ h1)
  · intro t hti
    have h1 := habs t hti
    have hut := hu t h1
    have hcont := (hgood t (u t) (h1.trans (min_le_left _ _)) (by rw [← dist_eq_norm]; exact hut)).2.1
    have h2 : Tendsto (fun q => 2 / a * ‖H q (u t)‖) (𝓝[Icc (τ - min r s) (τ + min r s)] t) (𝓝 0) := by
      have h3 : Tendsto (fun q => ‖H q (u t)‖) (𝓝 t) (𝓝 ‖H t (u t)‖) := hcont.norm
      rw [hu0 t h1, norm_zero] at h3
      have := (h3.const_mul (2 / a)).mono_left (nhdsWithin_le_nhds (s := Icc (τ - min r s) (τ + min r s)))
      rwa [mul_zero] at this
    rw [ContinuousWithinAt, tendsto_iff_norm_sub_tendsto_zero]
    refine squeeze_zero' (Eventually.of_forall fun _ => norm_nonneg _) ?_ h2
    filter_upwards [self_mem_nhdsWithin] with q hq
    have h4 := habs q hq
    have := low q (h4.trans (min_le_left _ _)) (u t) hut (u q) (hu q h4)
    rw [hu0 q h4, zero_sub, norm_neg] at this
    rw [div_mul_eq_mul_div, le_div_iff₀ ha]
    linarith
  · intro t hti
    have h1 := habs t hti
    obtain ⟨-, -, g3, g4⟩ := hgood t (u t) (h1.trans (min_le_left _ _)) (by rw [← dist_eq_norm]; exact hu t h1)
    refine ⟨hu0 t h1, g4, fun w hw => ?_⟩
    have e1 := hlow w
    have e2 := (D t (u t) - A).le_opNorm w
    rw [ContinuousLinearMap.sub_apply, hw, zero_sub, norm_neg] at e2
    have e3 := mul_le_mul_of_nonneg_right g3 (norm_nonneg w)
    exact norm_le_zero_iff.1 (by nlinarith [norm_nonneg w])

end Serac.LocalNewton
