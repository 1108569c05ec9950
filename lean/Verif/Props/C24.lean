import Verif.Model.TrustRegion
import Mathlib.Tactic.Linarith
import Mathlib.Tactic.Ring
import Mathlib.Tactic.Positivity
import Mathlib.Tactic.FieldSimp
/-!
# C24: the trust-region solver

Spec, in terms of the Euclidean norm: `‖step‖ ≤ radius` for every attempted step; a boundary projection has norm equal to the radius; the
radius is multiplied by 1/4, 1 or 7/4; the report is that of the returned iterate.

Violations found: a NaN residual at the initial guess leaves the previous report (`C24_nan_report_stale_wrong`), and an exact zero of the
model objective reverses the acceptance test (`C24_zero_model_wrong`).
-/

noncomputable section
namespace Serac.C24
open Serac.TrustRegion
open Serac.Newton (Num Report dblMax)
open scoped Classical InnerProductSpace

variable {V : Type} [NormedAddCommGroup V] [InnerProductSpace ℝ V]

theorem sq_self (v : V) : ⟪v, v⟫_ℝ = ‖v‖ ^ 2 := real_inner_self_eq_norm_sq v

theorem norm_add_smul (z d : V) (t : ℝ) : ‖z + t • d‖ ^ 2 = ‖z‖ ^ 2 + 2 * t * ⟪z, d⟫_ℝ + t ^ 2 * ‖d‖ ^ 2 := by
  rw [norm_add_sq_real, inner_smul_right, norm_smul, mul_pow, Real.norm_eq_abs, sq_abs]; ring

/-- The projection with the coefficients the code passes lands exactly on the sphere, moving forward along `d`. -/
theorem C24_project (z d : V) (tr : ℝ) (htr : 0 ≤ tr) (hz : ‖z‖ ≤ tr) (hd : d ≠ 0) :
    ∃ τ : ℝ, 0 ≤ τ ∧ projectToBoundary z d tr ⟪z, z⟫_ℝ ⟪z, d⟫_ℝ ⟪d, d⟫_ℝ = some (z + τ • d) ∧ ‖z + τ • d‖ = tr := by
  have hdd : 0 < ‖d‖ ^ 2 := by have := norm_pos_iff.2 hd; positivity
  have hzz : ‖z‖ ^ 2 ≤ tr * tr := by rw [pow_two]; exact mul_self_le_mul_self (norm_nonneg _) hz
  have hrad : 0 ≤ (tr * tr - ‖z‖ ^ 2) * ‖d‖ ^ 2 := mul_nonneg (by linarith) hdd.le
  have hrad2 : 0 ≤ (tr * tr - ‖z‖ ^ 2) * ‖d‖ ^ 2 + ⟪z, d⟫_ℝ * ⟪z, d⟫_ℝ := add_nonneg hrad (mul_self_nonneg _)
  set s := Real.sqrt ((tr * tr - ‖z‖ ^ 2) * ‖d‖ ^ 2 + ⟪z, d⟫_ℝ * ⟪z, d⟫_ℝ) with hs
  have hss : s ^ 2 = (tr * tr - ‖z‖ ^ 2) * ‖d‖ ^ 2 + ⟪z, d⟫_ℝ * ⟪z, d⟫_ℝ := Real.sq_sqrt hrad2
  have hge : ⟪z, d⟫_ℝ ≤ s := by
    apply Real.le_sqrt_of_sq_le; rw [pow_two]; linarith
  refine ⟨(s - ⟪z, d⟫_ℝ) / ‖d‖ ^ 2, div_nonneg (by linarith) hdd.le, ?_, ?_⟩
  · unfold projectToBoundary
    simp only [sq_self]
    rw [if_neg (by rintro (h | h); exacts [hdd.ne' h, absurd h (not_lt.2 hrad2)])]
  · have h : ‖z + ((s - ⟪z, d⟫_ℝ) / ‖d‖ ^ 2) • d‖ ^ 2 = tr ^ 2 := by
      rw [norm_add_smul]
      field_simp
      have : ‖d‖ ^ 2 * ‖z‖ ^ 2 + s ^ 2 - ⟪z, d⟫_ℝ ^ 2 = ‖d‖ ^ 2 * tr ^ 2 := by rw [hss]; ring
      linear_combination this
    exact (pow_left_inj₀ (norm_nonneg _) htr two_ne_zero).1 h

/-- The projection on a segment: from inside towards a point outside, it lands on the sphere, strictly between. -/
theorem C24_project_between (z y : V) (tr : ℝ) (htr : 0 ≤ tr) (hz : ‖z‖ ≤ tr) (hy : tr < ‖y‖) :
    ∃ τ : ℝ, 0 ≤ τ ∧ τ ≤ 1 ∧ projectBetween z y tr ⟪z, z⟫_ℝ ⟪z, y⟫_ℝ ⟪y, y⟫_ℝ = some (z + τ • (y - z)) ∧ ‖z + τ • (y - z)‖ = tr := by
  have hd : y - z ≠ 0 := by
    intro h; rw [sub_eq_zero] at h; rw [h] at hy; exact absurd hz (not_le.2 hy)
  obtain ⟨τ, h0, h1, h2⟩ := C24_project z (y - z) tr htr hz hd
  have edd : ⟪y - z, y - z⟫_ℝ = ⟪y, y⟫_ℝ - 2 * ⟪z, y⟫_ℝ + ⟪z, z⟫_ℝ := by
    rw [inner_sub_left, inner_sub_right, inner_sub_right, real_inner_comm z y]; ring
  have ezd : ⟪z, y - z⟫_ℝ = ⟪z, y⟫_ℝ - ⟪z, z⟫_ℝ := inner_sub_right _ _ _
  refine ⟨τ, h0, ?_, ?_, h2⟩
  · by_contra hτ
    push Not at hτ
    -- otherwise y is a convex combination of points of norm at most tr
    have hy' : y = (1 - 1 / τ) • z + (1 / τ) • (z + τ • (y - z)) := by
      have hτ0 : τ ≠ 0 := by linarith
      rw [smul_add, smul_smul, one_div_mul_cancel hτ0, one_smul, sub_smul, one_smul]; abel
    have hle : 1 / τ ≤ 1 := by rw [div_le_one (by linarith)]; exact hτ.le
    have h1τ : 0 ≤ 1 / τ := by positivity
    have : ‖y‖ ≤ tr := by
      calc ‖y‖ = ‖(1 - 1 / τ) • z + (1 / τ) • (z + τ • (y - z))‖ := by rw [← hy']
        _ ≤ ‖(1 - 1 / τ) • z‖ + ‖(1 / τ) • (z + τ • (y - z))‖ := norm_add_le _ _
        _ = (1 - 1 / τ) * ‖z‖ + (1 / τ) * tr := by
          rw [norm_smul, norm_smul, h2, Real.norm_of_nonneg (by linarith), Real.norm_of_nonneg h1τ]
        _ ≤ (1 - 1 / τ) * tr + (1 / τ) * tr := by
          have := mul_le_mul_of_nonneg_left hz (show 0 ≤ 1 - 1 / τ by linarith); linarith
        _ = tr := by ring
    linarith
  · unfold projectToBoundary at h1
    unfold projectBetween
    rw [edd, ezd] at h1
    dsimp only at h1 ⊢
    split at h1
    · cases h1
    · rename_i hn
      rw [if_neg hn]
      have h3 := Option.some.inj h1
      rw [← h3]
      congr 1
      rw [smul_sub, neg_smul]; abel

/-- Every dogleg step is within the radius, for any Cauchy point and any model step; it is a vector whenever both are. -/
theorem C24_dogleg (cp n : V) (tr : ℝ) (htr : 0 < tr) : ∃ s, doglegStep (some cp) (some n) tr = some s ∧ ‖s‖ ≤ tr ∧
    ((tr ≤ ‖cp‖ ∨ (‖cp‖ ≤ ‖n‖ ∧ tr < ‖n‖)) → ‖s‖ = tr) ∧ (‖cp‖ < tr → ‖cp‖ ≤ ‖n‖ → ‖n‖ ≤ tr → s = n) := by
  have sq_le : ∀ a b : ℝ, 0 ≤ a → 0 ≤ b → (a * a ≤ b ^ 2 ↔ a ≤ b) := fun a b ha hb => by
    rw [← pow_two]; exact pow_le_pow_iff_left₀ ha hb two_ne_zero
  have sq_lt : ∀ a b : ℝ, 0 ≤ a → 0 ≤ b → (a ^ 2 < b ^ 2 ↔ a < b) := fun a b ha hb => pow_lt_pow_iff_left₀ ha hb two_ne_zero
  unfold doglegStep
  simp only [sq_self]
  by_cases h1 : tr * tr ≤ ‖cp‖ ^ 2
  · have hc : tr ≤ ‖cp‖ := (sq_le _ _ htr.le (norm_nonneg _)).1 h1
    have hcp : 0 < ‖cp‖ := htr.trans_le hc
    have hn : ‖Real.sqrt (tr * tr / ‖cp‖ ^ 2) • cp‖ = tr := by
      rw [norm_smul, Real.norm_of_nonneg (Real.sqrt_nonneg _), show tr * tr / ‖cp‖ ^ 2 = (tr / ‖cp‖) ^ 2 by rw [div_pow, pow_two tr],
        Real.sqrt_sq (by positivity), div_mul_cancel₀ _ hcp.ne']
    rw [if_pos h1, if_neg (by positivity)]
    exact ⟨_, rfl, hn.le, fun _ => hn, fun h => absurd hc (not_le.2 h)⟩
  · have hc : ‖cp‖ < tr := by
      by_contra h; exact h1 ((sq_le _ _ htr.le (norm_nonneg _)).2 (not_lt.1 h))
    rw [if_neg h1]
    by_cases h2 : ‖n‖ ^ 2 < ‖cp‖ ^ 2
    · have h2' := (sq_lt _ _ (norm_nonneg _) (norm_nonneg _)).1 h2
      rw [if_pos h2]
      refine ⟨_, rfl, hc.le, ?_, fun _ h => absurd h2' (not_lt.2 h)⟩
      rintro (h | ⟨h, -⟩) <;> linarith
    · have h2' : ‖cp‖ ≤ ‖n‖ := by
        by_contra h; exact h2 ((sq_lt _ _ (norm_nonneg _) (norm_nonneg _)).2 (not_le.1 h))
      rw [if_neg h2]
      by_cases h3 : tr * tr < ‖n‖ ^ 2
      · have h3' : tr < ‖n‖ := by rw [← pow_two] at h3; exact (sq_lt _ _ htr.le (norm_nonneg _)).1 h3
        rw [if_pos h3]
        obtain ⟨τ, -, -, h4, h5⟩ := C24_project_between cp n tr htr.le hc.le h3'
        simp only [sq_self] at h4
        exact ⟨_, h4, h5.le, fun _ => h5, fun _ _ h => absurd h3' (not_lt.2 h)⟩
      · have h3' : ‖n‖ ≤ tr := by
          by_contra h; exact h3 (by rw [← pow_two]; exact (sq_lt _ _ htr.le (norm_nonneg _)).2 (not_le.1 h))
        rw [if_neg h3]
        refine ⟨_, rfl, h3', ?_, fun _ _ _ => rfl⟩
        rintro (h | ⟨-, h⟩) <;> linarith

/-- Without a Cauchy point the model step comes out or nothing does. -/
theorem dogleg_none (z : Option V) (tr : ℝ) (d : V) (h : doglegStep none z tr = some d) : z = some d ∧ ¬ tr * tr < ⟪d, d⟫_ℝ := by
  unfold doglegStep at h
  cases z with
  | none => cases h
  | some n =>
    dsimp only at h
    split_ifs at h with h1
    cases h; exact ⟨rfl, h1⟩

/-- Whatever the inputs (NaN included), a dogleg step that is a vector is within the radius. -/
theorem dogleg_le (cp z : Option V) (tr : ℝ) (htr : 0 < tr) (d : V) (h : doglegStep cp z tr = some d) : ‖d‖ ≤ tr := by
  cases cp with
  | none =>
    have h1 := (dogleg_none z tr d h).2
    rw [real_inner_self_eq_norm_sq, ← pow_two, not_lt] at h1
    exact (sq_le_sq₀ (norm_nonneg _) htr.le).1 h1
  | some c =>
    cases z with
    | some n =>
      obtain ⟨s, hs, hle, -⟩ := C24_dogleg c n tr htr
      rw [hs] at h; cases h; exact hle
    | none =>
      -- only the first branch can give a vector
      obtain ⟨s, hs, hle, -⟩ := C24_dogleg c 0 tr htr
      unfold doglegStep at h hs
      dsimp only at h hs
      by_cases h1 : tr * tr ≤ ⟪c, c⟫_ℝ
      · rw [if_pos h1] at h hs; rw [h] at hs; cases hs; exact hle
      · rw [if_neg h1] at h; cases h

/-- The invariant of the CG loop. -/
structure CGInv (tr : ℝ) (z d : V) (zz zd dd : ℝ) : Prop where
  zz : zz = ⟪z, z⟫_ℝ
  zd : zd = ⟪z, d⟫_ℝ
  dd : dd = ⟪d, d⟫_ℝ
  le : ‖z‖ ≤ tr

theorem cgLoop_spec (H P : V → V) (tol2 : ℝ) (minCg : ℕ) (tr : ℝ) (htr : 0 ≤ tr) (rem it : ℕ) (z d r : V) (rPr zz zd dd : ℝ)
    (hinv : CGInv tr z d zz zd dd) :
    let q := cgLoop H P tol2 minCg tr rem it z d r rPr zz zd dd
    (∀ v, q.1 = some v → ‖v‖ ≤ tr ∧ (q.2.1 ≠ .interior → ‖v‖ = tr)) ∧ q.2.2 ≤ it + rem := by
  induction rem generalizing it z d r rPr zz zd dd with
  | zero => exact ⟨fun v h => by cases h; exact ⟨hinv.le, fun h => absurd rfl h⟩, le_rfl⟩
  | succ rem ih =>
    have hproj : ∀ v, projectToBoundary z d tr zz zd dd = some v → ‖v‖ = tr := by
      intro v hv
      by_cases hd : d = 0
      · exfalso
        unfold projectToBoundary at hv
        dsimp only at hv
        rw [if_pos (Or.inl (by rw [hinv.dd, hd, inner_zero_right]))] at hv
        cases hv
      · obtain ⟨τ, -, h1, h2⟩ := C24_project z d tr htr hinv.le hd
        rw [hinv.zz, hinv.zd, hinv.dd, h1] at hv
        cases hv; exact h2
    rw [cgLoop]
    dsimp only
    generalize (if ⟪d, H d⟫_ℝ ≠ 0 then rPr / ⟪d, H d⟫_ℝ else 0) = alpha
    by_cases h1 : ⟪d, H d⟫_ℝ ≤ 0
    · rw [if_pos h1]; exact ⟨fun v hv => ⟨(hproj v hv).le, fun _ => hproj v hv⟩, by dsimp only; omega⟩
    rw [if_neg h1]
    by_cases h2 : tr * tr < ⟪z + alpha • d, z + alpha • d⟫_ℝ
    · rw [if_pos h2]; exact ⟨fun v hv => ⟨(hproj v hv).le, fun _ => hproj v hv⟩, by dsimp only; omega⟩
    rw [if_neg h2]
    have hle : ‖z + alpha • d‖ ≤ tr := by
      rw [sq_self, not_lt, ← pow_two] at h2
      exact (pow_le_pow_iff_left₀ (norm_nonneg _) htr two_ne_zero).1 h2
    by_cases h3 : ⟪r + alpha • H d, r + alpha • H d⟫_ℝ ≤ tol2 ∧ minCg ≤ it
    · rw [if_pos h3]; exact ⟨fun v hv => by cases hv; exact ⟨hle, fun h => absurd rfl h⟩, by dsimp only; omega⟩
    rw [if_neg h3]
    by_cases h4 : rPr = 0 ∧ 0 < rem
    · rw [if_pos h4]; exact ⟨fun v hv => (by cases hv), by dsimp only; omega⟩
    rw [if_neg h4]
    obtain ⟨g1, g2⟩ := ih (it + 1) (z + alpha • d)
      ((-1 : ℝ) • P (r + alpha • H d) + (⟪r + alpha • H d, P (r + alpha • H d)⟫_ℝ / rPr) • d) (r + alpha • H d)
      ⟪r + alpha • H d, P (r + alpha • H d)⟫_ℝ _ _ _ ⟨rfl, rfl, rfl, hle⟩
    exact ⟨g1, by omega⟩

/-- The model step: within the radius, exactly on it when the status says so, and at most `max_cg_iterations + 1` counted iterations. -/
theorem C24_cg (H P : V → V) (r0 : V) (cgTol : ℝ) (minCg maxCg : ℕ) (tr : ℝ) (htr : 0 ≤ tr) :
    let q := solveModel H P r0 cgTol minCg maxCg tr
    (∀ v, q.1 = some v → ‖v‖ ≤ tr ∧ (q.2.1 ≠ .interior → ‖v‖ = tr)) ∧ q.2.2 ≤ maxCg + 1 := by
  unfold solveModel
  by_cases h : ⟪r0, r0⟫_ℝ ≤ cgTol * cgTol ∧ minCg ≤ 0
  · rw [if_pos h]
    exact ⟨fun v hv => by cases hv; exact ⟨by simpa using htr, fun h => absurd rfl h⟩, by dsimp only; omega⟩
  · rw [if_neg h]
    have := cgLoop_spec H P (cgTol * cgTol) minCg tr htr maxCg 1 0 ((0 : V) + (-1 : ℝ) • P r0) r0 ⟪r0, P r0⟫_ℝ 0 0 _
      ⟨by simp, by simp, rfl, by simpa using htr⟩
    rw [Nat.add_comm] at this
    exact this

/-! ## The model objective decreases -/

/-- The quadratic model `q(v) = r₀·v + ½ v·Hv`. -/
def quad (H : V →ₗ[ℝ] V) (r0 v : V) : ℝ := ⟪r0, v⟫_ℝ + 1 / 2 * ⟪v, H v⟫_ℝ

theorem quad_add (H : V →ₗ[ℝ] V) (hH : ∀ u v, ⟪H u, v⟫_ℝ = ⟪u, H v⟫_ℝ) (r0 z d : V) (t : ℝ) :
    quad H r0 (z + t • d) = quad H r0 z + t * ⟪r0 + H z, d⟫_ℝ + t ^ 2 / 2 * ⟪d, H d⟫_ℝ := by
  unfold quad
  have h1 : ⟪d, H z⟫_ℝ = ⟪z, H d⟫_ℝ := by rw [← hH, real_inner_comm]
  simp only [map_add, map_smul, inner_add_left, inner_add_right, inner_smul_left, inner_smul_right, h1, hH, RCLike.conj_to_real]
  ring

theorem cgLoop_decrease (H : V →ₗ[ℝ] V) (hH : ∀ u v, ⟪H u, v⟫_ℝ = ⟪u, H v⟫_ℝ) (P : V → V) (hP : ∀ v, 0 ≤ ⟪v, P v⟫_ℝ)
    (tol2 : ℝ) (minCg : ℕ) (tr : ℝ) (htr : 0 ≤ tr) (r0 : V) (rem it : ℕ) (z d r : V) (rPr zz zd dd : ℝ) (hinv : CGInv tr z d zz zd dd)
    (hr : r = r0 + H z) (hrd : rem ≠ 0 → ⟪r, d⟫_ℝ = -rPr) (hrPr : 0 ≤ rPr) (hq : quad H r0 z ≤ 0) (v : V)
    (hv : (cgLoop H P tol2 minCg tr rem it z d r rPr zz zd dd).1 = some v) : quad H r0 v ≤ 0 := by
  induction rem generalizing it z d r rPr zz zd dd with
  | zero => cases hv; exact hq
  | succ rem ih =>
    replace hrd := hrd (Nat.succ_ne_zero _)
    rw [cgLoop] at hv
    dsimp only at hv
    by_cases hd : d = 0
    · -- the direction vanishes: the projection is NaN
      rw [if_pos (by rw [hd]; simp)] at hv
      unfold projectToBoundary at hv
      dsimp only at hv
      rw [if_pos (Or.inl (by rw [hinv.dd, hd, inner_zero_right]))] at hv
      cases hv
    obtain ⟨τ, hτ0, h1, h2⟩ := C24_project z d tr htr hinv.le hd
    by_cases hc : ⟪d, H d⟫_ℝ ≤ 0
    · rw [if_pos hc, hinv.zz, hinv.zd, hinv.dd, h1] at hv
      cases hv
      rw [quad_add H hH, ← hr, hrd]
      nlinarith [mul_nonneg hτ0 hrPr, mul_nonneg (mul_nonneg hτ0 hτ0) (neg_nonneg.2 hc)]
    rw [if_neg hc] at hv
    have hc' : 0 < ⟪d, H d⟫_ℝ := not_le.1 hc
    rw [if_pos hc'.ne'] at hv
    set α := rPr / ⟪d, H d⟫_ℝ with hα
    have hα0 : 0 ≤ α := div_nonneg hrPr hc'.le
    have hαc : α * ⟪d, H d⟫_ℝ = rPr := div_mul_cancel₀ _ hc'.ne'
    by_cases hb : tr * tr < ⟪z + α • d, z + α • d⟫_ℝ
    · rw [if_pos hb, hinv.zz, hinv.zd, hinv.dd, h1] at hv
      cases hv
      -- τ ≤ α because the sphere is left before α
      have hτα : τ ≤ α := by
        by_contra hlt
        push Not at hlt
        rw [sq_self] at hb
        have hbn : tr < ‖z + α • d‖ := by
          rw [← pow_two] at hb; exact (pow_lt_pow_iff_left₀ htr (norm_nonneg _) two_ne_zero).1 hb
        have hτp : 0 < τ := lt_of_le_of_lt hα0 hlt
        have hconv : z + α • d = (1 - α / τ) • z + (α / τ) • (z + τ • d) := by
          rw [smul_add, smul_smul, div_mul_cancel₀ _ hτp.ne', sub_smul, one_smul]; abel
        have hle1 : α / τ ≤ 1 := by rw [div_le_one hτp]; exact hlt.le
        have hge0 : 0 ≤ α / τ := by positivity
        have : ‖z + α • d‖ ≤ tr := by
          rw [hconv]
          calc _ ≤ ‖(1 - α / τ) • z‖ + ‖(α / τ) • (z + τ • d)‖ := norm_add_le _ _
            _ = (1 - α / τ) * ‖z‖ + (α / τ) * tr := by
              rw [norm_smul, norm_smul, h2, Real.norm_of_nonneg (by linarith), Real.norm_of_nonneg hge0]
            _ ≤ (1 - α / τ) * tr + (α / τ) * tr := by
              have := mul_le_mul_of_nonneg_left hinv.le (show 0 ≤ 1 - α / τ by linarith); linarith
            _ = tr := by ring
        linarith
      rw [quad_add H hH, ← hr, hrd, ← hαc]
      nlinarith [mul_nonneg (mul_nonneg hτ0 (sub_nonneg.2 hτα)) hc'.le, mul_nonneg (mul_nonneg hτ0 hα0) hc'.le]
    rw [if_neg hb] at hv
    have hle : ‖z + α • d‖ ≤ tr := by
      rw [sq_self, not_lt, ← pow_two] at hb
      exact (pow_le_pow_iff_left₀ (norm_nonneg _) htr two_ne_zero).1 hb
    have hqn : quad H r0 (z + α • d) ≤ 0 := by
      rw [quad_add H hH, ← hr, hrd, ← hαc]
      nlinarith [mul_nonneg (mul_nonneg hα0 hα0) hc'.le]
    by_cases h3 : ⟪r + α • H d, r + α • H d⟫_ℝ ≤ tol2 ∧ minCg ≤ it
    · rw [if_pos h3] at hv; cases hv; exact hqn
    rw [if_neg h3] at hv
    by_cases h4 : rPr = 0 ∧ 0 < rem
    · rw [if_pos h4] at hv; cases hv
    rw [if_neg h4] at hv
    refine ih (it + 1) _ _ _ _ _ _ _ ⟨rfl, rfl, rfl, hle⟩ (by rw [hr, map_add, map_smul, add_assoc]) ?_ (hP _) hqn hv
    intro hrem
    have hrPr0 : rPr ≠ 0 := fun h => h4 ⟨h, Nat.pos_of_ne_zero hrem⟩
    have horth : ⟪r + α • H d, d⟫_ℝ = 0 := by
      rw [inner_add_left, inner_smul_left, hrd, RCLike.conj_to_real, hH, hαc]; ring
    rw [inner_add_right, inner_smul_right, inner_smul_right, horth]; ring

/-- For a symmetric Hessian (definite or not) and a positive preconditioner the CG step never increases the model. -/
theorem C24_cg_decrease (H : V →ₗ[ℝ] V) (hH : ∀ u v, ⟪H u, v⟫_ℝ = ⟪u, H v⟫_ℝ) (P : V → V) (hP : ∀ v, 0 ≤ ⟪v, P v⟫_ℝ)
    (r0 : V) (cgTol : ℝ) (minCg maxCg : ℕ) (tr : ℝ) (htr : 0 ≤ tr) (v : V)
    (hv : (solveModel H P r0 cgTol minCg maxCg tr).1 = some v) : quad H r0 v ≤ 0 := by
  unfold solveModel at hv
  by_cases h : ⟪r0, r0⟫_ℝ ≤ cgTol * cgTol ∧ minCg ≤ 0
  · rw [if_pos h] at hv; cases hv; simp [quad]
  · rw [if_neg h] at hv
    exact cgLoop_decrease H hH P hP _ minCg tr htr r0 maxCg 1 0 _ r0 _ 0 0 _ ⟨by simp, by simp, rfl, by simpa using htr⟩
      (by simp) (fun _ => by rw [zero_add, inner_smul_right]; ring) (hP _) (by simp [quad]) v hv

/-- A strictly positive preconditioner never produces NaN as long as the CG residual has not vanished; in particular with a positive
minimal residual tolerance. -/
theorem cgLoop_isSome (H : V →ₗ[ℝ] V) (P : V → V) (hP : ∀ v, v ≠ 0 → 0 < ⟪v, P v⟫_ℝ) (tol2 : ℝ) (htol : 0 ≤ tol2) (tr : ℝ) (htr : 0 ≤ tr)
    (rem it : ℕ) (z d r : V) (rPr zz zd dd : ℝ) (hinv : CGInv tr z d zz zd dd) (hrPr : 0 < rPr) (hrd : ⟪r, d⟫_ℝ = -rPr)
    (hH : ∀ u v, ⟪H u, v⟫_ℝ = ⟪u, H v⟫_ℝ) :
    ∃ v, (cgLoop H P tol2 0 tr rem it z d r rPr zz zd dd).1 = some v := by
  induction rem generalizing it z d r rPr zz zd dd with
  | zero => exact ⟨z, rfl⟩
  | succ rem ih =>
    have hd : d ≠ 0 := by rintro rfl; rw [inner_zero_right] at hrd; linarith
    obtain ⟨τ, -, h1, -⟩ := C24_project z d tr htr hinv.le hd
    rw [← hinv.zz, ← hinv.zd, ← hinv.dd] at h1
    rw [cgLoop]
    dsimp only
    by_cases hc : ⟪d, H d⟫_ℝ ≤ 0
    · rw [if_pos hc]; exact ⟨_, h1⟩
    rw [if_neg hc]
    have hc' : 0 < ⟪d, H d⟫_ℝ := not_le.1 hc
    rw [if_pos hc'.ne']
    set α := rPr / ⟪d, H d⟫_ℝ with hα
    have hαc : α * ⟪d, H d⟫_ℝ = rPr := div_mul_cancel₀ _ hc'.ne'
    by_cases hb : tr * tr < ⟪z + α • d, z + α • d⟫_ℝ
    · rw [if_pos hb]; exact ⟨_, h1⟩
    rw [if_neg hb]
    have hle : ‖z + α • d‖ ≤ tr := by
      rw [sq_self, not_lt, ← pow_two] at hb
      exact (pow_le_pow_iff_left₀ (norm_nonneg _) htr two_ne_zero).1 hb
    by_cases h3 : ⟪r + α • H d, r + α • H d⟫_ℝ ≤ tol2 ∧ 0 ≤ it
    · rw [if_pos h3]; exact ⟨_, rfl⟩
    rw [if_neg h3, if_neg (fun h => hrPr.ne' h.1)]
    have hr0 : r + α • H d ≠ 0 := by
      intro h; apply h3; rw [h, inner_zero_right]; exact ⟨htol, Nat.zero_le _⟩
    have horth : ⟪r + α • H d, d⟫_ℝ = 0 := by
      rw [inner_add_left, inner_smul_left, hrd, RCLike.conj_to_real, hH, hαc]; ring
    exact ih (it + 1) _ _ _ _ _ _ _ ⟨rfl, rfl, rfl, hle⟩ (hP _ hr0)
      (by rw [inner_add_right, inner_smul_right, inner_smul_right, horth]; ring)

/-- With a symmetric Hessian, a positive definite preconditioner and no minimal iteration count the CG step is never NaN. -/
theorem C24_cg_defined (H : V →ₗ[ℝ] V) (hH : ∀ u v, ⟪H u, v⟫_ℝ = ⟪u, H v⟫_ℝ) (P : V → V) (hP : ∀ v, v ≠ 0 → 0 < ⟪v, P v⟫_ℝ)
    (r0 : V) (cgTol : ℝ) (maxCg : ℕ) (tr : ℝ) (htr : 0 ≤ tr) : ∃ v, (solveModel H P r0 cgTol 0 maxCg tr).1 = some v := by
  unfold solveModel
  by_cases h : ⟪r0, r0⟫_ℝ ≤ cgTol * cgTol ∧ 0 ≤ 0
  · rw [if_pos h]; exact ⟨0, rfl⟩
  · rw [if_neg h]
    have hr0 : r0 ≠ 0 := by
      rintro rfl; apply h; rw [inner_zero_right]; exact ⟨mul_self_nonneg _, le_rfl⟩
    exact cgLoop_isSome H P hP _ (mul_self_nonneg _) tr htr maxCg 1 0 _ r0 _ 0 0 _ ⟨by simp, by simp, rfl, by simpa using htr⟩
      (hP _ hr0) (by rw [zero_add, inner_smul_right]; ring) hH

/-- For a positive semidefinite symmetric Hessian the dogleg step between two points that do not increase the model does not increase it
either, whatever the radius. -/
theorem C24_dogleg_decrease (H : V →ₗ[ℝ] V) (hH : ∀ u v, ⟪H u, v⟫_ℝ = ⟪u, H v⟫_ℝ) (hpsd : ∀ v, 0 ≤ ⟪v, H v⟫_ℝ)
    (r0 cp n : V) (hc : quad H r0 cp ≤ 0) (hn : quad H r0 n ≤ 0) (tr : ℝ) (htr : 0 < tr) (s : V)
    (hs : doglegStep (some cp) (some n) tr = some s) : quad H r0 s ≤ 0 := by
  -- on a segment the model is convex
  have hconv : ∀ (a b : V) (t : ℝ), 0 ≤ t → t ≤ 1 → quad H r0 a ≤ 0 → quad H r0 b ≤ 0 → quad H r0 (a + t • (b - a)) ≤ 0 := by
    intro a b t h0 h1 ha hb
    have e1 := quad_add H hH r0 a (b - a) t
    have e2 := quad_add H hH r0 a (b - a) 1
    rw [one_smul, add_sub_cancel] at e2
    have := hpsd (b - a)
    have h2 : quad H r0 (a + t • (b - a)) = (1 - t) * quad H r0 a + t * quad H r0 b - t * (1 - t) / 2 * ⟪b - a, H (b - a)⟫_ℝ := by
      rw [e1, e2]; ring
    rw [h2]
    nlinarith [mul_nonneg (mul_nonneg h0 (sub_nonneg.2 h1)) this, mul_nonneg (sub_nonneg.2 h1) (neg_nonneg.2 ha), mul_nonneg h0 (neg_nonneg.2 hb)]
  have hzero : quad H r0 0 ≤ 0 := by simp [quad]
  unfold doglegStep at hs
  dsimp only at hs
  by_cases h1 : tr * tr ≤ ⟪cp, cp⟫_ℝ
  · have hcp : 0 < ⟪cp, cp⟫_ℝ := lt_of_lt_of_le (mul_pos htr htr) h1
    rw [if_pos h1, if_neg hcp.ne'] at hs
    cases hs
    have := hconv 0 cp (Real.sqrt (tr * tr / ⟪cp, cp⟫_ℝ)) (Real.sqrt_nonneg _)
      (Real.sqrt_le_one.2 ((div_le_one hcp).2 h1)) hzero hc
    simpa using this
  rw [if_neg h1] at hs
  by_cases h2 : ⟪n, n⟫_ℝ < ⟪cp, cp⟫_ℝ
  · rw [if_pos h2] at hs; cases hs; exact hc
  rw [if_neg h2] at hs
  by_cases h3 : tr * tr < ⟪n, n⟫_ℝ
  · rw [if_pos h3] at hs
    have hcl : ‖cp‖ ≤ tr := by
      rw [sq_self, not_le, ← pow_two] at h1
      exact ((pow_lt_pow_iff_left₀ (norm_nonneg _) htr.le two_ne_zero).1 h1).le
    have hnl : tr < ‖n‖ := by
      rw [sq_self, ← pow_two] at h3
      exact (pow_lt_pow_iff_left₀ htr.le (norm_nonneg _) two_ne_zero).1 h3
    obtain ⟨τ, h0, h1', h4, -⟩ := C24_project_between cp n tr htr.le hcl hnl
    rw [h4] at hs; cases hs
    exact hconv cp n τ h0 h1' hc hn
  · rw [if_neg h3] at hs; cases hs; exact hn

/-- The Cauchy point and the model step the solver computes do not increase the model, for any symmetric Hessian and any positive
preconditioner. -/
theorem C24_model_step_decrease (H : V →ₗ[ℝ] V) (hH : ∀ u v, ⟪H u, v⟫_ℝ = ⟪u, H v⟫_ℝ) (P : V → V) (hP : ∀ v, 0 ≤ ⟪v, P v⟫_ℝ)
    (r : V) (norm goal tr : ℝ) (htr : 0 < tr) (minIter maxCg : ℕ) :
    (∀ c, (modelStep H P r norm goal tr minIter maxCg).1 = some c → quad H r c ≤ 0) ∧
    (∀ z, (modelStep H P r norm goal tr minIter maxCg).2.1 = some z → quad H r z ≤ 0) := by
  -- along -r the model decreases up to the minimiser
  have hray : ∀ t : ℝ, 0 ≤ t → t * ⟪r, H r⟫_ℝ ≤ ⟪r, r⟫_ℝ → quad H r ((-t) • r) ≤ 0 := by
    intro t ht h
    have e := quad_add H hH r 0 r (-t)
    rw [zero_add, map_zero, add_zero, show quad H r 0 = 0 by simp [quad], zero_add] at e
    rw [e]
    have hrr : 0 ≤ ⟪r, r⟫_ℝ := real_inner_self_nonneg
    nlinarith [mul_le_mul_of_nonneg_left h ht, mul_nonneg ht hrr]
  unfold modelStep
  dsimp only
  by_cases hg : 0 < ⟪r, H r⟫_ℝ
  · simp only [if_pos hg]
    have h0 : 0 ≤ ⟪r, r⟫_ℝ / ⟪r, H r⟫_ℝ := div_nonneg real_inner_self_nonneg hg.le
    have hc : ∀ k : ℝ, 0 ≤ k → k ≤ 1 → quad H r (k • ((0 : V) + (-⟪r, r⟫_ℝ / ⟪r, H r⟫_ℝ) • r)) ≤ 0 := by
      intro k hk0 hk1
      have := hray (k * (⟪r, r⟫_ℝ / ⟪r, H r⟫_ℝ)) (mul_nonneg hk0 h0) (by
        rw [mul_assoc, div_mul_cancel₀ _ hg.ne']; nlinarith [real_inner_self_nonneg (F := V) (x := r)])
      rw [zero_add, smul_smul, neg_div, mul_neg]; exact this
    generalize (0 : V) + (-⟪r, r⟫_ℝ / ⟪r, H r⟫_ℝ) • r = c at hc
    by_cases hb : tr * tr ≤ ⟪c, c⟫_ℝ
    · have hcc : 0 < ⟪c, c⟫_ℝ := lt_of_lt_of_le (mul_pos htr htr) hb
      rw [if_pos hb, if_neg hcc.ne']
      have hk : tr / Real.sqrt ⟪c, c⟫_ℝ ≤ 1 := by
        rw [div_le_one (Real.sqrt_pos.2 hcc)]; apply Real.le_sqrt_of_sq_le; rw [pow_two]; exact hb
      have := hc _ (div_nonneg htr.le (Real.sqrt_nonneg _)) hk
      exact ⟨fun v hv => by cases hv; exact this, fun v hv => by cases hv; exact this⟩
    · rw [if_neg hb]
      refine ⟨fun v hv => ?_, fun v hv => C24_cg_decrease H hH P hP r _ _ _ tr htr.le v hv⟩
      cases hv
      have := hc 1 zero_le_one le_rfl
      rwa [one_smul] at this
  · simp only [if_neg hg]
    rw [if_pos le_rfl, if_neg (by positivity)]
    have key : ∀ v, (Option.map (fun c => (tr / Real.sqrt (tr * tr)) • c)
        (if ⟪r, r⟫_ℝ = 0 then none else some ((0 : V) + (-tr / Real.sqrt ⟪r, r⟫_ℝ) • r))) = some v → quad H r v ≤ 0 := by
      intro v hv
      by_cases hr : ⟪r, r⟫_ℝ = 0
      · rw [if_pos hr] at hv; cases hv
      · rw [if_neg hr] at hv
        cases hv
        have ht : 0 ≤ tr / Real.sqrt ⟪r, r⟫_ℝ := div_nonneg htr.le (Real.sqrt_nonneg _)
        have := hray (tr / Real.sqrt ⟪r, r⟫_ℝ) ht (by
          nlinarith [mul_nonneg ht (neg_nonneg.2 (not_lt.1 hg)), real_inner_self_nonneg (F := V) (x := r)])
        dsimp only
        rw [Real.sqrt_mul_self htr.le, div_self htr.ne', one_smul, zero_add, neg_div]; exact this
    exact ⟨key, key⟩

/-- So for a positive semidefinite symmetric Hessian no attempted step increases the model, even after the radius was cut: the warning
"positive model objective increase" cannot be printed. -/
theorem C24_attempt_decrease (H : V →ₗ[ℝ] V) (hH : ∀ u v, ⟪H u, v⟫_ℝ = ⟪u, H v⟫_ℝ) (hpsd : ∀ v, 0 ≤ ⟪v, H v⟫_ℝ) (P : V → V)
    (hP : ∀ v, 0 ≤ ⟪v, P v⟫_ℝ) (r : V) (norm goal tr : ℝ) (htr : 0 < tr) (minIter maxCg : ℕ) (tr' : ℝ) (htr' : 0 < tr') (d : V)
    (hd : doglegStep (modelStep H P r norm goal tr minIter maxCg).1 (modelStep H P r norm goal tr minIter maxCg).2.1 tr' = some d) :
    modelObjective H r d ≤ 0 := by
  obtain ⟨h1, h2⟩ := C24_model_step_decrease H hH P hP r norm goal tr htr minIter maxCg
  have hq : modelObjective H r d = quad H r d := by unfold modelObjective quad; norm_num
  rw [hq]
  generalize (modelStep H P r norm goal tr minIter maxCg).1 = cp at hd h1
  generalize (modelStep H P r norm goal tr minIter maxCg).2.1 = z at hd h2
  cases cp with
  | none => exact h2 d (dogleg_none z tr' d hd).1
  | some c =>
    cases z with
    | some n => exact C24_dogleg_decrease H hH hpsd r c n (h1 c rfl) (h2 n rfl) tr' htr' d hd
    | none =>
      -- only the scaled Cauchy point can come out
      apply C24_dogleg_decrease H hH hpsd r c 0 (h1 c rfl) (by simp [quad]) tr' htr' d
      unfold doglegStep at hd ⊢
      dsimp only at hd ⊢
      by_cases hb : tr' * tr' ≤ ⟪c, c⟫_ℝ
      · rw [if_pos hb] at hd ⊢; exact hd
      · rw [if_neg hb] at hd; cases hd

/-! ## The outer solver -/

/-- The possible changes of the radius. -/
def RadiusChange (a b : ℝ) : Prop := b = a ∨ b = a / 4 ∨ b = a * 7 / 4

/-- A trace (latest first) is consistent: each attempt starts with the radius the previous one left. -/
def Chained (tr0 : ℝ) : List (Attempt V) → ℝ → Prop
  | [], now => now = tr0
  | a :: rest, now => a.after = now ∧ RadiusChange a.before a.after ∧ 0 < a.before ∧ (∀ d, a.step = some d → ‖d‖ ≤ a.before) ∧
      Chained tr0 rest a.before

theorem newRadius_change (ρ : Ext) (st : Status) (tr : ℝ) : RadiusChange tr (newRadius ρ st tr) := by
  unfold newRadius RadiusChange t1 t2
  by_cases h1 : ρ.ge eta2
  · rw [if_neg (not_not.2 h1)]
    by_cases h2 : ρ.gt eta3 ∧ st = .onBoundary
    · rw [if_pos h2]; right; right; ring
    · rw [if_neg h2]; left; rfl
  · rw [if_pos h1]; right; left; ring

theorem change_pos {a b : ℝ} (h : RadiusChange a b) (ha : 0 < a) : 0 < b := by
  rcases h with h | h | h <;> rw [h] <;> linarith

/-- Evaluation of the residual as the solver sees it. -/
def evalNorm (p : Problem V) (x r : V) : Option ℝ × Option V :=
  match p.oper x r with
  | .ok r' => (some ‖r'‖, some r')
  | .bad => (none, none)
  | .threw r' => (some dblMax, some r')

/-- What holds between attempts: the residual and norm are those of an evaluation at the current iterate, and the trace is consistent. -/
structure Inv (p : Problem V) (tr0 : ℝ) (s : Inner V) : Prop where
  eval : ∃ r₀, evalNorm p s.x r₀ = (some s.norm, some s.r)
  pos : 0 < s.tr
  chain : Chained tr0 s.trace s.tr

theorem attempt_inv (p : Problem V) (goal tr0 : ℝ) (cp z : Option V) (st : Status) (s : Inner V) (hs : Inv p tr0 s) :
    Inv p tr0 (attempt p goal cp z st s).1 ∧ (attempt p goal cp z st s).1.trace.length = s.trace.length + 1 := by
  have hstep : ∀ d, doglegStep cp z s.tr = some d → ‖d‖ ≤ s.tr := fun d h =>
    dogleg_le cp z s.tr hs.pos d h
  have hch : ∀ ρ, RadiusChange s.tr (newRadius ρ st s.tr) := fun ρ => newRadius_change ρ st s.tr
  unfold attempt
  cases hd : doglegStep cp z s.tr with
  | none =>
    exact ⟨⟨hs.eval, change_pos (hch _) hs.pos, rfl, hch _, hs.pos, fun d h => (by cases h), hs.chain⟩, rfl⟩
  | some d =>
    have hdl := hstep d hd
    have hdl' : ∀ d', some d = some d' → ‖d'‖ ≤ s.tr := fun d' h => by cases h; exact hdl
    dsimp only
    cases ho : p.oper (s.x + d) s.rPred with
    | bad => exact ⟨⟨hs.eval, change_pos (hch _) hs.pos, rfl, hch _, hs.pos, hdl', hs.chain⟩, rfl⟩
    | ok rp =>
      dsimp only
      have he : evalNorm p (s.x + d) s.rPred = (some ‖rp‖, some rp) := by unfold evalNorm; rw [ho]
      by_cases hg : ‖rp‖ ≤ goal
      · rw [if_pos hg]; exact ⟨⟨⟨_, he⟩, hs.pos, rfl, Or.inl rfl, hs.pos, hdl', hs.chain⟩, rfl⟩
      rw [if_neg hg]
      split_ifs
      · exact ⟨⟨⟨_, he⟩, change_pos (hch _) hs.pos, rfl, hch _, hs.pos, hdl', hs.chain⟩, rfl⟩
      · exact ⟨⟨hs.eval, change_pos (hch _) hs.pos, rfl, hch _, hs.pos, hdl', hs.chain⟩, rfl⟩
    | threw rp =>
      dsimp only
      have he : evalNorm p (s.x + d) s.rPred = (some dblMax, some rp) := by unfold evalNorm; rw [ho]
      by_cases hg : dblMax ≤ goal
      · rw [if_pos hg]; exact ⟨⟨⟨_, he⟩, hs.pos, rfl, Or.inl rfl, hs.pos, hdl', hs.chain⟩, rfl⟩
      rw [if_neg hg]
      split_ifs
      · exact ⟨⟨⟨_, he⟩, change_pos (hch _) hs.pos, rfl, hch _, hs.pos, hdl', hs.chain⟩, rfl⟩
      · exact ⟨⟨hs.eval, change_pos (hch _) hs.pos, rfl, hch _, hs.pos, hdl', hs.chain⟩, rfl⟩

theorem attempts_inv (p : Problem V) (goal tr0 : ℝ) (cp z : Option V) (st : Status) (rem : ℕ) (s : Inner V) (hs : Inv p tr0 s) :
    Inv p tr0 (attempts p goal cp z st rem s) ∧ (attempts p goal cp z st rem s).trace.length ≤ s.trace.length + rem := by
  induction rem generalizing s with
  | zero => exact ⟨hs, le_rfl⟩
  | succ rem ih =>
    obtain ⟨h1, h2⟩ := attempt_inv p goal tr0 cp z st s hs
    rw [attempts]
    split_ifs
    · exact ⟨h1, by omega⟩
    · obtain ⟨g1, g2⟩ := ih _ h1; exact ⟨g1, by omega⟩

theorem modelStep_none (H P : V → V) (r : V) (norm goal tr : ℝ) (minIter maxCg : ℕ) :
    (modelStep H P r norm goal tr minIter maxCg).1 = none → (modelStep H P r norm goal tr minIter maxCg).2.1 = none := by
  unfold modelStep
  dsimp only
  split_ifs <;> simp_all

theorem iterate_inv (p : Problem V) (o : Options) (goal tr0 : ℝ) (it : ℕ) (s : Outer V) (hs : Inv p tr0 s.inner) :
    Inv p tr0 (iterate p o goal it s).inner ∧ (iterate p o goal it s).inner.trace.length ≤ s.inner.trace.length + (o.maxLs + 1) := by
  unfold iterate
  dsimp only
  exact attempts_inv p goal tr0 _ _ _ _ _ hs

theorem loop_spec (p : Problem V) (o : Options) (goal tr0 : ℝ) (rep : Report) (it : ℕ) (hit : it ≤ o.maxIter) (s : Outer V)
    (hs : Inv p tr0 s.inner) :
    let q := loop p o goal rep it s
    Inv p tr0 q.1.inner ∧ q.1.inner.trace.length ≤ s.inner.trace.length + (o.maxIter - it) * (o.maxLs + 1) ∧
      q.2.initialNorm = rep.initialNorm ∧ q.2.finalNorm = .fin q.1.inner.norm ∧ q.2.finalIter ≤ o.maxIter ∧
      (q.2.converged = true ↔ (q.1.inner.norm ≤ goal ∧ o.minIter ≤ q.2.finalIter)) ∧ (q.2.converged = false → q.2.finalIter = o.maxIter) := by
  induction hm : o.maxIter - it generalizing it s with
  | zero =>
    rw [loop]
    by_cases hc : s.inner.norm ≤ goal ∧ o.minIter ≤ it
    · rw [if_pos hc]; exact ⟨hs, by simp, rfl, rfl, hit, by simpa using hc, by simp⟩
    · rw [if_neg hc, if_pos (by omega)]; exact ⟨hs, by simp, rfl, rfl, hit, by simpa using hc, fun _ => by dsimp only; omega⟩
  | succ k ih =>
    rw [loop]
    by_cases hc : s.inner.norm ≤ goal ∧ o.minIter ≤ it
    · rw [if_pos hc]; exact ⟨hs, by simp, rfl, rfl, hit, by simpa using hc, by simp⟩
    · rw [if_neg hc, if_neg (by omega)]
      obtain ⟨i1, i2⟩ := iterate_inv p o goal tr0 it s hs
      obtain ⟨h1, h2, h3⟩ := ih (it + 1) (by omega) _ i1 (by omega)
      refine ⟨h1, ?_, h3⟩
      rw [Nat.succ_mul]; omega

/-- A call that gets past its first residual evaluation: every attempted step is within the radius in force, the radius starts at the
configured size, stays positive, and changes only by the factors 1/4 and 7/4; at most `max_iter (max_ls + 1)` steps are attempted; and
the report describes the returned iterate: its norm is an evaluation there, convergence is reported exactly when the tolerance is met after
the minimal number of iterations, otherwise the budget was used up. -/
theorem C24_run_partial (p : Problem V) (o : Options) (x r r0 : V) (rep : Report) (htr : 0 < o.tr0) (h0 : p.oper x r = .ok r0) :
    ∃ s rep', mult p o x r rep = .done s rep' ∧
      Chained o.tr0 s.inner.trace s.inner.tr ∧ s.inner.trace.length ≤ o.maxIter * (o.maxLs + 1) ∧
      (∃ r₀, evalNorm p s.inner.x r₀ = (some s.inner.norm, some s.inner.r)) ∧
      rep'.initialNorm = .fin ‖r0‖ ∧ rep'.finalNorm = .fin s.inner.norm ∧ rep'.finalIter ≤ o.maxIter ∧
      (rep'.converged = true ↔ s.inner.norm ≤ max (o.relTol * ‖r0‖) o.absTol ∧ o.minIter ≤ rep'.finalIter) ∧
      (rep'.converged = false → rep'.finalIter = o.maxIter) := by
  have he : evalNorm p x r = (some ‖r0‖, some r0) := by unfold evalNorm; rw [h0]
  obtain ⟨h1, h2, h3, h4, h5, h6, h7⟩ := loop_spec p o (max (o.relTol * ‖r0‖) o.absTol) o.tr0 { rep with initialNorm := .fin ‖r0‖ } 0
    (Nat.zero_le _) { inner := { x, r := r0, norm := ‖r0‖, tr := o.tr0, rPred := 0, trace := [] }, precAt := x, cum := 0, cgCount := 0 }
    ⟨⟨r, he⟩, htr, rfl⟩
  refine ⟨_, _, by unfold mult; rw [h0], h1.chain, by simpa using h2, h1.eval, h3, h4, h5, h6, h7⟩

theorem gt_ge (ρ : Ext) (h : ρ.gt eta3) : ρ.ge eta2 := by
  cases ρ with
  | nan => exact h
  | ninf => exact h
  | pinf => trivial
  | fin x =>
    have : eta3 < x := h
    show eta2 ≤ x
    unfold eta3 at this; unfold eta2; linarith

/-- How the radius is adapted: it shrinks exactly when the ratio of real to model improvement is not at least 0.1 (NaN included), grows
exactly when it is above 0.6 and the model step was on the boundary, and is kept otherwise. -/
theorem C24_radius (ρ : Ext) (st : Status) (tr : ℝ) (htr : 0 < tr) :
    (newRadius ρ st tr = tr / 4 ↔ ¬ ρ.ge (1 / 10)) ∧ (newRadius ρ st tr = tr * 7 / 4 ↔ ρ.gt (3 / 5) ∧ st = .onBoundary) ∧
    (newRadius ρ st tr = tr ↔ ρ.ge (1 / 10) ∧ ¬ (ρ.gt (3 / 5) ∧ st = .onBoundary)) := by
  have hg := gt_ge ρ
  unfold newRadius t1 t2 eta2 eta3 at *
  by_cases h1 : ρ.ge (1 / 10)
  · rw [if_neg (not_not.2 h1)]
    by_cases h2 : ρ.gt (3 / 5) ∧ st = .onBoundary
    · rw [if_pos h2]
      exact ⟨⟨fun h => by linarith, fun h => absurd h1 h⟩, ⟨fun _ => h2, fun _ => by ring⟩, ⟨fun h => by linarith, fun h => absurd h2 h.2⟩⟩
    · rw [if_neg h2]
      exact ⟨⟨fun h => by linarith, fun h => absurd h1 h⟩, ⟨fun h => by linarith, fun h => absurd h h2⟩, ⟨fun _ => ⟨h1, h2⟩, fun _ => rfl⟩⟩
  · rw [if_pos h1]
    exact ⟨⟨fun _ => h1, fun _ => by ring⟩, ⟨fun h => by linarith, fun h => absurd (hg h.1) h1⟩, ⟨fun h => by linarith, fun h => absurd h.1 h1⟩⟩

/-- Acceptance: when the model objective is not exactly zero, an accepted step either meets the tolerance or does negative work,
`½ (r + r_pred) · d ≤ -10⁻⁹ |model objective| < 0`; a step whose residual throws is never accepted (for tolerances below `DBL_MAX`). -/
theorem C24_accept_partial (p : Problem V) (goal : ℝ) (cp z : Option V) (st : Status) (s : Inner V)
    (hgoal : goal < dblMax) (hacc : (attempt p goal cp z st s).2 = true) :
    ∃ d rp, doglegStep cp z s.tr = some d ∧ (attempt p goal cp z st s).1.x = s.x + d ∧
      (modelObjective (p.jac s.x) s.r d ≠ 0 →
        p.oper (s.x + d) s.rPred = .ok rp ∧ (attempt p goal cp z st s).1.r = rp ∧
        (‖rp‖ ≤ goal ∨ 1 / 2 * (⟪s.r, d⟫_ℝ + ⟪rp, d⟫_ℝ) ≤ -(1 / 10 ^ 9 * |modelObjective (p.jac s.x) s.r d|))) := by
  have hdm : 0 < dblMax := by unfold dblMax; norm_num
  have hrho : ∀ (m f : ℝ) (b : Bool), m ≠ 0 → (rho m f b).ge eta1 → f ≤ -(1 / 10 ^ 9 * |m|) := by
    intro m f b hm h
    unfold rho at h
    rw [if_pos hm] at h
    have h' : eta1 ≤ -f / |m| := by
      by_cases hp : 0 < m
      · rw [if_pos hp, neg_neg] at h; rw [abs_of_pos hp]; exact h
      · rw [if_neg hp] at h; rw [abs_of_neg (lt_of_le_of_ne (not_lt.1 hp) hm)]; exact h
    rw [le_div_iff₀ (abs_pos.2 hm)] at h'
    unfold eta1 at h'
    linarith
  unfold attempt at hacc ⊢
  cases hd : doglegStep cp z s.tr with
  | none => rw [hd] at hacc; simp at hacc
  | some d =>
    rw [hd] at hacc
    dsimp only at hacc ⊢
    cases ho : p.oper (s.x + d) s.rPred with
    | bad => rw [ho] at hacc; simp at hacc
    | ok rp =>
      rw [ho] at hacc
      dsimp only at hacc ⊢
      by_cases hg : ‖rp‖ ≤ goal
      · rw [if_pos hg]; exact ⟨d, rp, rfl, rfl, fun _ => ⟨ho, rfl, Or.inl hg⟩⟩
      · rw [if_neg hg] at hacc ⊢
        by_cases hr : (rho (modelObjective (p.jac s.x) s.r d) (0.5 * (⟪s.r, d⟫_ℝ + ⟪rp, d⟫_ℝ)) (p.zeroNeg d)).ge eta1
        · rw [if_pos hr]
          refine ⟨d, rp, rfl, rfl, fun hm => ⟨ho, rfl, Or.inr ?_⟩⟩
          have := hrho _ _ _ hm hr
          rw [show (1 / 2 : ℝ) = 0.5 by norm_num]; exact this
        · rw [if_neg hr] at hacc; simp at hacc
    | threw rp =>
      rw [ho] at hacc
      dsimp only at hacc ⊢
      rw [if_neg (not_le.2 hgoal)] at hacc ⊢
      by_cases hr : (rho (modelObjective (p.jac s.x) s.r d) dblMax (p.zeroNeg d)).ge eta1
      · rw [if_pos hr]
        refine ⟨d, rp, rfl, rfl, fun hm => ?_⟩
        have := hrho _ _ _ hm hr
        have := abs_nonneg (modelObjective (p.jac s.x) s.r d)
        nlinarith
      · rw [if_neg hr] at hacc; simp at hacc

/-- When the model objective is exactly `+0.0` the divisor is `-0.0`: every step that does positive work is accepted, and every step that
does negative work (and misses the tolerance) is rejected. -/
theorem C24_zero_model_wrong (p : Problem V) (goal : ℝ) (cp z : Option V) (st : Status) (s : Inner V) (d rp : V)
    (hd : doglegStep cp z s.tr = some d) (hm : modelObjective (p.jac s.x) s.r d = 0) (hz : p.zeroNeg d = false)
    (ho : p.oper (s.x + d) s.rPred = .ok rp) (hg : goal < ‖rp‖) (hne : ⟪s.r, d⟫_ℝ + ⟪rp, d⟫_ℝ ≠ 0) :
    (attempt p goal cp z st s).2 = true ↔ 0 < 1 / 2 * (⟪s.r, d⟫_ℝ + ⟪rp, d⟫_ℝ) := by
  unfold attempt
  rw [hd]; dsimp only; rw [ho]; dsimp only
  rw [if_neg (not_le.2 hg), hm, hz]
  have e : rho 0 (0.5 * (⟪s.r, d⟫_ℝ + ⟪rp, d⟫_ℝ)) false = if 0 < ⟪s.r, d⟫_ℝ + ⟪rp, d⟫_ℝ then .pinf else .ninf := by
    unfold rho
    rw [if_neg (not_not.2 rfl), if_neg (by intro h; apply hne; linarith)]
    by_cases hp : 0 < ⟪s.r, d⟫_ℝ + ⟪rp, d⟫_ℝ
    · rw [if_pos hp, if_pos ⟨fun h => by linarith, fun h => by cases h⟩]
    · rw [if_neg hp, if_neg (fun h => by
        have := h.1 (by have := lt_of_le_of_ne (not_lt.1 hp) hne; linarith)
        cases this)]
  rw [e]
  by_cases hp : 0 < ⟪s.r, d⟫_ℝ + ⟪rp, d⟫_ℝ
  · simp only [if_pos hp]
    rw [if_pos (show Ext.pinf.ge eta1 from trivial)]
    exact ⟨fun _ => by linarith, fun _ => rfl⟩
  · simp only [if_neg hp]
    rw [if_neg (show ¬ Ext.ninf.ge eta1 from fun h => h)]
    exact ⟨fun h => by simp at h, fun h => by linarith⟩

/-- A NaN residual at the initial guess: the report is the previous one except for the initial norm; so it says "converged" if the call
before converged. -/
theorem C24_nan_report_stale_wrong (p : Problem V) (o : Options) (x r : V) (rep : Report) (h : p.oper x r = .bad) :
    mult p o x r rep = .nan { rep with initialNorm := .nan } := by
  unfold mult; rw [h]

/-! ## Non-vacuity -/

/-- Two points of ℝ, radius 1: the projection of 0 along 3 is 1. -/
example : ∃ τ : ℝ, 0 ≤ τ ∧ projectToBoundary (0 : ℝ) 3 1 ⟪(0 : ℝ), 0⟫_ℝ ⟪(0 : ℝ), 3⟫_ℝ ⟪(3 : ℝ), 3⟫_ℝ = some (0 + τ • 3) ∧ ‖(0 : ℝ) + τ • 3‖ = 1 :=
  C24_project 0 3 1 (by norm_num) (by simp) (by norm_num)

def exP : Problem ℝ := { oper := fun x _ => .ok (2 * x), jac := fun _ v => 2 * v, prec := fun _ v => v, zeroNeg := fun _ => false }
def exO : Options := { relTol := 1 / 100, absTol := 0, maxIter := 10, minIter := 0, maxLs := 3, maxCg := 5, tr0 := 1, printIters := false }
example : 0 < exO.tr0 ∧ exP.oper 5 0 = .ok 10 := ⟨by norm_num [exO], by norm_num [exP]⟩

/-- The hypotheses of the decrease theorems hold for the identity. -/
example : (∀ u v : ℝ, ⟪(LinearMap.id : ℝ →ₗ[ℝ] ℝ) u, v⟫_ℝ = ⟪u, (LinearMap.id : ℝ →ₗ[ℝ] ℝ) v⟫_ℝ) ∧
    (∀ v : ℝ, 0 ≤ ⟪v, (LinearMap.id : ℝ →ₗ[ℝ] ℝ) v⟫_ℝ) ∧ (∀ v : ℝ, v ≠ 0 → 0 < ⟪v, v⟫_ℝ) :=
  ⟨fun _ _ => rfl, fun _ => real_inner_self_nonneg, fun _ h => real_inner_self_pos.2 h⟩

end Serac.C24
