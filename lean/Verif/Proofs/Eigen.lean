import Verif.Model.Eigen
import Verif.Proofs.Tensor
import Mathlib.LinearAlgebra.CrossProduct
import Mathlib.Analysis.Matrix.Spectrum
import Mathlib.Tactic.LinearCombination
import Mathlib.Tactic.NormNum
/-!
# Lemmas on the eigenvalue algorithm
-/

noncomputable section
namespace Serac.Eigen
open Serac.Tensor
open scoped Matrix

abbrev M3 := Matrix (Fin 3) (Fin 3) ℝ
abbrev V3 := Fin 3 → ℝ

theorem norm_eq (v : V3) : norm v = Real.sqrt (v ⬝ᵥ v) := by rw [norm, sqNormV_eq]; rfl

theorem cross_eq (u v : V3) : cross u v = crossProduct u v := by rw [cross_apply]; rfl

theorem dotVV_eq' (u v : V3) : dotVV u v = u ⬝ᵥ v := dotVV_eq u v

theorem dot_self_nonneg (v : V3) : 0 ≤ v ⬝ᵥ v := Finset.sum_nonneg fun _ _ => mul_self_nonneg _

theorem norm_zero_iff (v : V3) : norm v = 0 ↔ v = 0 := by
  rw [norm_eq, Real.sqrt_eq_zero (dot_self_nonneg v), dotProduct_self_eq_zero]

/-- `normalize` of a non-zero vector is a unit vector in its direction. -/
theorem normalize_eq (v : V3) (h : v ≠ 0) : ∃ c > 0, normalize v = some (c • v) ∧ (c • v) ⬝ᵥ (c • v) = 1 ∧ c * c * (v ⬝ᵥ v) = 1 := by
  have hn : norm v ≠ 0 := fun h0 => h ((norm_zero_iff v).1 h0)
  have hp : 0 < norm v := lt_of_le_of_ne (by rw [norm]; exact Real.sqrt_nonneg _) hn.symm
  have hs : norm v * norm v = v ⬝ᵥ v := by rw [norm_eq, Real.mul_self_sqrt (dot_self_nonneg v)]
  refine ⟨(norm v)⁻¹, inv_pos.2 hp, ?_, ?_, ?_⟩
  · rw [normalize, if_neg hn]
    congr 1
    funext i
    simp [div_eq_inv_mul]
  · rw [smul_dotProduct, dotProduct_smul, ← hs, smul_eq_mul, smul_eq_mul]
    field_simp
  · rw [← hs]; field_simp

theorem normalize_unit (v : V3) (h : v ⬝ᵥ v = 1) : normalize v = some v := by
  have hn : norm v = 1 := by rw [norm_eq, h, Real.sqrt_one]
  rw [normalize, if_neg (by rw [hn]; exact one_ne_zero)]
  simp [hn]

theorem normalize_some {v w : V3} (h : normalize v = some w) : v ≠ 0 := by
  rintro rfl
  rw [normalize, if_pos ((norm_zero_iff 0).2 rfl)] at h
  cases h

theorem longer_ne (a b : V3) (h : a ≠ 0 ∨ b ≠ 0) : longer a b ≠ 0 := by
  unfold longer
  split
  · rename_i hab
    intro h0
    rw [(norm_zero_iff a).2 h0] at hab
    exact absurd hab (not_lt.2 (by rw [norm]; exact Real.sqrt_nonneg _))
  · rename_i hab
    rcases h with h | h
    · intro h0
      rw [(norm_zero_iff b).2 h0] at hab
      have : norm a = 0 := le_antisymm (not_lt.1 hab) (by rw [norm]; exact Real.sqrt_nonneg _)
      exact h ((norm_zero_iff a).1 this)
    · exact h

theorem longer_or (a b : V3) : longer a b = a ∨ longer a b = b := by unfold longer; split <;> simp

/-! ### The cubic equation -/

theorem J2_eq (D : M3) : invJ2 D = (1 / 2) * ∑ i, ∑ j, D i j * D i j := by rw [invJ2, inner_eq]

/-- Characteristic polynomial of a symmetric matrix without trace. -/
theorem charpoly_dev (D : M3) (hs : Dᵀ = D) (ht : D.trace = 0) (x : ℝ) : (D - x • (1 : M3)).det = -x ^ 3 + invJ2 D * x + invJ3 D := by
  have h01 : D 1 0 = D 0 1 := congrFun (congrFun hs 0) 1
  have h02 : D 2 0 = D 0 2 := congrFun (congrFun hs 0) 2
  have h12 : D 2 1 = D 1 2 := congrFun (congrFun hs 1) 2
  have ht' : D 2 2 = -D 0 0 - D 1 1 := by rw [Matrix.trace_fin_three] at ht; linarith
  rw [J2_eq, invJ3, det3_eq, Matrix.det_fin_three, Matrix.det_fin_three]
  simp only [Matrix.sub_apply, Matrix.smul_apply, Matrix.one_apply, smul_eq_mul, Fin.sum_univ_three, h01, h02, h12, ht']
  simp
  ring

/-- Sum of the principal minors of `D - x`. -/
theorem minors_dev (D : M3) (hs : Dᵀ = D) (ht : D.trace = 0) (x : ℝ) :
    let r := D - x • (1 : M3)
    (r 0 0 * r 1 1 - r 0 1 * r 1 0) + (r 0 0 * r 2 2 - r 0 2 * r 2 0) + (r 1 1 * r 2 2 - r 1 2 * r 2 1) = 3 * x ^ 2 - invJ2 D := by
  have h01 : D 1 0 = D 0 1 := congrFun (congrFun hs 0) 1
  have h02 : D 2 0 = D 0 2 := congrFun (congrFun hs 0) 2
  have h12 : D 2 1 = D 1 2 := congrFun (congrFun hs 1) 2
  have ht' : D 2 2 = -D 0 0 - D 1 1 := by rw [Matrix.trace_fin_three] at ht; linarith
  rw [J2_eq]
  simp only [Matrix.sub_apply, Matrix.smul_apply, Matrix.one_apply, smul_eq_mul, Fin.sum_univ_three, h01, h02, h12, ht']
  simp
  ring

/-- A symmetric matrix has real eigenvalues, hence the discriminant is not negative. -/
theorem discriminant (D : M3) (hs : Dᵀ = D) (ht : D.trace = 0) : 27 * invJ3 D ^ 2 ≤ 4 * invJ2 D ^ 3 := by
  have hH : D.IsHermitian := by rw [Matrix.IsHermitian, Matrix.conjTranspose_eq_transpose_of_trivial, hs]
  have key : ∀ x : ℝ, x ^ 3 - invJ2 D * x - invJ3 D = (x - hH.eigenvalues 0) * (x - hH.eigenvalues 1) * (x - hH.eigenvalues 2) := fun x => by
    have h1 := congrArg (Polynomial.eval x) hH.charpoly_eq
    rw [Matrix.eval_charpoly, Polynomial.eval_prod, Fin.prod_univ_three] at h1
    have h2 : (Matrix.scalar (Fin 3) x - D).det = -(D - x • (1 : M3)).det := by
      have : Matrix.scalar (Fin 3) x - D = (-1 : ℝ) • (D - x • (1 : M3)) := by
        ext i j; by_cases h : i = j <;> simp [h]
      rw [this, Matrix.det_smul, Fintype.card_fin]; norm_num
    rw [h2, charpoly_dev D hs ht] at h1
    simp only [Polynomial.eval_sub, Polynomial.eval_X, Polynomial.eval_C] at h1
    have h3 : -(-x ^ 3 + invJ2 D * x + invJ3 D) = (x - hH.eigenvalues 0) * (x - hH.eigenvalues 1) * (x - hH.eigenvalues 2) := h1
    linarith [h3]
  generalize hH.eigenvalues 0 = a at key
  generalize hH.eigenvalues 1 = b at key
  generalize hH.eigenvalues 2 = c at key
  have k0 := key 0
  have k1 := key 1
  have k2 := key (-1)
  have hJ3 : invJ3 D = a * b * c := by linarith
  have hsum : a + b + c = 0 := by linarith
  have hJ2 : invJ2 D = -(a * b + b * c + c * a) := by linarith
  have hc : c = -a - b := by linarith
  rw [hJ3, hJ2, hc]
  nlinarith [sq_nonneg ((a - b) * (b - (-a - b)) * ((-a - b) - a))]

theorem rpow_three_half {x : ℝ} (hx : 0 < x) : x ^ (1.5 : ℝ) * x ^ (1.5 : ℝ) = x ^ 3 := by
  rw [← Real.rpow_add hx]
  norm_num

/-- The first eigenvalue satisfies the cubic equation, and is separated from the other two. -/
theorem firstEigenvalue_spec (D : M3) (hs : Dᵀ = D) (ht : D.trace = 0) (hJ : 0 < invJ2 D) :
    firstEigenvalue D ^ 3 = invJ2 D * firstEigenvalue D + invJ3 D ∧ invJ2 D ≤ firstEigenvalue D ^ 2 ∧
      (0 < firstEigenvalue D ↔ 0 < invJ3 D) := by
  set J2 := invJ2 D with hJ2
  set J3 := invJ3 D with hJ3
  set tmp := (1 / 2 * J3) * (3 / J2) ^ (1.5 : ℝ) with htmp
  have hq : 0 < 3 / J2 := by positivity
  have hpw : 0 < (3 / J2) ^ (1.5 : ℝ) := Real.rpow_pos_of_pos hq _
  have hdisc := discriminant D hs ht
  rw [← hJ2, ← hJ3] at hdisc
  have htmp2 : tmp ^ 2 ≤ 1 := by
    have e : tmp ^ 2 = 27 * J3 ^ 2 / (4 * J2 ^ 3) := by
      have h := rpow_three_half hq
      rw [htmp]
      have : ((1 / 2 * J3) * (3 / J2) ^ (1.5 : ℝ)) ^ 2 = (1 / 4) * J3 ^ 2 * ((3 / J2) ^ (1.5 : ℝ) * (3 / J2) ^ (1.5 : ℝ)) := by ring
      rw [this, h]
      field_simp
      ring
    rw [e, div_le_one (by positivity)]
    exact hdisc
  have h1 : -1 ≤ tmp := (abs_le.1 (by rw [← sq_le_one_iff_abs_le_one]; exact htmp2)).1
  have h2 : tmp ≤ 1 := (abs_le.1 (by rw [← sq_le_one_iff_abs_le_one]; exact htmp2)).2
  have hclamp : min (max tmp (-1)) 1 = tmp := by rw [max_eq_left h1, min_eq_left h2]
  set alpha := Real.arccos tmp / 3 with halpha
  have hcos3 : Real.cos (3 * alpha) = tmp := by rw [halpha, mul_div_cancel₀ _ (by norm_num), Real.cos_arccos h1 h2]
  have ha0 : 0 ≤ alpha := div_nonneg (Real.arccos_nonneg _) (by norm_num)
  have ha1 : alpha ≤ Real.pi / 3 := by rw [halpha]; have := Real.arccos_le_pi tmp; gcongr
  have hpi := Real.pi_pos
  have hsq : Real.sqrt (J2 / 3) * Real.sqrt (J2 / 3) = J2 / 3 := Real.mul_self_sqrt (by positivity)
  have hsp : 0 < Real.sqrt (J2 / 3) := Real.sqrt_pos.2 (by positivity)
  -- `tmp * 2 * sqrt(J2/3)^3 = J3`
  have hcube : 2 * Real.sqrt (J2 / 3) ^ 3 * tmp = J3 := by
    have e1 : (Real.sqrt (J2 / 3) ^ 3) * (3 / J2) ^ (1.5 : ℝ) = 1 := by
      have hp : 0 < Real.sqrt (J2 / 3) ^ 3 * (3 / J2) ^ (1.5 : ℝ) := by positivity
      have hs2 : (Real.sqrt (J2 / 3) ^ 3 * (3 / J2) ^ (1.5 : ℝ)) ^ 2 = 1 := by
        have : (Real.sqrt (J2 / 3) ^ 3 * (3 / J2) ^ (1.5 : ℝ)) ^ 2 =
          (Real.sqrt (J2 / 3) * Real.sqrt (J2 / 3)) ^ 3 * ((3 / J2) ^ (1.5 : ℝ) * (3 / J2) ^ (1.5 : ℝ)) := by ring
        rw [this, hsq, rpow_three_half hq]
        field_simp
      nlinarith
    rw [htmp]
    linear_combination J3 * e1
  -- one angle for both branches
  have main : ∀ β : ℝ, Real.cos (3 * β) = tmp → 3 / 4 ≤ Real.cos β ^ 2 →
      (2 * Real.sqrt (J2 / 3) * Real.cos β) ^ 3 = J2 * (2 * Real.sqrt (J2 / 3) * Real.cos β) + J3 ∧ J2 ≤ (2 * Real.sqrt (J2 / 3) * Real.cos β) ^ 2 := by
    intro β hβ hc
    constructor
    · have h3 := Real.cos_three_mul β
      rw [hβ] at h3
      have e : (2 * Real.sqrt (J2 / 3) * Real.cos β) ^ 3 = 2 * Real.sqrt (J2 / 3) ^ 3 * (4 * Real.cos β ^ 3) := by ring
      have e2 : 4 * Real.cos β ^ 3 = tmp + 3 * Real.cos β := by linarith
      rw [e, e2, mul_add, hcube]
      have e3 : Real.sqrt (J2 / 3) ^ 3 = J2 / 3 * Real.sqrt (J2 / 3) := by linear_combination Real.sqrt (J2 / 3) * hsq
      rw [e3]
      ring
    · have e : (2 * Real.sqrt (J2 / 3) * Real.cos β) ^ 2 = 4 * (Real.sqrt (J2 / 3) * Real.sqrt (J2 / 3)) * Real.cos β ^ 2 := by ring
      rw [e, hsq]
      nlinarith
  have hs34 : (Real.sqrt 3 / 2) ^ 2 = 3 / 4 := by rw [div_pow, Real.sq_sqrt (by norm_num)]; norm_num
  have hfe : firstEigenvalue D = if 6 * alpha < Real.pi then 2 * Real.sqrt (J2 / 3) * Real.cos alpha
      else 2 * Real.sqrt (J2 / 3) * Real.cos (alpha + 2 * Real.pi / 3) := by
    have : firstEigenvalue D = (if 6 * (Real.arccos (min (max tmp (-1)) 1) / 3) < Real.pi then
        2 * Real.sqrt (J2 / 3) * Real.cos (Real.arccos (min (max tmp (-1)) 1) / 3)
      else 2 * Real.sqrt (J2 / 3) * Real.cos (Real.arccos (min (max tmp (-1)) 1) / 3 + 2 * Real.pi / 3)) := rfl
    rw [this, hclamp]
  have hsign : 6 * alpha < Real.pi ↔ 0 < J3 := by
    have hb : 6 * alpha < Real.pi ↔ Real.arccos tmp < Real.pi / 2 := by rw [halpha]; constructor <;> intro h <;> linarith
    rw [hb, Real.arccos_lt_pi_div_two]
    constructor
    · intro h; rw [← hcube]; positivity
    · intro h
      by_contra h0
      have : J3 ≤ 0 := by rw [← hcube]; exact mul_nonpos_of_nonneg_of_nonpos (by positivity) (not_lt.1 h0)
      linarith
  rw [hfe]
  split
  · rename_i hlt
    have hc : Real.sqrt 3 / 2 < Real.cos alpha := by
      rw [← Real.cos_pi_div_six]
      exact Real.cos_lt_cos_of_nonneg_of_le_pi ha0 (by linarith) (by linarith)
    have hpos : 0 < Real.cos alpha := lt_trans (by positivity) hc
    obtain ⟨g1, g2⟩ := main alpha hcos3 (by rw [← hs34]; gcongr)
    exact ⟨g1, g2, ⟨fun _ => hsign.1 hlt, fun _ => by positivity⟩⟩
  · rename_i hge
    have hc : Real.cos (alpha + 2 * Real.pi / 3) ≤ -(Real.sqrt 3 / 2) := by
      rw [← Real.cos_pi_div_six, ← Real.cos_pi_sub]
      exact Real.cos_le_cos_of_nonneg_of_le_pi (by linarith) (by linarith) (by linarith)
    have h3 : Real.cos (3 * (alpha + 2 * Real.pi / 3)) = tmp := by
      rw [← hcos3, show 3 * (alpha + 2 * Real.pi / 3) = 3 * alpha + 2 * Real.pi by ring, Real.cos_add_two_pi]
    obtain ⟨g1, g2⟩ := main _ h3 (by
      rw [← hs34, ← neg_sq (Real.cos _)]
      have : Real.sqrt 3 / 2 ≤ -Real.cos (alpha + 2 * Real.pi / 3) := by linarith
      gcongr)
    refine ⟨g1, g2, ⟨fun h => ?_, fun h => absurd (hsign.2 h) hge⟩⟩
    exfalso
    have : Real.cos (alpha + 2 * Real.pi / 3) < 0 := lt_of_le_of_lt hc (by simp)
    have h5 : 2 * Real.sqrt (J2 / 3) * Real.cos (alpha + 2 * Real.pi / 3) < 0 := mul_neg_of_pos_of_neg (by positivity) this
    linarith

/-! ### Orthonormal frames -/

/-- An orthonormal frame `(a, b, a × b)`. -/
structure Frame (a b : V3) : Prop where
  aa : a ⬝ᵥ a = 1
  bb : b ⬝ᵥ b = 1
  ab : a ⬝ᵥ b = 0

namespace Frame
variable {a b : V3} (h : Frame a b)
include h

omit h in
theorem ac (_ : Frame a b) : a ⬝ᵥ cross a b = 0 := by rw [cross_eq]; exact dot_self_cross a b
omit h in
theorem bc (_ : Frame a b) : b ⬝ᵥ cross a b = 0 := by rw [cross_eq]; exact dot_cross_self a b
theorem ba : b ⬝ᵥ a = 0 := by rw [dotProduct_comm]; exact h.ab
theorem ca : cross a b ⬝ᵥ a = 0 := by rw [dotProduct_comm]; exact h.ac
theorem cb : cross a b ⬝ᵥ b = 0 := by rw [dotProduct_comm]; exact h.bc
theorem cc : cross a b ⬝ᵥ cross a b = 1 := by
  rw [cross_eq, cross_dot_cross, h.aa, h.bb, h.ab, h.ba]; norm_num

/-- The matrix with rows `a`, `b`, `a × b`. -/
theorem rows_mul : (Matrix.of ![a, b, cross a b]) * (Matrix.of ![a, b, cross a b])ᵀ = 1 := by
  ext i j
  rw [Matrix.mul_apply]
  have : ∀ u v : V3, ∑ k, u k * v k = u ⬝ᵥ v := fun _ _ => rfl
  fin_cases i <;> fin_cases j <;>
    simp [Matrix.transpose_apply, this, h.aa, h.bb, h.ab, h.ba, h.ac, h.bc, h.ca, h.cb, h.cc]

theorem expand (x : V3) : x = (a ⬝ᵥ x) • a + (b ⬝ᵥ x) • b + (cross a b ⬝ᵥ x) • cross a b := by
  have h1 : (Matrix.of ![a, b, cross a b])ᵀ * (Matrix.of ![a, b, cross a b]) = 1 := mul_eq_one_comm.1 h.rows_mul
  have h2 : (Matrix.of ![a, b, cross a b])ᵀ *ᵥ ((Matrix.of ![a, b, cross a b]) *ᵥ x) = x := by
    rw [Matrix.mulVec_mulVec, h1, Matrix.one_mulVec]
  conv_lhs => rw [← h2]
  funext i
  simp [Matrix.mulVec, dotProduct, Fin.sum_univ_three, Matrix.transpose_apply]
  ring

/-- Cross product of a vector of the plane of `a`, `b` with the normal. -/
theorem cross_normal (x y : ℝ) : cross (x • a + y • b) (cross a b) = y • a - x • b := by
  rw [cross_eq, cross_eq, cross_cross_eq_smul_sub_smul']
  simp only [add_dotProduct, dotProduct_add, smul_dotProduct, dotProduct_smul, h.aa, h.bb, h.ab, smul_eq_mul]
  funext i; simp

theorem normal_cross (x y : ℝ) : cross (cross a b) (y • a - x • b) = x • a + y • b := by
  rw [cross_eq, cross_eq, cross_cross_eq_smul_sub_smul]
  simp only [dotProduct_sub, dotProduct_smul, h.aa, h.bb, h.ab, h.ba, smul_eq_mul]
  funext i; simp; ring

end Frame

theorem columns_ortho {u v w : V3} (uu : u ⬝ᵥ u = 1) (vv : v ⬝ᵥ v = 1) (ww : w ⬝ᵥ w = 1) (uv : u ⬝ᵥ v = 0) (uw : u ⬝ᵥ w = 0) (vw : v ⬝ᵥ w = 0) :
    (columns u v w : M3)ᵀ * (columns u v w : M3) = 1 := by
  have vu : v ⬝ᵥ u = 0 := by rw [dotProduct_comm]; exact uv
  have wu : w ⬝ᵥ u = 0 := by rw [dotProduct_comm]; exact uw
  have wv : w ⬝ᵥ v = 0 := by rw [dotProduct_comm]; exact vw
  ext i j
  rw [Matrix.mul_apply]
  fin_cases i <;> fin_cases j <;> simpa [columns, Matrix.transpose_apply, dotProduct] using by assumption

/-! ### The plane orthogonal to the first eigenvector -/

theorem largest_spec (r : M3) : ∃ i, largest r = some i ∧ ∀ j, norm (r j) ≤ norm (r i) := by
  have hn : ∀ i, 0 ≤ norm (r i) := fun i => by rw [norm]; exact Real.sqrt_nonneg _
  have h0 : (-1 : ℝ) < norm (r 0) := lt_of_lt_of_le (by norm_num) (hn 0)
  have e : largest r = (if (if norm (r 0) < norm (r 1) then norm (r 1) else norm (r 0)) < norm (r 2) then some 2
      else if norm (r 0) < norm (r 1) then some 1 else some 0) := by
    simp only [largest, Fin.foldl_succ, Fin.foldl_zero, h0, if_true]
    show (if (if norm (r 0) < norm (r 1) then ((some 1 : Option (Fin 3)), norm (r 1)) else (some 0, norm (r 0))).2 < norm (r 2) then
      ((some 2 : Option (Fin 3)), norm (r 2)) else (if norm (r 0) < norm (r 1) then ((some 1 : Option (Fin 3)), norm (r 1)) else (some 0, norm (r 0)))).1 = _
    by_cases h1 : norm (r 0) < norm (r 1) <;> simp only [h1, if_true, if_false] <;> split <;> rfl
  rw [e]
  by_cases h1 : norm (r 0) < norm (r 1)
  · by_cases h2 : norm (r 1) < norm (r 2)
    · refine ⟨2, by simp [h1, h2], fun j => ?_⟩
      fin_cases j
      · exact (h1.trans h2).le
      · exact h2.le
      · exact le_rfl
    · refine ⟨1, by simp [h1, h2], fun j => ?_⟩
      fin_cases j
      · exact h1.le
      · exact le_rfl
      · exact not_lt.1 h2
  · by_cases h2 : norm (r 0) < norm (r 2)
    · refine ⟨2, by simp [h1, h2], fun j => ?_⟩
      fin_cases j
      · exact h2.le
      · exact (not_lt.1 h1).trans h2.le
      · exact le_rfl
    · refine ⟨0, by simp [h1, h2], fun j => ?_⟩
      fin_cases j
      · exact le_rfl
      · exact not_lt.1 h1
      · exact not_lt.1 h2

theorem reject_eq (v s : V3) : reject v s = v - (v ⬝ᵥ s) • s := by
  funext i; simp [reject, dotVV_eq']

/-- The three products of a matrix with determinant zero with the cross product of two of its rows vanish. -/
theorem row_cross (r : M3) (hd : r.det = 0) (i j k : Fin 3) : r k ⬝ᵥ cross (r i) (r j) = 0 := by
  rw [Matrix.det_fin_three] at hd
  rw [cross_eq, cross_apply, dotProduct, Fin.sum_univ_three]
  fin_cases i <;> fin_cases j <;> fin_cases k <;> simp <;> first | ring1 | linear_combination hd | linear_combination -hd

/-- Lines 844-852: an orthonormal frame whose normal is in the kernel of `r`. -/
theorem plane_spec (r : M3) (hd : r.det = 0)
    (hm : (r 0 0 * r 1 1 - r 0 1 * r 1 0) + (r 0 0 * r 2 2 - r 0 2 * r 2 0) + (r 1 1 * r 2 2 - r 1 2 * r 2 1) ≠ 0) :
    ∃ s0 s1, plane r = some (s0, s1) ∧ Frame s0 s1 ∧ r *ᵥ cross s0 s1 = 0 := by
  obtain ⟨i, hi, hmax⟩ := largest_spec r
  have hri : r i ≠ 0 := by
    intro h0
    have : ∀ j, r j = 0 := fun j => (norm_zero_iff _).1 (le_antisymm (by rw [← (norm_zero_iff _).2 h0]; exact hmax j) (by rw [norm]; exact Real.sqrt_nonneg _))
    apply hm
    have h' : ∀ j k, r j k = 0 := fun j k => congrFun (this j) k
    simp [h']
  obtain ⟨c, hc, hn0, hu0, -⟩ := normalize_eq (r i) hri
  set s0 := c • r i with hs0
  have hrs : r i = c⁻¹ • s0 := by rw [hs0, smul_smul, inv_mul_cancel₀ hc.ne', one_smul]
  have hne : reject (r (i + 1)) s0 ≠ 0 ∨ reject (r (i + 2)) s0 ≠ 0 := by
    by_contra hcon
    push Not at hcon
    obtain ⟨h1, h2⟩ := hcon
    rw [reject_eq, sub_eq_zero] at h1 h2
    have hall : ∀ j, ∃ t : ℝ, r j = t • s0 := by
      intro j
      have : j = i ∨ j = i + 1 ∨ j = i + 2 := (by decide : ∀ i j : Fin 3, j = i ∨ j = i + 1 ∨ j = i + 2) i j
      rcases this with rfl | rfl | rfl
      · exact ⟨_, hrs⟩
      · exact ⟨_, h1⟩
      · exact ⟨_, h2⟩
    choose t ht using hall
    apply hm
    have h' : ∀ j k, r j k = t j * s0 k := fun j k => by rw [ht j]; rfl
    simp only [h']
    ring
  obtain ⟨c', hc', hn1, hu1, -⟩ := normalize_eq _ (longer_ne _ _ hne)
  obtain ⟨j, hj⟩ : ∃ j, longer (reject (r (i + 1)) s0) (reject (r (i + 2)) s0) = reject (r j) s0 := by
    rcases longer_or (reject (r (i + 1)) s0) (reject (r (i + 2)) s0) with h | h
    · exact ⟨_, h⟩
    · exact ⟨_, h⟩
  set s1 := c' • longer (reject (r (i + 1)) s0) (reject (r (i + 2)) s0) with hs1
  refine ⟨s0, s1, ?_, ⟨hu0, hu1, ?_⟩, ?_⟩
  · simp only [plane, hi, hn0, hn1, bind, Option.bind, pure]
  · rw [hs1, hj, reject_eq, dotProduct_smul, dotProduct_sub, dotProduct_smul, hu0, dotProduct_comm (r j)]; simp
  · have e : cross s0 s1 = (c' * c) • cross (r i) (r j) := by
      rw [hs1, hj, reject_eq, cross_eq, cross_eq]
      rw [(crossProduct s0).map_smul, (crossProduct s0).map_sub, (crossProduct s0).map_smul, cross_self, smul_zero, sub_zero, hs0, crossProduct.map_smul, LinearMap.smul_apply, smul_smul]
    rw [e, Matrix.mulVec_smul]
    funext k
    simp only [Pi.smul_apply, Matrix.mulVec, row_cross r hd i j k, smul_zero, Pi.zero_apply]

/-! ### The two remaining eigenvectors -/

theorem dotMV_eq' (D : M3) (v : V3) : dotMV D v = D *ᵥ v := dotMV_eq D v

theorem symm_dot (D : M3) (hs : Dᵀ = D) (u v : V3) : u ⬝ᵥ (D *ᵥ v) = v ⬝ᵥ (D *ᵥ u) := by
  rw [Matrix.dotProduct_mulVec, ← Matrix.mulVec_transpose, hs, dotProduct_comm]

/-- Everything the remaining steps use: a frame whose normal is an eigenvector, and the block of `D` in its plane. -/
structure Reduced (D : M3) (e : ℝ) (s0 s1 : V3) (a b c : ℝ) : Prop where
  frame : Frame s0 s1
  normal : D *ᵥ cross s0 s1 = e • cross s0 s1
  d0 : D *ᵥ s0 = a • s0 + b • s1
  d1 : D *ᵥ s1 = b • s0 + c • s1

theorem reduced_of (D : M3) (hs : Dᵀ = D) {e : ℝ} {s0 s1 : V3} (hf : Frame s0 s1) (hn : (rowsOf D e : M3) *ᵥ cross s0 s1 = 0) :
    ∃ a b c, block D s0 s1 = ⟨a, b, b, c⟩ ∧ Reduced D e s0 s1 a b c := by
  have hr : (rowsOf D e : M3) = D - e • (1 : M3) := by
    ext i j
    have : D j i = D i j := congrFun (congrFun hs i) j
    simp [rowsOf, this, Matrix.one_apply]
  have hnormal : D *ᵥ cross s0 s1 = e • cross s0 s1 := by
    rw [hr, Matrix.sub_mulVec, Matrix.smul_mulVec, Matrix.one_mulVec, sub_eq_zero] at hn
    exact hn
  refine ⟨s0 ⬝ᵥ (D *ᵥ s0), s0 ⬝ᵥ (D *ᵥ s1), s1 ⬝ᵥ (D *ᵥ s1), ?_, hf, hnormal, ?_, ?_⟩
  · simp only [block, dotVV_eq', dotMV_eq', Block.mk.injEq, true_and, and_true]
    exact symm_dot D hs _ _
  · have h := hf.expand (D *ᵥ s0)
    rw [symm_dot D hs (cross s0 s1) s0, hnormal, dotProduct_smul, hf.ac, smul_zero, zero_smul, add_zero, symm_dot D hs s1 s0] at h
    exact h
  · have h := hf.expand (D *ᵥ s1)
    rw [symm_dot D hs (cross s0 s1) s1, hnormal, dotProduct_smul, hf.bc, smul_zero, zero_smul, add_zero] at h
    exact h

/-- The characteristic polynomial in terms of the block. -/
theorem Reduced.char {D : M3} {e : ℝ} {s0 s1 : V3} {a b c : ℝ} (h : Reduced D e s0 s1 a b c) (x : ℝ) :
    (D - x • (1 : M3)).det = (e - x) * ((a - x) * (c - x) - b * b) := by
  set P : M3 := Matrix.of ![s0, s1, cross s0 s1] with hP
  set B : M3 := !![a, b, 0; b, c, 0; 0, 0, e] with hB
  have hPP : P * Pᵀ = 1 := h.frame.rows_mul
  have hPP' : Pᵀ * P = 1 := mul_eq_one_comm.1 hPP
  have hDP : D * Pᵀ = Pᵀ * B := by
    have h0 := h.d0
    have h1 := h.d1
    have h2 := h.normal
    ext i j
    have h0 := congrFun h0 i
    have h1 := congrFun h1 i
    have h2 := congrFun h2 i
    simp only [Matrix.mulVec, dotProduct, Fin.sum_univ_three, Pi.add_apply, Pi.smul_apply, smul_eq_mul] at h0 h1 h2
    rw [Matrix.mul_apply, Matrix.mul_apply, Fin.sum_univ_three, Fin.sum_univ_three]
    fin_cases j <;> simp [hP, hB, Matrix.transpose_apply]
    · linarith
    · linarith
    · linarith
  have hD : D - x • (1 : M3) = Pᵀ * (B - x • (1 : M3)) * P := by
    rw [Matrix.mul_sub, Matrix.sub_mul, ← hDP, Matrix.mul_assoc, hPP', Matrix.mul_one]
    simp [hPP']
  have hdet : P.det * P.det = 1 := by
    have := congrArg Matrix.det hPP
    rwa [Matrix.det_mul, Matrix.det_transpose, Matrix.det_one] at this
  rw [hD, Matrix.det_mul, Matrix.det_mul, Matrix.det_transpose]
  have : (B - x • (1 : M3)).det = (e - x) * ((a - x) * (c - x) - b * b) := by
    rw [Matrix.det_fin_three]
    simp [hB]
    ring
  rw [this]
  linear_combination ((e - x) * ((a - x) * (c - x) - b * b)) * hdet

/-- Trace, second and third invariants in terms of the block. -/
theorem Reduced.invariants {D : M3} (hs : Dᵀ = D) (ht : D.trace = 0) {e : ℝ} {s0 s1 : V3} {a b c : ℝ} (h : Reduced D e s0 s1 a b c) :
    e + a + c = 0 ∧ 2 * invJ2 D = e ^ 2 + a ^ 2 + 2 * b ^ 2 + c ^ 2 ∧ invJ3 D = e * (a * c - b ^ 2) := by
  have k : ∀ x, -x ^ 3 + invJ2 D * x + invJ3 D = (e - x) * ((a - x) * (c - x) - b * b) := fun x => by rw [← charpoly_dev D hs ht x, h.char x]
  have k0 := k 0
  have k1 := k 1
  have k2 := k (-1)
  have hsum : e + a + c = 0 := by linarith
  refine ⟨hsum, ?_, by linarith⟩
  have hc : c = -e - a := by linarith
  rw [hc] at k0 k1 k2 ⊢
  linarith

/-- What holds for the result of lines 814-897. -/
structure DevSpec (D : M3) (eta : V3) (Q : M3) : Prop where
  ortho : Qᵀ * Q = 1
  sum : eta 0 + eta 1 + eta 2 = 0
  cases : (∀ k, D *ᵥ (Qᵀ k) = eta k • Qᵀ k)
    ∨ (eta 1 ≠ eta 2 ∧ |eta 1 - eta 2| ≤ 2e-15 ∧ 27 * invJ3 D ^ 2 < 4 * invJ2 D ^ 3 ∧ (∀ x, (D - x • (1 : M3)).det = (eta 0 - x) * (eta 1 - x) * (eta 2 - x))
        ∧ ∀ k, (D *ᵥ (Qᵀ k) - eta k • Qᵀ k) ⬝ᵥ (D *ᵥ (Qᵀ k) - eta k • Qᵀ k) ≤ 2e-15 ^ 2)
    ∨ (eta 1 = eta 2 ∧ eta 0 ^ 2 + eta 1 ^ 2 + eta 2 ^ 2 < 2 * invJ2 D ∧ 27 * invJ3 D ^ 2 < 4 * invJ2 D ^ 3 ∧ ∀ k, eta k = Qᵀ k ⬝ᵥ (D *ᵥ Qᵀ k))

theorem sgn_mul_self {x : ℝ} (h : x ≠ 0) : sgn x * sgn x = 1 := by
  unfold sgn
  rcases lt_or_gt_of_ne h with h | h
  · simp [h, not_lt.2 h.le]
  · simp [h, not_lt.2 h.le]

theorem sgn_zero : sgn 0 = 0 := by simp [sgn]

theorem sgn_mul_abs (x : ℝ) : 0 ≤ sgn x * x := by
  unfold sgn
  rcases lt_trichotomy x 0 with h | h | h
  · simp [h, not_lt.2 h.le, h.le]
  · simp [h]
  · simp [h, not_lt.2 h.le, h.le]

/-- Squared length of a vector of the plane. -/
theorem Frame.sq {s0 s1 : V3} (h : Frame s0 s1) (x y : ℝ) : (x • s0 + y • s1) ⬝ᵥ (x • s0 + y • s1) = x ^ 2 + y ^ 2 := by
  simp only [add_dotProduct, dotProduct_add, smul_dotProduct, dotProduct_smul, h.aa, h.bb, h.ab, h.ba, smul_eq_mul]
  ring

theorem forall3 {p : Fin 3 → Prop} (h0 : p 0) (h1 : p 1) (h2 : p 2) : ∀ k, p k := fun k => by
  fin_cases k
  · exact h0
  · exact h1
  · exact h2

set_option maxHeartbeats 1000000 in
theorem deviator_spec (D : M3) (hs : Dᵀ = D) (ht : D.trace = 0) : ∃ eta Q, deviator D = some (eta, Q) ∧ DevSpec D eta Q := by
  by_cases hJ : invJ2 D > 0
  swap
  · refine ⟨![0, 0, 0], identity 3, by rw [deviator, if_neg hJ], ?_, by simp, Or.inl ?_⟩
    · rw [identity_eq]; simp
    · have h0 : D = 0 := by
        rw [J2_eq] at hJ
        have hle : ∑ i, ∑ j, D i j * D i j ≤ 0 := by linarith [not_lt.1 hJ]
        have hz : ∑ i, ∑ j, D i j * D i j = 0 := le_antisymm hle (Finset.sum_nonneg fun _ _ => Finset.sum_nonneg fun _ _ => mul_self_nonneg _)
        ext i j
        have h1 := (Finset.sum_eq_zero_iff_of_nonneg fun i _ => Finset.sum_nonneg fun j _ => mul_self_nonneg (D i j)).1 hz i (Finset.mem_univ _)
        have h2 := (Finset.sum_eq_zero_iff_of_nonneg fun j _ => mul_self_nonneg (D i j)).1 h1 j (Finset.mem_univ _)
        simpa using h2
      intro k
      have : (![0, 0, 0] : V3) k = 0 := by fin_cases k <;> rfl
      rw [h0, Matrix.zero_mulVec, this, zero_smul]
  obtain ⟨hcub, hsep, -⟩ := firstEigenvalue_spec D hs ht hJ
  set e := firstEigenvalue D with he
  have hr : (rowsOf D e : M3) = D - e • (1 : M3) := by
    ext i j
    have : D j i = D i j := congrFun (congrFun hs i) j
    simp [rowsOf, this, Matrix.one_apply]
  obtain ⟨s0, s1, hpl, hf, hker⟩ := plane_spec (rowsOf D e) (by rw [hr, charpoly_dev D hs ht]; linarith)
    (by rw [hr]; have := minors_dev D hs ht e; simp only at this; rw [this]; nlinarith)
  obtain ⟨a, b, c, hblk, hred⟩ := reduced_of D hs hf hker
  obtain ⟨hsum, hJ2, hJ3⟩ := hred.invariants hs ht
  set delta := (block D s0 s1).delta with hdelta
  have hdel : delta = 1 / 2 * sgn (a - c) * Real.sqrt ((a - c) * (a - c) + 4 * b * b) := by rw [hdelta, hblk]; rfl
  set m := 1 / 2 * (a + c) with hm
  set eta : V3 := ![e, m - delta, m + delta] with heta
  have hrad : 0 ≤ (a - c) * (a - c) + 4 * b * b := by nlinarith [mul_self_nonneg (a - c), mul_self_nonneg b]
  have hdev : deviator D = if |delta| ≤ 1e-15 then some (eta, columns (cross s0 s1) s0 s1) else
      ((normalize (longer (fun i => dotMV D s0 i - (m - delta) * s0 i) (fun i => dotMV D s1 i - (m - delta) * s1 i))).bind fun w =>
        (normalize (cross w (cross s0 s1))).bind fun v1 => (normalize (cross (cross s0 s1) v1)).bind fun v2 =>
          some (eta, columns (cross s0 s1) v1 v2)) := by
    rw [deviator, if_pos hJ]
    simp only [← he, hpl, bind, Option.bind, pure]
    rw [← hdelta, hblk]
  have hesum : eta 0 + eta 1 + eta 2 = 0 := by
    show e + (m - delta) + (m + delta) = 0
    rw [hm]; linarith
  have hcol : ∀ u v w : V3, ∀ k, (columns u v w : M3)ᵀ k = ![u, v, w] k := fun u v w k => by
    funext i; fin_cases k <;> rfl
  have hstrict : (a - c) * (a - c) + 4 * b * b ≠ 0 → 27 * invJ3 D ^ 2 < 4 * invJ2 D ^ 3 := fun hne => by
    have hc : c = -e - a := by linarith
    have hJ2' : invJ2 D = (e ^ 2 + a ^ 2 + 2 * b ^ 2 + c ^ 2) / 2 := by linarith
    have hf : (e - a) * (e - c) - b ^ 2 = 3 * e ^ 2 - invJ2 D := by rw [hJ2', hc]; ring
    have hid : 4 * invJ2 D ^ 3 - 27 * invJ3 D ^ 2 = ((e - a) * (e - c) - b ^ 2) ^ 2 * ((a - c) * (a - c) + 4 * b * b) := by
      rw [hJ2', hJ3, hc]; ring
    have hp : 0 < 3 * e ^ 2 - invJ2 D := by nlinarith
    have hq : 0 < (a - c) * (a - c) + 4 * b * b := lt_of_le_of_ne hrad hne.symm
    have := mul_pos (pow_pos hp 2) hq
    rw [← hf, ← hid] at this
    linarith
  by_cases hac : a = c
  · -- `delta = 0`
    have hd0 : delta = 0 := by rw [hdel, hac, sub_self, sgn_zero]; ring
    have hd' : |delta| ≤ 1e-15 := by rw [hd0]; norm_num
    refine ⟨eta, columns (cross s0 s1) s0 s1, by rw [hdev, if_pos hd'], columns_ortho hf.cc hf.aa hf.bb hf.ca hf.cb hf.ab, hesum, ?_⟩
    by_cases hb : b = 0
    · left
      have hma : m = a := by rw [hm, hac]; ring
      intro k
      rw [hcol]
      fin_cases k
      · exact hred.normal
      · show D *ᵥ s0 = (m - delta) • s0
        rw [hred.d0, hb, hd0, hma]; simp
      · show D *ᵥ s1 = (m + delta) • s1
        rw [hred.d1, hb, hd0, hma, hac]; simp
    · right; right
      refine ⟨by show m - delta = m + delta; rw [hd0]; ring, ?_⟩
      show e ^ 2 + (m - delta) ^ 2 + (m + delta) ^ 2 < 2 * invJ2 D ∧ _
      have : 0 < b ^ 2 := by positivity
      refine ⟨?_, hstrict ?_, ?_⟩
      · rw [hJ2, hd0, hm, hac]
        linarith
      · rw [hac, sub_self]
        intro h; nlinarith
      · have hma : m = a := by rw [hm, hac]; ring
        intro k
        rw [hcol]
        revert k
        refine forall3 ?_ ?_ ?_
        · show e = cross s0 s1 ⬝ᵥ (D *ᵥ cross s0 s1)
          rw [hred.normal, dotProduct_smul, hf.cc, smul_eq_mul, mul_one]
        · show m - delta = s0 ⬝ᵥ (D *ᵥ s0)
          rw [hred.d0, dotProduct_add, dotProduct_smul, dotProduct_smul, hf.aa, hf.ab, hd0, hma]; simp
        · show m + delta = s1 ⬝ᵥ (D *ᵥ s1)
          rw [hred.d1, dotProduct_add, dotProduct_smul, dotProduct_smul, hf.bb, hf.ba, hd0, hma, hac]; simp
  -- `a ≠ c`
  have hac' : a - c ≠ 0 := sub_ne_zero.2 hac
  have hd2 : delta * delta = 1 / 4 * ((a - c) * (a - c) + 4 * b * b) := by
    rw [hdel]
    have h1 := Real.mul_self_sqrt hrad
    have h2 := sgn_mul_self hac'
    linear_combination 1 / 4 * (Real.sqrt ((a - c) * (a - c) + 4 * b * b) * Real.sqrt ((a - c) * (a - c) + 4 * b * b)) * h2 + 1 / 4 * h1
  have hdne : delta ≠ 0 := by
    intro h0
    rw [h0] at hd2
    have : 0 < (a - c) * (a - c) := mul_self_pos.2 hac'
    nlinarith [mul_self_nonneg b]
  have hprod : (m - delta) * (m + delta) = a * c - b * b := by rw [hm]; linear_combination -hd2
  have hchar : ∀ x, (D - x • (1 : M3)).det = (eta 0 - x) * (eta 1 - x) * (eta 2 - x) := fun x => by
    rw [hred.char]
    show _ = (e - x) * (m - delta - x) * (m + delta - x)
    linear_combination -(e - x) * hprod + (e - x) * x * (2 * hm)
  by_cases hsmall : |delta| ≤ 1e-15
  · refine ⟨eta, columns (cross s0 s1) s0 s1, by rw [hdev, if_pos hsmall], columns_ortho hf.cc hf.aa hf.bb hf.ca hf.cb hf.ab, hesum, Or.inr (Or.inl ⟨?_, ?_, hstrict ?_, hchar, ?_⟩)⟩
    · show m - delta ≠ m + delta
      intro h; exact hdne (by linarith)
    · show |m - delta - (m + delta)| ≤ 2e-15
      rw [show m - delta - (m + delta) = -(2 * delta) by ring, abs_neg, abs_mul, abs_two]
      calc 2 * |delta| ≤ 2 * 1e-15 := by gcongr
        _ = 2e-15 := by norm_num
    · have : 0 < (a - c) * (a - c) := mul_self_pos.2 hac'
      nlinarith [mul_self_nonneg b]
    · have hdd : delta ^ 2 ≤ 1e-15 ^ 2 := by rw [← sq_abs delta]; gcongr
      have hn : (2e-15 : ℝ) ^ 2 = 4 * 1e-15 ^ 2 := by norm_num
      intro k
      rw [hcol, hn]
      fin_cases k
      · show (D *ᵥ cross s0 s1 - e • cross s0 s1) ⬝ᵥ (D *ᵥ cross s0 s1 - e • cross s0 s1) ≤ _
        rw [hred.normal, sub_self, zero_dotProduct]; positivity
      · show (D *ᵥ s0 - (m - delta) • s0) ⬝ᵥ (D *ᵥ s0 - (m - delta) • s0) ≤ _
        have : D *ᵥ s0 - (m - delta) • s0 = (a - (m - delta)) • s0 + b • s1 := by rw [hred.d0]; module
        rw [this, hf.sq, hm]
        nlinarith [sq_nonneg (delta - (a - c) / 2), mul_self_nonneg b]
      · show (D *ᵥ s1 - (m + delta) • s1) ⬝ᵥ (D *ᵥ s1 - (m + delta) • s1) ≤ _
        have : D *ᵥ s1 - (m + delta) • s1 = b • s0 + (c - (m + delta)) • s1 := by rw [hred.d1]; module
        rw [this, hf.sq, hm]
        nlinarith [sq_nonneg (delta - (a - c) / 2), mul_self_nonneg b]
  · -- the general case
    have ht1 : (fun i => dotMV D s0 i - (m - delta) * s0 i) = (a - (m - delta)) • s0 + b • s1 := by
      funext i
      have := congrFun hred.d0 i
      rw [dotMV_eq', this]
      simp; ring
    have ht2 : (fun i => dotMV D s1 i - (m - delta) * s1 i) = b • s0 + (c - (m - delta)) • s1 := by
      funext i
      have := congrFun hred.d1 i
      rw [dotMV_eq', this]
      simp; ring
    have hlin : ∀ x y : ℝ, x • s0 + y • s1 = 0 → x = 0 ∧ y = 0 := fun x y h => by
      have := hf.sq x y
      rw [h, zero_dotProduct] at this
      constructor <;> nlinarith [sq_nonneg x, sq_nonneg y]
    have hne : longer (fun i => dotMV D s0 i - (m - delta) * s0 i) (fun i => dotMV D s1 i - (m - delta) * s1 i) ≠ 0 := by
      apply longer_ne
      by_contra hcon
      push Not at hcon
      rw [ht1, ht2] at hcon
      have h1 := (hlin _ _ hcon.1).1
      have h2 := (hlin _ _ hcon.2).2
      exact hac (by linarith)
    obtain ⟨t, htp, hnw, hww, -⟩ := normalize_eq _ hne
    -- the coordinates of `w`
    obtain ⟨x, y, hw, hx, hy⟩ : ∃ x y : ℝ, t • longer (fun i => dotMV D s0 i - (m - delta) * s0 i) (fun i => dotMV D s1 i - (m - delta) * s1 i) = x • s0 + y • s1
        ∧ a * x + b * y = (m + delta) * x ∧ b * x + c * y = (m + delta) * y := by
      rcases longer_or (fun i => dotMV D s0 i - (m - delta) * s0 i) (fun i => dotMV D s1 i - (m - delta) * s1 i) with h | h
      · rw [h, ht1]
        refine ⟨t * (a - (m - delta)), t * b, by rw [smul_add, smul_smul, smul_smul], ?_, ?_⟩
        · linear_combination t * hprod + 2 * t * a * (-hm)
        · rw [hm]; ring
      · rw [h, ht2]
        refine ⟨t * b, t * (c - (m - delta)), by rw [smul_add, smul_smul, smul_smul], ?_, ?_⟩
        · rw [hm]; ring
        · linear_combination t * hprod + 2 * t * c * (-hm)
    rw [hw] at hnw hww
    have hxy : x ^ 2 + y ^ 2 = 1 := by rw [← hf.sq]; exact hww
    have hv1 : (y • s0 - x • s1) ⬝ᵥ (y • s0 - x • s1) = 1 := by
      rw [sub_eq_add_neg, ← neg_smul, hf.sq]; linarith
    refine ⟨eta, columns (cross s0 s1) (y • s0 - x • s1) (x • s0 + y • s1), ?_, columns_ortho hf.cc hv1 hww ?_ ?_ ?_, hesum, Or.inl ?_⟩
    · rw [hdev, if_neg hsmall, hnw]
      simp only [Option.bind, hf.cross_normal, normalize_unit _ hv1, hf.normal_cross, normalize_unit _ hww]
    · rw [dotProduct_sub, dotProduct_smul, dotProduct_smul, hf.ca, hf.cb]; simp
    · rw [dotProduct_add, dotProduct_smul, dotProduct_smul, hf.ca, hf.cb]; simp
    · simp only [sub_dotProduct, dotProduct_add, smul_dotProduct, dotProduct_smul, hf.aa, hf.bb, hf.ab, hf.ba, smul_eq_mul]
      ring
    · have hDw : ∀ x y : ℝ, D *ᵥ (x • s0 + y • s1) = (a * x + b * y) • s0 + (b * x + c * y) • s1 := fun x y => by
        rw [Matrix.mulVec_add, Matrix.mulVec_smul, Matrix.mulVec_smul, hred.d0, hred.d1]
        module
      refine forall3 hred.normal ?_ ?_
      · show D *ᵥ (y • s0 - x • s1) = (m - delta) • (y • s0 - x • s1)
        rw [show y • s0 - x • s1 = y • s0 + (-x) • s1 by module, hDw]
        have h1 : a * y + b * -x = (m - delta) * y := by linear_combination -hy + y * (2 * (-hm))
        have h2 : b * y + c * -x = (m - delta) * -x := by linear_combination hx + x * (2 * hm)
        rw [h1, h2]; module
      · show D *ᵥ (x • s0 + y • s1) = (m + delta) • (x • s0 + y • s1)
        rw [hDw, hx, hy]; module

/-! ### Sorting -/

theorem argsort_eq (v : V3) : argsort v = if v 0 > v 1 then (if v 0 > v 2 then (if v 1 > v 2 then ![2, 1, 0] else ![1, 2, 0]) else ![1, 0, 2])
    else (if v 1 > v 2 then (if v 0 > v 2 then ![2, 0, 1] else ![0, 2, 1]) else ![0, 1, 2]) := by
  unfold argsort
  by_cases h1 : v 0 > v 1
  · simp only [h1, if_true]
    by_cases h2 : v 0 > v 2
    · simp only [h2, if_true]
      by_cases h3 : v 1 > v 2
      · simp only [h3, if_true]
      · simp only [h3, if_false]
    · simp only [h2, if_false]
      rw [if_neg (not_lt.2 h1.le)]
  · simp only [h1, if_false]
    by_cases h3 : v 1 > v 2
    · simp only [h3, if_true]
      by_cases h2 : v 0 > v 2
      · simp only [h2, if_true]
      · simp only [h2, if_false]
    · simp only [h3, h1, if_false]

/-- `argsort` returns a permutation that sorts. -/
theorem argsort_spec (v : V3) : Function.Bijective (argsort v) ∧ v (argsort v 0) ≤ v (argsort v 1) ∧ v (argsort v 1) ≤ v (argsort v 2) := by
  rw [argsort_eq]
  split
  · split
    · split
      · exact ⟨by decide, by simpa using by linarith, by simpa using by linarith⟩
      · exact ⟨by decide, by simpa using by linarith, by simpa using by linarith⟩
    · exact ⟨by decide, by simpa using by linarith, by simpa using by linarith⟩
  · split
    · split
      · exact ⟨by decide, by simpa using by linarith, by simpa using by linarith⟩
      · exact ⟨by decide, by simpa using by linarith, by simpa using by linarith⟩
    · exact ⟨by decide, by simpa using by linarith, by simpa using by linarith⟩

end Serac.Eigen
