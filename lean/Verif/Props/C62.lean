import Verif.Model.LiquidCrystal
import Verif.Props.C33
import Mathlib.Analysis.Matrix.Order
/-!
# C62: liquid crystal elastomers

Spec.  Both models return a Cauchy stress for a displacement gradient `H` (deformation gradient `F = 1 + H`).  Expected of any elastic solid: the
stress is symmetric; a rigid rotation of an unstressed body leaves it unstressed; the undeformed body, not the first deformation handed to the
model, is the reference; a stored energy, if reported, has the stress as its gradient.  Frame indifference and symmetry are those of `C31`.

Violations found, all in Brighenti's model: the first call has no shear response (`C62_first_wrong`) and the reference configuration is lost for the
whole history (`C62_reference_wrong`); rigid rotations cause stress (`C62_rotation_wrong`); the chain parameter does not cancel
(`C62_chain_wrong`).  Bertoldi's constructor accepts Poisson ratios of one half and more (`C62_bertoldi_poisson_wrong`).
-/

noncomputable section
namespace Serac.C62
open Serac.Tensor Serac.LCE
open scoped Matrix MatrixOrder Matrix.Norms.L2Operator

abbrev M := Matrix (Fin 3) (Fin 3) ℝ

/-! ## `matrix_sqrt` -/

theorem loop_succ (A B : M) (n : ℕ) :
    sqrtLoop A (n + 1) B = if B.det = 0 then none else sqrtLoop A n ((1 / 2 : ℝ) • (B + A * B⁻¹)) := by
  rw [sqrtLoop, inv3_eq]
  split
  · rfl
  · rw [Option.bind_some]
    congr 1
    ext i j
    rw [dot_eq, Matrix.smul_apply, Matrix.add_apply, smul_eq_mul]

theorem det_ne {A : M} (h : A.PosDef) : A.det ≠ 0 := (Matrix.isUnit_iff_isUnit_det _).mp h.isUnit |>.ne_zero

theorem exists_root (A : M) (h : A.PosDef) : ∃ S : M, S.PosDef ∧ A = S * S := by
  have hA : (0 : M) ≤ A := h.posSemidef.nonneg
  have e : CFC.sqrt A * CFC.sqrt A = A := CFC.sqrt_mul_sqrt_self A hA
  have hs : (CFC.sqrt A).PosSemidef := Matrix.nonneg_iff_posSemidef.mp (CFC.sqrt_nonneg A)
  refine ⟨CFC.sqrt A, hs.posDef_iff_det_ne_zero.mpr fun h0 => det_ne h ?_, e.symm⟩
  rw [← e, Matrix.det_mul, h0, zero_mul]

theorem step_posDef {S B : M} (hS : S.PosDef) (hB : B.PosDef) (hc : Commute S B) :
    ((1 / 2 : ℝ) • (B + S * S * B⁻¹)).PosDef ∧ Commute S ((1 / 2 : ℝ) • (B + S * S * B⁻¹)) := by
  have hci : Commute S B⁻¹ := by
    have hu := (Matrix.isUnit_iff_isUnit_det _).mp hB.isUnit
    show S * B⁻¹ = B⁻¹ * S
    calc S * B⁻¹ = B⁻¹ * B * (S * B⁻¹) := by rw [Matrix.nonsing_inv_mul _ hu, Matrix.one_mul]
      _ = B⁻¹ * (S * B) * B⁻¹ := by rw [hc.eq]; simp only [Matrix.mul_assoc]
      _ = B⁻¹ * S := by rw [← Matrix.mul_assoc, Matrix.mul_assoc _ B, Matrix.mul_nonsing_inv _ hu, Matrix.mul_one]
  constructor
  · have e : S * S * B⁻¹ = Sᴴ * B⁻¹ * S := by rw [hS.isHermitian.eq, Matrix.mul_assoc, Matrix.mul_assoc, hci.eq]
    rw [e]
    exact (hB.add (hB.inv.conjTranspose_mul_mul_same (Matrix.mulVec_injective_iff_isUnit.mpr hS.isUnit))).smul (by norm_num)
  · exact (hc.add_right ((Commute.refl S).mul_right (Commute.refl S) |>.mul_right hci)).smul_right _

/-- The closed form of the iterates on an eigenvector with eigenvalue `s²`. -/
def ratio (s : ℝ) (k : ℕ) : ℝ := ((s - 1) / (s + 1)) ^ 2 ^ k

def value (s : ℝ) (k : ℕ) : ℝ := s * (1 + ratio s k) / (1 - ratio s k)

theorem ratio_lt {s : ℝ} (hs : 0 < s) (k : ℕ) : |ratio s k| < 1 := by
  rw [ratio, abs_pow]
  refine pow_lt_one₀ (abs_nonneg _) ?_ (by positivity)
  rw [abs_div, abs_of_pos (by linarith : 0 < s + 1), div_lt_one (by linarith), abs_lt]
  constructor <;> linarith

theorem value_pos {s : ℝ} (hs : 0 < s) (k : ℕ) : 0 < value s k := by
  have := abs_lt.mp (ratio_lt hs k)
  exact div_pos (mul_pos hs (by linarith)) (by linarith)

theorem value_zero {s : ℝ} (hs : 0 < s) : value s 0 = s * s := by
  have : s + 1 ≠ 0 := by positivity
  rw [value, ratio, pow_zero, pow_one]
  have h2 : 1 - (s - 1) / (s + 1) ≠ 0 := by
    have : 1 - (s - 1) / (s + 1) = 2 / (s + 1) := by field_simp; ring
    rw [this]; positivity
  field_simp
  ring

theorem value_succ {s : ℝ} (hs : 0 < s) (k : ℕ) : value s (k + 1) = 1 / 2 * (value s k + s * s * (value s k)⁻¹) := by
  have h := abs_lt.mp (ratio_lt hs k)
  have e : ratio s (k + 1) = ratio s k ^ 2 := by rw [ratio, ratio, ← pow_mul, pow_succ]
  have h' := abs_lt.mp (ratio_lt hs (k + 1))
  unfold value
  rw [e] at h' ⊢
  have h1 : 1 + ratio s k ≠ 0 := by linarith
  have h2 : 1 - ratio s k ≠ 0 := by linarith
  have h3 : 1 - ratio s k ^ 2 ≠ 0 := by linarith
  have hs' := hs.ne'
  rw [div_eq_iff h3]
  field_simp
  ring

theorem loop_ok {S : M} (hS : S.PosDef) : ∀ (n : ℕ) (k : ℕ) (B : M), B.PosDef → Commute S B →
    (∀ (s : ℝ) (v : Fin 3 → ℝ), 0 < s → (S * S) *ᵥ v = (s * s) • v → B *ᵥ v = value s k • v) →
    ∃ R, sqrtLoop (S * S) n B = some R ∧ R.PosDef ∧ Commute S R ∧ ∀ (s : ℝ) (v : Fin 3 → ℝ), 0 < s → (S * S) *ᵥ v = (s * s) • v → R *ᵥ v = value s (k + n) • v
  | 0, k, B, hB, hc, he => ⟨B, rfl, hB, hc, he⟩
  | n + 1, k, B, hB, hc, he => by
    obtain ⟨h1, h2⟩ := step_posDef hS hB hc
    rw [loop_succ, if_neg (det_ne hB)]
    obtain ⟨R, hR, h3, h4, h5⟩ := loop_ok hS n (k + 1) _ h1 h2 fun s v hs hv => by
      have hb := he s v hs hv
      have hu := (Matrix.isUnit_iff_isUnit_det _).mp hB.isUnit
      have hinv : B⁻¹ *ᵥ v = (value s k)⁻¹ • v := by
        have : B⁻¹ *ᵥ (B *ᵥ v) = v := by rw [Matrix.mulVec_mulVec, Matrix.nonsing_inv_mul _ hu, Matrix.one_mulVec]
        rw [hb, Matrix.mulVec_smul] at this
        rw [eq_inv_smul_iff₀ (value_pos hs k).ne', this]
      rw [Matrix.smul_mulVec, Matrix.add_mulVec, hb, ← Matrix.mulVec_mulVec, hinv, Matrix.mulVec_smul, hv, smul_smul, ← add_smul, smul_smul,
        value_succ hs, mul_comm (value s k)⁻¹]
    exact ⟨R, hR, h3, h4, fun s v hs hv => by rw [h5 s v hs hv]; congr 2; omega⟩

theorem sqrt_posDef (A : M) (hA : A.PosDef) : ∃ B, matrixSqrt A = some B ∧ B.PosDef ∧
    ∀ (s : ℝ) (v : Fin 3 → ℝ), 0 < s → A *ᵥ v = (s * s) • v → B *ᵥ v = value s 15 • v := by
  obtain ⟨S, hS, rfl⟩ := exists_root A hA
  obtain ⟨B, h1, h2, -, h3⟩ := loop_ok hS 15 0 (S * S) hA ((Commute.refl S).mul_right (Commute.refl S)) fun s v hs hv => by rw [hv, value_zero hs]
  exact ⟨B, h1, h2, fun s v hs hv => by rw [h3 s v hs hv]⟩

/-- **C62, `matrix_sqrt` exactly.**  On every symmetric positive definite matrix the fifteen passes are defined and their result `B` is symmetric
positive definite.  It has the eigenvectors of `A`, and for an eigenvalue `s²` of `A` the eigenvalue `b` of `B` satisfies
`(b - s) / (b + s) = ((s - 1) / (s + 1)) ^ 32768`. -/
theorem C62_sqrt (A : M) (hA : A.PosDef) : ∃ B, matrixSqrt A = some B ∧ B.PosDef ∧
    ∀ (s : ℝ) (v : Fin 3 → ℝ), 0 < s → A *ᵥ v = (s * s) • v → ∃ b, 0 < b ∧ B *ᵥ v = b • v ∧ (b - s) / (b + s) = ((s - 1) / (s + 1)) ^ 32768 := by
  obtain ⟨B, h1, h2, h3⟩ := sqrt_posDef A hA
  refine ⟨B, h1, h2, fun s v hs hv => ⟨value s 15, value_pos hs 15, h3 s v hs hv, ?_⟩⟩
  have h := abs_lt.mp (ratio_lt hs 15)
  have hb := value_pos hs 15
  have e : ((s - 1) / (s + 1)) ^ 32768 = ratio s 15 := by rw [ratio]; norm_num
  have h2 : 1 - ratio s 15 ≠ 0 := by linarith
  rw [e, div_eq_iff (by positivity), value]
  field_simp
  ring

/-- **C62, `matrix_sqrt` is accurate in practice**: for principal stretches between a thousandth and a thousand the relative error is below
`10⁻¹⁸`, and the result is never too small. -/
theorem C62_sqrt_accurate (A B : M) (hA : A.PosDef) (hB : matrixSqrt A = some B) (s : ℝ) (v : Fin 3 → ℝ) (hl : 1 / 1000 ≤ s) (hu : s ≤ 1000)
    (hv : A *ᵥ v = (s * s) • v) : ∃ b, B *ᵥ v = b • v ∧ s ≤ b ∧ b ≤ s * (1 + 1 / 10 ^ 18) := by
  obtain ⟨B', h1, -, h3⟩ := sqrt_posDef A hA
  cases hB.symm.trans h1
  have hs : 0 < s := by linarith
  refine ⟨value s 15, h3 s v hs hv, ?_⟩
  have hr0 : 0 ≤ ratio s 15 := by
    rw [ratio, show (2 : ℕ) ^ 15 = 2 * 2 ^ 14 by norm_num, pow_mul]; positivity
  have hr1 : ratio s 15 ≤ (1 / 2) ^ 64 := by
    have hb : |(s - 1) / (s + 1)| ≤ 999 / 1001 := by
      rw [abs_div, abs_of_pos (by linarith : 0 < s + 1), div_le_iff₀ (by linarith), abs_le]
      constructor <;> linarith
    have hp : (999 / 1001 : ℝ) ^ 512 ≤ 1 / 2 := by
      calc (999 / 1001 : ℝ) ^ 512 = ((999 / 1001) ^ 32) ^ 16 := by rw [← pow_mul]
        _ ≤ (94 / 100) ^ 16 := pow_le_pow_left₀ (by positivity) (by norm_num) _
        _ ≤ 1 / 2 := by norm_num
    calc ratio s 15 ≤ |(s - 1) / (s + 1)| ^ 2 ^ 15 := by rw [ratio, ← abs_pow]; exact le_abs_self _
      _ ≤ (999 / 1001) ^ 2 ^ 15 := pow_le_pow_left₀ (abs_nonneg _) hb _
      _ = ((999 / 1001) ^ 512) ^ 64 := by rw [← pow_mul, show (2 : ℕ) ^ 15 = 512 * 64 by norm_num]
      _ ≤ (1 / 2) ^ 64 := pow_le_pow_left₀ (by positivity) hp _
  generalize hr : ratio s 15 = r at hr0 hr1
  have hr2 : r ≤ 1 / 10 ^ 19 := hr1.trans (by norm_num)
  have hd : 0 < 1 - r := by linarith [show (1 / 10 ^ 19 : ℝ) < 1 by norm_num]
  rw [value, hr]
  constructor
  · rw [le_div_iff₀ hd]; nlinarith
  · rw [div_le_iff₀ hd, mul_assoc]
    refine mul_le_mul_of_nonneg_left ?_ hs.le
    nlinarith

theorem eq_one_of_eigen (A : M) (hA : A.PosDef) (h : ∀ (s : ℝ) (v : Fin 3 → ℝ), 0 < s → v ≠ 0 → A *ᵥ v = (s * s) • v → s = 1) : A = 1 := by
  have hH := hA.isHermitian
  have hev : ∀ i, hH.eigenvalues i = 1 := fun i => by
    have hp := hA.eigenvalues_pos i
    have := h (Real.sqrt (hH.eigenvalues i)) (hH.eigenvectorBasis i) (Real.sqrt_pos.mpr hp) (fun h0 => hH.eigenvectorBasis.toBasis.ne_zero i ?_) ?_
    · rw [Real.sqrt_eq_one] at this; exact this
    · rw [OrthonormalBasis.coe_toBasis]
      exact (WithLp.ofLp_eq_zero 2).mp h0
    · rw [Real.mul_self_sqrt hp.le, hH.mulVec_eigenvectorBasis]
  have hs := hH.spectral_theorem
  rw [show (RCLike.ofReal ∘ hH.eigenvalues : Fin 3 → ℝ) = fun _ => 1 from funext fun i => by simp [hev i], Matrix.diagonal_one, map_one] at hs
  exact hs

/-- **C62, `matrix_sqrt` is exact only on the identity**: `dot(B, B) == A`, as documented, holds for a symmetric positive definite `A` exactly when
`A` is the identity. -/
theorem C62_sqrt_wrong (A B : M) (hA : A.PosDef) (hB : matrixSqrt A = some B) : B * B = A ↔ A = 1 := by
  obtain ⟨B', h1, h2, h3⟩ := sqrt_posDef A hA
  cases hB.symm.trans h1
  constructor
  · intro h
    refine eq_one_of_eigen A hA fun s v hs hv0 hv => ?_
    have hb := h3 s v hs hv
    have h4 : (value s 15 * value s 15) • v = (s * s) • v := by
      rw [← hv, ← h, ← Matrix.mulVec_mulVec, hb, Matrix.mulVec_smul, hb, smul_smul]
    have h5 : value s 15 = s := by
      have h6 := smul_left_injective ℝ hv0 h4
      exact (mul_self_inj_of_nonneg (value_pos hs 15).le hs.le).mp h6
    have hr := abs_lt.mp (ratio_lt hs 15)
    rw [value, div_eq_iff (by linarith)] at h5
    have h7 : ratio s 15 = 0 := by nlinarith
    rw [ratio] at h7
    have h8 := eq_zero_of_pow_eq_zero h7
    rw [div_eq_zero_iff] at h8
    rcases h8 with h8 | h8 <;> linarith
  · rintro rfl
    have hv : ∀ v, B *ᵥ v = v := fun v => by
      have := h3 1 v one_pos (by simp)
      rwa [show value 1 15 = 1 by rw [value, ratio]; norm_num, one_smul] at this
    have : B = 1 := by
      refine Matrix.toLin'.injective (LinearMap.ext fun v => ?_)
      rw [Matrix.toLin'_apply, hv, Matrix.toLin'_one, LinearMap.id_apply]
    rw [this, Matrix.mul_one]

theorem sqrt_one : matrixSqrt (1 : M) = some 1 := by
  have h : ∀ n, sqrtLoop (1 : M) n 1 = some 1 := fun n => by
    induction n with
    | zero => rfl
    | succ n ih =>
      rw [loop_succ, if_neg (by simp)]
      have : (1 / 2 : ℝ) • ((1 : M) + 1 * 1⁻¹) = 1 := by
        rw [inv_one, Matrix.one_mul, ← two_smul ℝ (1 : M), smul_smul]; norm_num
      rw [this, ih]
  exact h 15

/-- The iteration commutes with a change of orthonormal basis. -/
theorem loop_conj (Q : M) (hQ : Q * Qᵀ = 1) (A : M) : ∀ (n : ℕ) (B : M),
    sqrtLoop (Q * A * Qᵀ) n (Q * B * Qᵀ) = (sqrtLoop A n B).map fun R => Q * R * Qᵀ
  | 0, B => rfl
  | n + 1, B => by
    have hQ' : Qᵀ * Q = 1 := mul_eq_one_comm.mp hQ
    have hd : (Q * B * Qᵀ).det = B.det := by
      have := congrArg Matrix.det hQ
      rw [Matrix.det_mul, Matrix.det_one] at this
      rw [Matrix.det_mul, Matrix.det_mul, mul_right_comm, this, one_mul]
    rw [loop_succ, loop_succ, hd]
    split
    · rfl
    · rename_i h
      have hi : (Q * B * Qᵀ)⁻¹ = Q * B⁻¹ * Qᵀ := by
        refine Matrix.inv_eq_right_inv ?_
        calc Q * B * Qᵀ * (Q * B⁻¹ * Qᵀ) = Q * (B * (Qᵀ * Q) * B⁻¹) * Qᵀ := by simp only [Matrix.mul_assoc]
          _ = 1 := by rw [hQ', Matrix.mul_one, Matrix.mul_nonsing_inv _ (isUnit_iff_ne_zero.mpr h), Matrix.mul_one, hQ]
      rw [← loop_conj Q hQ A n, hi]
      congr 1
      have : Q * A * Qᵀ * (Q * B⁻¹ * Qᵀ) = Q * (A * B⁻¹) * Qᵀ := by
        calc Q * A * Qᵀ * (Q * B⁻¹ * Qᵀ) = Q * (A * (Qᵀ * Q) * B⁻¹) * Qᵀ := by simp only [Matrix.mul_assoc]
          _ = _ := by rw [hQ', Matrix.mul_one]
      rw [this, Matrix.mul_smul, Matrix.smul_mul, Matrix.mul_add, Matrix.add_mul]

theorem sqrt_conj (Q : M) (hQ : Q * Qᵀ = 1) (A : M) : matrixSqrt (Q * A * Qᵀ) = (matrixSqrt A).map fun R => Q * R * Qᵀ :=
  loop_conj Q hQ A 15 A

/-! ## Brighenti: the response as matrix expressions -/

theorem mu0_eq (p : Brighenti) (n : Fin 3 → ℝ) : (mu0 p n : M) = (p.N / 3 * (1 - p.q0)) • 1 + (3 * p.q0) • outer n n := by
  ext i j
  rw [mu0, identity_eq, Matrix.add_apply, Matrix.smul_apply, Matrix.smul_apply, smul_eq_mul, smul_eq_mul]
  ring

theorem orderTensor_eq (q : ℝ) (n : Fin 3 → ℝ) : (orderTensor q n : M) = (1 / 2 * (1 - q)) • 1 + (3 / 2 * q) • outer n n := by
  ext i j
  rw [orderTensor, identity_eq, Matrix.add_apply, Matrix.smul_apply, Matrix.smul_apply, smul_eq_mul, smul_eq_mul]
  ring

/-- The new distribution tensor for the polar factor `U`. -/
def newMu (p : Brighenti) (mu : M) (th0 th : ℝ) (n : Fin 3 → ℝ) (Fh U : M) : M :=
  Fh * (mu + (2 * p.N / 3) • (orderTensor (order p th) n - orderTensor (order p th0) n : M)) * Fhᵀ +
    (2 * p.N / 3) • ((orderTensor (order p th) n : M) - Fh * U⁻¹ * orderTensor (order p th) n * (Fh * U⁻¹)ᵀ)

theorem distribution_eq (p : Brighenti) (st : State) (Fh : M) (th : ℝ) (n : Fin 3 → ℝ) :
    distribution p st Fh th n = (matrixSqrt (Fhᵀ * Fh)).bind fun U =>
      if U.det = 0 then none else some (newMu p st.mu st.temperature th n Fh U) := by
  rw [distribution, dot_eq, transpose_eq]
  congr 1
  funext U
  rw [inv3_eq]
  split
  · rfl
  · refine congrArg some ?_
    ext i j
    simp only [dot_eq, transpose_eq, newMu, Matrix.add_apply, Matrix.smul_apply, Matrix.sub_apply, smul_eq_mul, Matrix.mul_assoc]
    rw [← dot_eq (st.mu + _ : M) Fhᵀ]
    rfl

/-- For an invertible increment the polar factor exists. -/
theorem distribution_some (p : Brighenti) (st : State) (Fh : M) (hF : Fh.det ≠ 0) (th : ℝ) (n : Fin 3 → ℝ) :
    ∃ U : M, U.PosDef ∧ distribution p st Fh th n = some (newMu p st.mu st.temperature th n Fh U) := by
  have hpd : (Fhᵀ * Fh).PosDef :=
    Matrix.PosDef.conjTranspose_mul_self Fh (Matrix.mulVec_injective_iff_isUnit.mpr
      ((Matrix.isUnit_iff_isUnit_det _).mpr (isUnit_iff_ne_zero.mpr hF)))
  obtain ⟨U, h1, h2, -⟩ := sqrt_posDef _ hpd
  exact ⟨U, h2, by rw [distribution_eq, h1, Option.bind_some, if_neg (det_ne h2)]⟩

theorem norm_zero (F : M) : Real.sqrt (sqNorm F) = 0 ↔ F = 0 := by
  have h1 : ∀ i : Fin 3, 0 ≤ ∑ j, F i j * F i j := fun i => Finset.sum_nonneg fun j _ => mul_self_nonneg _
  rw [sqNorm_eq, Real.sqrt_eq_zero (Finset.sum_nonneg fun i _ => h1 i), Finset.sum_eq_zero_iff_of_nonneg fun i _ => h1 i]
  constructor
  · intro h
    ext i j
    have h1 := h i (Finset.mem_univ _)
    rw [Finset.sum_eq_zero_iff_of_nonneg fun j _ => mul_self_nonneg _] at h1
    exact mul_self_eq_zero.mp (h1 j (Finset.mem_univ _))
  · rintro rfl
    simp

/-- The stress from the new distribution tensor. -/
def stressOf (p : Brighenti) (F mu : M) (n : Fin 3 → ℝ) : M :=
  (F.det)⁻¹ • ((3 * p.shear / p.N) • (mu - mu0 p n : M) + ((p.bulk - 2 / 3 * p.shear) * Real.log F.det) • (1 : M))

theorem F_eq (H : M) : (fun i j => H i j + identity 3 i j : Fin 3 → Fin 3 → ℝ) = (H + 1 : M) := by
  funext i j; rw [identity_eq]; rfl

theorem respond_eq (p : Brighenti) (st0 : State) (H : M) (th g : ℝ) :
    respond p st0 H th g =
      let st := initialise p st0 H th (normalB g)
      if (st.F : M).det = 0 then none else
      (distribution p st ((H + 1) * (st.F : M)⁻¹) th (normalB g)).bind fun mu =>
        if p.N = 0 then none else if (H + 1).det ≤ 0 then none else some (stressOf p (H + 1) mu (normalB g), ⟨H + 1, mu, th⟩) := by
  simp only [respond, F_eq, inv3_eq]
  split
  · rfl
  · rw [Option.bind_some, dot_eq]
    congr 1
    funext mu
    rw [det3_eq]
    split
    · rfl
    · split
      · rfl
      · congr 2
        ext i j
        simp only [stressOf, identity_eq, Matrix.smul_apply, Matrix.add_apply, Matrix.sub_apply, smul_eq_mul]
        rw [div_eq_inv_mul]

theorem outer_symm (n : Fin 3 → ℝ) : (outer n n : M)ᵀ = outer n n := by
  ext i j; exact mul_comm _ _

theorem order_symm (q : ℝ) (n : Fin 3 → ℝ) : (orderTensor q n : M)ᵀ = orderTensor q n := by
  rw [orderTensor_eq, Matrix.transpose_add, Matrix.transpose_smul, Matrix.transpose_smul, Matrix.transpose_one, outer_symm]

theorem mu0_symm (p : Brighenti) (n : Fin 3 → ℝ) : (mu0 p n : M)ᵀ = mu0 p n := by
  rw [mu0_eq, Matrix.transpose_add, Matrix.transpose_smul, Matrix.transpose_smul, Matrix.transpose_one, outer_symm]

theorem newMu_symm (p : Brighenti) (mu : M) (hm : muᵀ = mu) (th0 th : ℝ) (n : Fin 3 → ℝ) (Fh U : M) :
    (newMu p mu th0 th n Fh U)ᵀ = newMu p mu th0 th n Fh U := by
  simp only [newMu, Matrix.transpose_add, Matrix.transpose_smul, Matrix.transpose_sub, Matrix.transpose_mul, Matrix.transpose_transpose, hm,
    order_symm, Matrix.mul_assoc]

theorem stress_symm (p : Brighenti) (F mu : M) (hm : muᵀ = mu) (n : Fin 3 → ℝ) : (stressOf p F mu n)ᵀ = stressOf p F mu n := by
  simp only [stressOf, Matrix.transpose_add, Matrix.transpose_smul, Matrix.transpose_sub, Matrix.transpose_one, hm, mu0_symm]

theorem init_zero (p : Brighenti) (st : State) (h : (st.F : M) = 0) (H : M) (th : ℝ) (n : Fin 3 → ℝ) :
    initialise p st H th n = ⟨(H + 1 : M), mu0 p n, th⟩ := by
  rw [initialise, if_pos ((norm_zero st.F).mpr h), F_eq]

theorem init_pos (p : Brighenti) (st : State) (h : (st.F : M).det ≠ 0) (H : M) (th : ℝ) (n : Fin 3 → ℝ) : initialise p st H th n = st := by
  rw [initialise, if_neg]
  intro h0
  rw [(norm_zero st.F).mp h0, Matrix.det_zero] at h
  exact h rfl

/-- One call from a used state. -/
theorem respond_used (p : Brighenti) (hN : p.N ≠ 0) (st : State) (hst : (st.F : M).det ≠ 0) (H : M) (hH : 0 < (H + 1).det) (th g : ℝ) :
    ∃ U : M, U.PosDef ∧ matrixSqrt (((H + 1) * (st.F : M)⁻¹)ᵀ * ((H + 1) * (st.F : M)⁻¹)) = some U ∧
      respond p st H th g = some (stressOf p (H + 1) (newMu p st.mu st.temperature th (normalB g) ((H + 1) * (st.F : M)⁻¹) U) (normalB g),
        ⟨H + 1, newMu p st.mu st.temperature th (normalB g) ((H + 1) * (st.F : M)⁻¹) U, th⟩) := by
  have hd : ((H + 1) * (st.F : M)⁻¹).det ≠ 0 := by
    rw [Matrix.det_mul, Matrix.det_nonsing_inv, Ring.inverse_eq_inv']
    exact mul_ne_zero hH.ne' (inv_ne_zero hst)
  have hpd : (((H + 1) * (st.F : M)⁻¹)ᵀ * ((H + 1) * (st.F : M)⁻¹)).PosDef :=
    Matrix.PosDef.conjTranspose_mul_self _ (Matrix.mulVec_injective_iff_isUnit.mpr
      ((Matrix.isUnit_iff_isUnit_det _).mpr (isUnit_iff_ne_zero.mpr hd)))
  obtain ⟨U, h1, h2, -⟩ := sqrt_posDef _ hpd
  refine ⟨U, h2, h1, ?_⟩
  rw [respond_eq, init_pos p st hst]
  simp only
  rw [if_neg hst, distribution_eq, h1, Option.bind_some, if_neg (det_ne h2), Option.bind_some, if_neg hN, if_neg hH.not_ge]

theorem newMu_id (p : Brighenti) (mu : M) (th0 th : ℝ) (n : Fin 3 → ℝ) :
    newMu p mu th0 th n 1 1 = mu + (2 * p.N / 3) • (orderTensor (order p th) n - orderTensor (order p th0) n : M) := by
  simp only [newMu, inv_one, Matrix.one_mul, Matrix.mul_one, Matrix.transpose_one, sub_self, smul_zero, add_zero]

/-- **C62, heating or repeating at a fixed deformation**: only the order tensor moves the distribution tensor. -/
theorem respond_fixed (p : Brighenti) (hN : p.N ≠ 0) (st : State) (H : M) (hst : (st.F : M) = H + 1) (hH : 0 < (H + 1).det) (th g : ℝ) :
    respond p st H th g =
      some (stressOf p (H + 1) (st.mu + (2 * p.N / 3) • (orderTensor (order p th) (normalB g) - orderTensor (order p st.temperature) (normalB g) : M))
        (normalB g),
        ⟨H + 1, (st.mu + (2 * p.N / 3) • (orderTensor (order p th) (normalB g) - orderTensor (order p st.temperature) (normalB g) : M) : M), th⟩) := by
  obtain ⟨U, -, h1, h2⟩ := respond_used p hN st (hst ▸ hH.ne') H hH th g
  rw [hst, Matrix.mul_nonsing_inv _ (isUnit_iff_ne_zero.mpr hH.ne')] at h1 h2
  rw [Matrix.transpose_one, Matrix.mul_one, sqrt_one] at h1
  cases h1
  rw [h2, newMu_id]

/-- A fresh point behaves as one whose state holds the incoming deformation. -/
theorem respond_fresh (p : Brighenti) (st : State) (h0 : (st.F : M) = 0) (H : M) (hH : 0 < (H + 1).det) (th g : ℝ) :
    respond p st H th g = respond p ⟨(H + 1 : M), mu0 p (normalB g), th⟩ H th g := by
  rw [respond_eq, respond_eq, init_zero p st h0, init_pos p _ hH.ne']

/-- **C62, the first call sees no shear** (violation): at a fresh quadrature point the incoming deformation becomes its own reference, and the
stress is the pressure `λ log J / J` whatever the deformation. -/
theorem C62_first_wrong (p : Brighenti) (hN : p.N ≠ 0) (H : M) (hH : 0 < (1 + H).det) (th g : ℝ) :
    respond p State.zero H th g =
      some (((p.bulk - 2 / 3 * p.shear) * Real.log (1 + H).det / (1 + H).det) • (1 : M), ⟨(1 + H : M), mu0 p (normalB g), th⟩) := by
  rw [add_comm] at hH ⊢
  have h0 : respond p State.zero H th g = respond p ⟨(H + 1 : M), mu0 p (normalB g), th⟩ H th g :=
    respond_fresh p State.zero rfl H hH th g
  rw [h0, respond_fixed p hN _ H rfl hH, sub_self, smul_zero, add_zero]
  congr 2
  rw [stressOf, sub_self, smul_zero, zero_add, smul_smul]
  congr 1
  ring

/-- The states the model can be in: fresh, or after a call. -/
def Ok (st : State) : Prop := (st.F : M) = 0 ∨ 0 < (st.F : M).det ∧ (st.mu : M)ᵀ = st.mu

theorem respond_ok (p : Brighenti) (hN : p.N ≠ 0) (st : State) (hst : Ok st) (H : M) (hH : 0 < (1 + H).det) (th g : ℝ) :
    ∃ s st', respond p st H th g = some (s, st') ∧ (s : M)ᵀ = s ∧ Ok st' ∧ (st'.F : M) = 1 + H ∧ st'.temperature = th := by
  rcases hst with h0 | ⟨hd, hm⟩
  · have : respond p st H th g = respond p State.zero H th g := by
      rw [respond_eq, respond_eq, init_zero p State.zero rfl, init_zero p st h0]
    rw [this, C62_first_wrong p hN H hH]
    exact ⟨_, _, rfl, by rw [Matrix.transpose_smul, Matrix.transpose_one], .inr ⟨hH, mu0_symm _ _⟩, rfl, rfl⟩
  · rw [add_comm] at hH ⊢
    obtain ⟨U, -, -, h⟩ := respond_used p hN st hd.ne' H hH th g
    exact ⟨_, _, h, stress_symm _ _ _ (newMu_symm _ _ hm _ _ _ _ _) _, .inr ⟨hH, newMu_symm _ _ hm _ _ _ _ _⟩, rfl, rfl⟩

theorem run_ok (p : Brighenti) (hN : p.N ≠ 0) : ∀ (calls : List Call) (st : State), Ok st → (∀ c ∈ calls, 0 < ((1 : M) + c.du).det) →
    ∃ out st', run p st calls = some (out, st') ∧ out.length = calls.length ∧ (∀ s ∈ out, (s : M)ᵀ = s) ∧ Ok st' ∧
      ∀ c, calls.getLast? = some c → (st'.F : M) = 1 + c.du ∧ st'.temperature = c.theta
  | [], st, hst, _ => ⟨[], st, rfl, rfl, by simp, hst, by simp⟩
  | c :: cs, st, hst, h => by
    obtain ⟨s, st1, h1, h2, h3, h4, h5⟩ := respond_ok p hN st hst c.du (h c (by simp)) c.theta c.gamma
    obtain ⟨out, st2, h6, h7, h8, h9, h10⟩ := run_ok p hN cs st1 h3 fun c hc => h c (by simp [hc])
    refine ⟨s :: out, st2, by rw [run, h1, Option.bind_some, h6]; rfl, by simp [h7], ?_, h9, fun c' hc' => ?_⟩
    · intro t ht
      rcases List.mem_cons.mp ht with rfl | ht
      · exact h2
      · exact h8 t ht
    · cases cs with
      | nil =>
        cases h6
        simp only [List.getLast?_singleton, Option.some.injEq] at hc'
        subst hc'
        exact ⟨h4, h5⟩
      | cons d ds => exact h10 c' (by rwa [List.getLast?_cons_cons] at hc')

/-- **C62, every history is defined and its stresses are symmetric**: with a nonzero chain parameter, any sequence of orientation-preserving
deformations with any temperatures and director angles runs to the end; every stress is symmetric and the state remembers the last deformation
and temperature. -/
theorem C62_history (p : Brighenti) (hN : p.N ≠ 0) (calls : List Call) (h : ∀ c ∈ calls, 0 < ((1 : M) + c.du).det) :
    ∃ out st, run p State.zero calls = some (out, st) ∧ out.length = calls.length ∧ (∀ s ∈ out, (s : M)ᵀ = s) ∧
      ∀ c, calls.getLast? = some c → (st.F : M) = 1 + c.du ∧ st.temperature = c.theta := by
  obtain ⟨out, st, h1, h2, h3, -, h5⟩ := run_ok p hN calls State.zero (.inl rfl) h
  exact ⟨out, st, h1, h2, h3, h5⟩

/-- **C62, undefined responses**: a zero chain parameter, which the constructor accepts, leaves every call without a result; so does a
deformation that is not orientation preserving. -/
theorem C62_undefined (p : Brighenti) (st : State) (H : M) (th g : ℝ) (h : p.N = 0 ∨ (1 + H).det ≤ 0) : respond p st H th g = none := by
  rw [respond_eq]
  simp only
  split
  · rfl
  · rw [add_comm] at h
    cases hd : distribution p (initialise p st H th (normalB g)) ((H + 1) * (initialise p st H th (normalB g)).F⁻¹) th (normalB g) with
    | none => rfl
    | some mu =>
      rw [Option.bind_some]
      rcases h with h | h
      · rw [if_pos h]
      · rw [if_pos h, ite_self]

/-- **C62, repeating a call changes nothing**: with the state it left behind, the same input gives the same stress and leaves the state alone. -/
theorem C62_repeat (p : Brighenti) (st st' : State) (H s : M) (th g : ℝ) (h : respond p st H th g = some (s, st')) :
    respond p st' H th g = some (s, st') := by
  have hN : p.N ≠ 0 := fun h0 => by rw [C62_undefined p st H th g (.inl h0)] at h; cases h
  have hH : 0 < (H + 1).det := by
    by_contra h0
    rw [C62_undefined p st H th g (.inr (by rw [add_comm]; exact not_lt.mp h0))] at h
    cases h
  rw [respond_eq] at h
  simp only at h
  split at h
  · cases h
  obtain ⟨mu, -, h2⟩ := Option.bind_eq_some_iff.mp h
  rw [if_neg hH.not_ge] at h2
  have h3 := Prod.mk.inj (Option.some.inj h2)
  rw [← h3.1, ← h3.2, respond_fixed p hN _ H rfl hH]
  simp only [sub_self, smul_zero, add_zero]

theorem run_fixed (p : Brighenti) (hN : p.N ≠ 0) (H : M) (hH : 0 < (H + 1).det) (g : ℝ) : ∀ (ths : List ℝ) (th : ℝ) (st : State), (st.F : M) = H + 1 →
    ∃ out, run p st ((ths ++ [th]).map fun t => ⟨H, t, g⟩) = some (out, ⟨H + 1,
      (st.mu + (2 * p.N / 3) • (orderTensor (order p th) (normalB g) - orderTensor (order p st.temperature) (normalB g) : M) : M), th⟩)
  | [], th, st, hst => ⟨_, by
      simp only [List.nil_append, List.map_cons, List.map_nil, run]
      rw [respond_fixed p hN st H hst hH]
      rfl⟩
  | t :: ths, th, st, hst => by
    obtain ⟨out, h⟩ := run_fixed p hN H hH g ths th ⟨H + 1,
      (st.mu + (2 * p.N / 3) • (orderTensor (order p t) (normalB g) - orderTensor (order p st.temperature) (normalB g) : M) : M), t⟩ rfl
    simp only at h
    rw [add_assoc, ← smul_add, sub_add_sub_cancel'] at h
    rw [List.cons_append, List.map_cons, run, respond_fixed p hN st H hst hH, Option.bind_some, h, Option.map_some]
    exact ⟨_, rfl⟩

/-- **C62, thermal cycles are reversible**: at a fixed deformation and director, any sequence of temperatures that ends where it started leaves
the state exactly as it was. -/
theorem C62_thermal (p : Brighenti) (hN : p.N ≠ 0) (st : State) (H : M) (hst : (st.F : M) = 1 + H) (hH : 0 < (1 + H).det) (g : ℝ) (ths : List ℝ) :
    ∃ out, run p st ((ths ++ [st.temperature]).map fun t => ⟨H, t, g⟩) = some (out, st) := by
  rw [add_comm] at hst hH
  obtain ⟨out, h⟩ := run_fixed p hN H hH g ths st.temperature st hst
  refine ⟨out, h.trans ?_⟩
  rw [sub_self, smul_zero, add_zero, ← hst]

/-! ### Rigid rotations -/

theorem outer_conj (R : M) (n : Fin 3 → ℝ) : (outer (R *ᵥ n) (R *ᵥ n) : M) = R * outer n n * Rᵀ := by
  have h : ∀ a b : Fin 3 → ℝ, (outer a b : M) = Matrix.vecMulVec a b := fun _ _ => rfl
  rw [h, h, Matrix.mul_vecMulVec, Matrix.vecMulVec_mul, Matrix.vecMul_transpose]

theorem outer_inj (a b : Fin 3 → ℝ) (ha : a ⬝ᵥ a = 1) (hb : b ⬝ᵥ b = 1) : (outer a a : M) = outer b b ↔ a = b ∨ a = -b := by
  constructor
  · intro h
    have h1 : ∀ i j, a i * a j = b i * b j := fun i j => congrFun (congrFun h i) j
    have h2 : ∀ i, (a ⬝ᵥ b) * a i = b i := fun i => by
      have : (a ⬝ᵥ b) * a i = b i * (b ⬝ᵥ b) := by
        simp only [dotProduct, Finset.sum_mul, Finset.mul_sum]
        exact Finset.sum_congr rfl fun j _ => by linear_combination b j * h1 i j
      rw [this, hb, mul_one]
    have h3 : (a ⬝ᵥ b) * (a ⬝ᵥ b) = 1 := by
      have : (a ⬝ᵥ b) * (a ⬝ᵥ b) = b ⬝ᵥ b := by
        simp only [dotProduct, Finset.mul_sum]
        exact Finset.sum_congr rfl fun j _ => by
          have := h2 j
          simp only [dotProduct] at this
          rw [← mul_assoc, this]
      rw [this, hb]
    rcases mul_self_eq_one_iff.mp h3 with h4 | h4
    · exact .inl (funext fun i => by rw [← h2 i, h4, one_mul])
    · exact .inr (funext fun i => by rw [Pi.neg_apply, ← h2 i, h4]; ring)
  · rintro (rfl | rfl)
    · rfl
    · ext i j
      simp [outer]

theorem normal_unit (g : ℝ) : normalB g ⬝ᵥ normalB g = 1 := by
  simp only [normalB, dotProduct, Fin.sum_univ_three]
  simp
  nlinarith [Real.sin_sq_add_cos_sq g]

theorem rot_unit {R : M} (hR : C31.IsRotation R) (n : Fin 3 → ℝ) (hn : n ⬝ᵥ n = 1) : (R *ᵥ n) ⬝ᵥ (R *ᵥ n) = 1 := by
  rw [Matrix.dotProduct_mulVec, ← Matrix.mulVec_transpose, Matrix.mulVec_mulVec, hR.1, Matrix.one_mulVec, hn]

/-- The stress of a rigid rotation after a first call at rest. -/
theorem rotate (p : Brighenti) (hN : p.N ≠ 0) (R : M) (hR : C31.IsRotation R) (th g : ℝ) :
    ∃ st, run p State.zero [⟨(0 : M), th, g⟩, ⟨(R - 1 : M), th, g⟩] =
      some ([(0 : M), ((9 * p.q0 / p.N - 3 * order p th) * p.shear) • (R * outer (normalB g) (normalB g) * Rᵀ - outer (normalB g) (normalB g) : M)], st) := by
  have h1 := C62_first_wrong p hN 0 (by simp) th g
  have hd : 0 < (R - 1 + 1).det := by rw [sub_add_cancel, hR.2]; exact one_pos
  have h0 : ((1 + 0 : M)).det ≠ 0 := by simp
  obtain ⟨U, -, h2, h3⟩ := respond_used p hN ⟨(1 + 0 : M), mu0 p (normalB g), th⟩ h0 (R - 1) hd th g
  simp only [add_zero, inv_one, Matrix.mul_one, sub_add_cancel, hR.1, sqrt_one] at h2 h3
  cases h2
  have hs : stressOf p R (newMu p (mu0 p (normalB g)) th th (normalB g) R 1) (normalB g) =
      ((9 * p.q0 / p.N - 3 * order p th) * p.shear) • (R * outer (normalB g) (normalB g) * Rᵀ - outer (normalB g) (normalB g) : M) := by
    have hRR : R * Rᵀ = 1 := mul_eq_one_comm.mp hR.1
    simp only [stressOf, newMu, hR.2, Real.log_one, mul_zero, zero_smul, add_zero, inv_one, one_smul, sub_self, smul_zero, Matrix.mul_one,
      mu0_eq, orderTensor_eq, Matrix.mul_add, Matrix.add_mul, Matrix.mul_smul, Matrix.smul_mul, hRR]
    ext i j
    simp only [Matrix.smul_apply, Matrix.sub_apply, Matrix.add_apply, smul_eq_mul]
    field_simp
    ring
  refine ⟨⟨R, newMu p (mu0 p (normalB g)) th th (normalB g) R 1, th⟩, ?_⟩
  simp only [run]
  rw [h1, Option.bind_some]
  simp only [add_zero, Matrix.det_one, Real.log_one, mul_zero, zero_div, zero_smul]
  rw [h3, hs]
  rfl

/-- **C62, a rigid rotation causes stress** (violation): after a first call at rest, rotating the body rigidly at the same temperature leaves it
stress free only without nematic order, for one particular chain parameter (which depends on the temperature), or when the rotation fixes the
director's axis. -/
theorem C62_rotation_wrong (p : Brighenti) (hG : 0 < p.shear) (hN : p.N ≠ 0) (R : M) (hR : C31.IsRotation R) (th g : ℝ) :
    ∃ s st, run p State.zero [⟨(0 : M), th, g⟩, ⟨(R - 1 : M), th, g⟩] = some ([(0 : M), s], st) ∧
      ((s : M) = 0 ↔ p.q0 = 0 ∨ p.N = 3 * (1 + Real.exp ((th - p.transition) / p.orderConstant)) ∨
        R *ᵥ normalB g = normalB g ∨ R *ᵥ normalB g = -normalB g) := by
  obtain ⟨st, h⟩ := rotate p hN R hR th g
  refine ⟨_, st, h, ?_⟩
  rw [smul_eq_zero, sub_eq_zero, ← outer_conj, outer_inj _ _ (rot_unit hR _ (normal_unit g)) (normal_unit g),
    ← or_assoc (a := p.q0 = 0)]
  refine or_congr_left ?_
  have he : 1 + Real.exp ((th - p.transition) / p.orderConstant) ≠ 0 := by positivity
  rw [mul_eq_zero, or_iff_left hG.ne', order, sub_eq_zero, div_eq_iff hN]
  constructor
  · intro h
    by_cases h0 : p.q0 = 0
    · exact .inl h0
    · refine .inr ?_
      field_simp at h
      linarith
  · rintro (h | h)
    · rw [h]; simp
    · rw [h]
      field_simp
      ring

/-- **C62, the chain parameter matters** (violation of the comment that it cancels everywhere): for a rigid rotation off the director's axis, two
chain parameters give the same stress only when they are equal or there is no nematic order. -/
theorem C62_chain_wrong (p : Brighenti) (hG : 0 < p.shear) (N' : ℝ) (hN : p.N ≠ 0) (hN' : N' ≠ 0) (R : M) (hR : C31.IsRotation R) (th g : ℝ)
    (h1 : R *ᵥ normalB g ≠ normalB g) (h2 : R *ᵥ normalB g ≠ -normalB g) :
    ((run p State.zero [⟨(0 : M), th, g⟩, ⟨(R - 1 : M), th, g⟩]).map Prod.fst =
      (run { p with N := N' } State.zero [⟨(0 : M), th, g⟩, ⟨(R - 1 : M), th, g⟩]).map Prod.fst) ↔ p.N = N' ∨ p.q0 = 0 := by
  obtain ⟨st, e1⟩ := rotate p hN R hR th g
  obtain ⟨st', e2⟩ := rotate { p with N := N' } hN' R hR th g
  rw [e1, e2]
  have hne : (R * outer (normalB g) (normalB g) * Rᵀ - outer (normalB g) (normalB g) : M) ≠ 0 := by
    rw [Ne, sub_eq_zero, ← outer_conj, outer_inj _ _ (rot_unit hR _ (normal_unit g)) (normal_unit g)]
    exact not_or.mpr ⟨h1, h2⟩
  simp only [Option.map_some, Option.some.injEq, List.cons.injEq, true_and, and_true]
  have ho : order { p with N := N' } th = order p th := rfl
  rw [ho]
  constructor
  · intro h
    have h3 := mul_right_cancel₀ hG.ne' (smul_left_injective ℝ hne h)
    have h4 : 9 * p.q0 / p.N = 9 * p.q0 / N' := by linarith
    rw [div_eq_div_iff hN hN'] at h4
    by_cases h0 : p.q0 = 0
    · exact .inr h0
    · exact .inl (mul_left_cancel₀ (mul_ne_zero (by norm_num : (9 : ℝ) ≠ 0) h0) h4.symm)
  · rintro (h | h)
    · rw [h]
    · rw [h]; simp

/-! ### Turning everything; the reference configuration -/

/-- Rotation about the third axis, the only one the director angle can follow. -/
def Rz (d : ℝ) : M := !![Real.cos d, -Real.sin d, 0; Real.sin d, Real.cos d, 0; 0, 0, 1]

theorem Rz_rotation (d : ℝ) : C31.IsRotation (Rz d) := by
  constructor
  · ext i j
    fin_cases i <;> fin_cases j <;> simp [Rz, Matrix.mul_apply, Fin.sum_univ_three] <;> nlinarith [Real.sin_sq_add_cos_sq d]
  · simp [Rz, Matrix.det_fin_three]
    nlinarith [Real.sin_sq_add_cos_sq d]

theorem normal_turn (g d : ℝ) : normalB (g + d) = Rz d *ᵥ normalB g := by
  ext i
  fin_cases i <;> simp [normalB, Rz, Matrix.mulVec, dotProduct, Fin.sum_univ_three, Real.cos_add, Real.sin_add] <;> ring

theorem mu0_turn (p : Brighenti) (R : M) (hR : R * Rᵀ = 1) (n : Fin 3 → ℝ) : (mu0 p (R *ᵥ n) : M) = R * mu0 p n * Rᵀ := by
  rw [mu0_eq, mu0_eq, outer_conj, Matrix.mul_add, Matrix.add_mul, Matrix.mul_smul, Matrix.smul_mul, Matrix.mul_smul, Matrix.smul_mul, Matrix.mul_one, hR]

theorem order_turn (q : ℝ) (R : M) (hR : R * Rᵀ = 1) (n : Fin 3 → ℝ) : (orderTensor q (R *ᵥ n) : M) = R * orderTensor q n * Rᵀ := by
  rw [orderTensor_eq, orderTensor_eq, outer_conj, Matrix.mul_add, Matrix.add_mul, Matrix.mul_smul, Matrix.smul_mul, Matrix.mul_smul, Matrix.smul_mul,
    Matrix.mul_one, hR]

theorem conj_inv {R : M} (hR : R * Rᵀ = 1) (U : M) (hU : U.det ≠ 0) : (R * U * Rᵀ)⁻¹ = R * U⁻¹ * Rᵀ := by
  refine Matrix.inv_eq_right_inv ?_
  calc R * U * Rᵀ * (R * U⁻¹ * Rᵀ) = R * (U * (Rᵀ * R) * U⁻¹) * Rᵀ := by simp only [Matrix.mul_assoc]
    _ = 1 := by rw [mul_eq_one_comm.mp hR, Matrix.mul_one, Matrix.mul_nonsing_inv _ (isUnit_iff_ne_zero.mpr hU), Matrix.mul_one, hR]

theorem conj_mul {R : M} (hR : Rᵀ * R = 1) (A B : M) : R * A * Rᵀ * (R * B * Rᵀ) = R * (A * B) * Rᵀ := by
  calc R * A * Rᵀ * (R * B * Rᵀ) = R * (A * (Rᵀ * R) * B) * Rᵀ := by simp only [Matrix.mul_assoc]
    _ = _ := by rw [hR, Matrix.mul_one]

theorem conj_T (R A : M) : (R * A * Rᵀ)ᵀ = R * Aᵀ * Rᵀ := by
  rw [Matrix.transpose_mul, Matrix.transpose_mul, Matrix.transpose_transpose, Matrix.mul_assoc]

theorem newMu_turn (p : Brighenti) (R : M) (hR : R * Rᵀ = 1) (mu : M) (th0 th : ℝ) (n : Fin 3 → ℝ) (Fh U : M) (hU : U.det ≠ 0) :
    newMu p (R * mu * Rᵀ) th0 th (R *ᵥ n) (R * Fh * Rᵀ) (R * U * Rᵀ) = R * newMu p mu th0 th n Fh U * Rᵀ := by
  have hR' : Rᵀ * R = 1 := mul_eq_one_comm.mp hR
  have lin : ∀ A B : M, R * A * Rᵀ - R * B * Rᵀ = R * (A - B) * Rᵀ := fun A B => by rw [Matrix.mul_sub, Matrix.sub_mul]
  have lin' : ∀ A B : M, R * A * Rᵀ + R * B * Rᵀ = R * (A + B) * Rᵀ := fun A B => by rw [Matrix.mul_add, Matrix.add_mul]
  have lins : ∀ (c : ℝ) (A : M), c • (R * A * Rᵀ) = R * (c • A) * Rᵀ := fun c A => by rw [Matrix.mul_smul, Matrix.smul_mul]
  simp only [newMu, order_turn _ R hR, conj_inv hR U hU, conj_mul hR', conj_T, lin, lin', lins]

theorem stress_turn (p : Brighenti) (R : M) (hR : C31.IsRotation R) (F mu : M) (n : Fin 3 → ℝ) :
    stressOf p (R * F) (R * mu * Rᵀ) (R *ᵥ n) = R * stressOf p F mu n * Rᵀ := by
  have hRR : R * Rᵀ = 1 := mul_eq_one_comm.mp hR.1
  rw [stressOf, stressOf, Matrix.det_mul, hR.2, one_mul, mu0_turn p R hRR]
  simp only [Matrix.mul_smul, Matrix.smul_mul, Matrix.mul_add, Matrix.add_mul, Matrix.mul_sub, Matrix.sub_mul, Matrix.mul_one, hRR]

def turnState (R : M) (st : State) : State := ⟨(R * (st.F : M) : M), (R * (st.mu : M) * Rᵀ : M), st.temperature⟩

def turnCall (d : ℝ) (c : Call) : Call := ⟨(Rz d * (1 + (c.du : M)) - 1 : M), c.theta, c.gamma + d⟩

theorem respond_turn (p : Brighenti) (hN : p.N ≠ 0) (d : ℝ) (st : State) (hst : Ok st) (c : Call) (hc : 0 < ((1 : M) + c.du).det) :
    respond p (turnState (Rz d) st) (turnCall d c).du (turnCall d c).theta (turnCall d c).gamma =
      (respond p st c.du c.theta c.gamma).map fun r => ((Rz d * (r.1 : M) * (Rz d)ᵀ : M), turnState (Rz d) r.2) := by
  have hR := Rz_rotation d
  generalize hRd : Rz d = R at hR
  have hRR : R * Rᵀ = 1 := mul_eq_one_comm.mp hR.1
  have hF : ((turnCall d c).du : M) + 1 = R * (c.du + 1) := by
    show (Rz d * (1 + (c.du : M)) - 1 : M) + 1 = _
    rw [hRd, sub_add_cancel, add_comm (1 : M)]
  have hn : normalB (turnCall d c).gamma = R *ᵥ normalB c.gamma := by rw [turnCall, normal_turn, hRd]
  have hc' : 0 < ((turnCall d c).du + 1 : M).det := by rw [hF, Matrix.det_mul, hR.2, one_mul, add_comm]; exact hc
  have hth : (turnCall d c).theta = c.theta := rfl
  rw [hth]
  have hc2 := hc
  rw [add_comm] at hc2
  -- from a used state
  have used : ∀ st : State, (st.F : M).det ≠ 0 →
      respond p (turnState R st) (turnCall d c).du c.theta (turnCall d c).gamma =
        (respond p st c.du c.theta c.gamma).map fun r => ((R * (r.1 : M) * Rᵀ : M), turnState R r.2) := fun st h0 => by
    obtain ⟨U, hU, e1, e2⟩ := respond_used p hN st h0 c.du hc2 c.theta c.gamma
    have h0' : ((turnState R st).F : M).det ≠ 0 := by
      show (R * (st.F : M)).det ≠ 0
      rw [Matrix.det_mul, hR.2, one_mul]; exact h0
    obtain ⟨U', hU', e1', e2'⟩ := respond_used p hN (turnState R st) h0' (turnCall d c).du hc' c.theta (turnCall d c).gamma
    have hFh : ((turnCall d c).du + 1 : M) * ((turnState R st).F : M)⁻¹ = R * ((c.du + 1) * (st.F : M)⁻¹) * Rᵀ := by
      rw [hF]
      show R * (c.du + 1) * (R * (st.F : M))⁻¹ = _
      rw [Matrix.mul_inv_rev, Matrix.inv_eq_right_inv hRR]
      simp only [Matrix.mul_assoc]
    rw [hFh, conj_T, conj_mul hR.1, sqrt_conj R hRR, e1] at e1'
    cases e1'
    rw [e2', e2, Option.map_some, hFh, hn, hF]
    have e3 : newMu p (turnState R st).mu (turnState R st).temperature c.theta (R *ᵥ normalB c.gamma) (R * ((c.du + 1) * (st.F : M)⁻¹) * Rᵀ)
        (R * U * Rᵀ) = R * newMu p st.mu st.temperature c.theta (normalB c.gamma) ((c.du + 1) * (st.F : M)⁻¹) U * Rᵀ :=
      newMu_turn p R hRR _ _ _ _ _ _ (det_ne hU)
    rw [e3, stress_turn p R hR]
    rfl
  rcases hst with h0 | ⟨h0, -⟩
  · have e1 : respond p st c.du c.theta c.gamma = respond p ⟨(c.du + 1 : M), mu0 p (normalB c.gamma), c.theta⟩ c.du c.theta c.gamma :=
      respond_fresh p st h0 c.du hc2 c.theta c.gamma
    have e2 : respond p (turnState R st) (turnCall d c).du c.theta (turnCall d c).gamma =
        respond p (turnState R ⟨(c.du + 1 : M), mu0 p (normalB c.gamma), c.theta⟩) (turnCall d c).du c.theta (turnCall d c).gamma := by
      have h0' : ((turnState R st).F : M) = 0 := by
        show R * (st.F : M) = 0
        rw [h0, Matrix.mul_zero]
      have h1 : turnState R ⟨(c.du + 1 : M), mu0 p (normalB c.gamma), c.theta⟩ =
          ⟨((turnCall d c).du + 1 : M), mu0 p (normalB (turnCall d c).gamma), c.theta⟩ := by
        rw [turnState, hF, hn, mu0_turn p R hRR]
      rw [h1]
      exact respond_fresh p _ h0' _ hc' c.theta _
    rw [e1, e2]
    exact used _ hc2.ne'
  · exact used st h0.ne'

theorem run_turn (p : Brighenti) (hN : p.N ≠ 0) (d : ℝ) : ∀ (calls : List Call) (st : State), Ok st → (∀ c ∈ calls, 0 < ((1 : M) + c.du).det) →
    run p (turnState (Rz d) st) (calls.map (turnCall d)) =
      (run p st calls).map fun r => (r.1.map fun s => (Rz d * (s : M) * (Rz d)ᵀ : M), turnState (Rz d) r.2)
  | [], st, _, _ => rfl
  | c :: cs, st, hst, h => by
    obtain ⟨s, st1, h1, -, h3, -, -⟩ := respond_ok p hN st hst c.du (h c (by simp)) c.theta c.gamma
    have ih := run_turn p hN d cs st1 h3 fun c hc => h c (by simp [hc])
    rw [List.map_cons, run, respond_turn p hN d st hst c (h c (by simp)), run, h1]
    simp only [Option.map_some, Option.bind_some]
    rw [ih]
    cases run p st1 cs <;> rfl

/-- **C62, turning specimen and director together about the third axis turns the stress**: for every history, replacing each deformation `F` by
`R F` and each director angle `γ` by `γ + d` turns every stress by `R`. -/
theorem C62_turn (p : Brighenti) (hN : p.N ≠ 0) (d : ℝ) (calls : List Call) (h : ∀ c ∈ calls, 0 < ((1 : M) + c.du).det) (out : List M3) (st : State)
    (hr : run p State.zero calls = some (out, st)) :
    ∃ st', run p State.zero (calls.map fun c => ⟨(Rz d * (1 + (c.du : M)) - 1 : M), c.theta, c.gamma + d⟩) =
      some (out.map fun s => (Rz d * (s : M) * (Rz d)ᵀ : M), st') := by
  have hz : turnState (Rz d) State.zero = State.zero := by
    have h0 : ((fun _ _ => 0 : Fin 3 → Fin 3 → ℝ)) = (0 : M) := rfl
    rw [turnState, State.zero]
    simp only [h0, Matrix.mul_zero, Matrix.zero_mul]
  have := run_turn p hN d calls State.zero (.inl rfl) h
  rw [hz, hr] at this
  exact ⟨_, this⟩

def refState (Q : M) (st : State) : State := ⟨((st.F : M) * Q : M), st.mu, st.temperature⟩

theorem respond_ref (p : Brighenti) (hN : p.N ≠ 0) (Q : M) (hQ : Q.det = 1) (st : State) (hst : Ok st) (c : Call) (hc : 0 < ((1 : M) + c.du).det) :
    respond p (refState Q st) ((1 + (c.du : M)) * Q - 1 : M) c.theta c.gamma =
      (respond p st c.du c.theta c.gamma).map fun r => (r.1, refState Q r.2) := by
  have hc2 := hc
  rw [add_comm] at hc2
  have hF : ((1 + (c.du : M)) * Q - 1 : M) + 1 = (c.du + 1) * Q := by rw [sub_add_cancel, add_comm]
  have hc' : 0 < (((1 + (c.du : M)) * Q - 1 : M) + 1).det := by rw [hF, Matrix.det_mul, hQ, mul_one]; exact hc2
  have hQu : IsUnit Q.det := by rw [hQ]; exact isUnit_one
  have used : ∀ st : State, (st.F : M).det ≠ 0 →
      respond p (refState Q st) ((1 + (c.du : M)) * Q - 1 : M) c.theta c.gamma =
        (respond p st c.du c.theta c.gamma).map fun r => (r.1, refState Q r.2) := fun st h0 => by
    obtain ⟨U, hU, e1, e2⟩ := respond_used p hN st h0 c.du hc2 c.theta c.gamma
    have h0' : ((refState Q st).F : M).det ≠ 0 := by
      show ((st.F : M) * Q).det ≠ 0
      rw [Matrix.det_mul, hQ, mul_one]; exact h0
    obtain ⟨U', hU', e1', e2'⟩ := respond_used p hN (refState Q st) h0' _ hc' c.theta c.gamma
    have hFh : (((1 + (c.du : M)) * Q - 1 : M) + 1) * ((refState Q st).F : M)⁻¹ = (c.du + 1) * (st.F : M)⁻¹ := by
      rw [hF]
      show (c.du + 1) * Q * ((st.F : M) * Q)⁻¹ = _
      rw [Matrix.mul_inv_rev, Matrix.mul_assoc, ← Matrix.mul_assoc Q, Matrix.mul_nonsing_inv _ hQu, Matrix.one_mul]
    rw [hFh, e1] at e1'
    cases e1'
    rw [e2', e2, Option.map_some, hFh, hF]
    have e3 : ∀ mu, stressOf p ((c.du + 1) * Q) mu (normalB c.gamma) = stressOf p (c.du + 1) mu (normalB c.gamma) := fun mu => by
      rw [stressOf, stressOf, Matrix.det_mul, hQ, mul_one]
    rw [e3]
    rfl
  rcases hst with h0 | ⟨h0, -⟩
  · have e1 : respond p st c.du c.theta c.gamma = respond p ⟨(c.du + 1 : M), mu0 p (normalB c.gamma), c.theta⟩ c.du c.theta c.gamma :=
      respond_fresh p st h0 c.du hc2 c.theta c.gamma
    have e2 : respond p (refState Q st) ((1 + (c.du : M)) * Q - 1 : M) c.theta c.gamma =
        respond p (refState Q ⟨(c.du + 1 : M), mu0 p (normalB c.gamma), c.theta⟩) ((1 + (c.du : M)) * Q - 1 : M) c.theta c.gamma := by
      have h0' : ((refState Q st).F : M) = 0 := by
        show (st.F : M) * Q = 0
        rw [h0, Matrix.zero_mul]
      have h1 : refState Q ⟨(c.du + 1 : M), mu0 p (normalB c.gamma), c.theta⟩ =
          ⟨(((1 + (c.du : M)) * Q - 1 : M) + 1 : M), mu0 p (normalB c.gamma), c.theta⟩ := by rw [refState, hF]
      rw [h1]
      exact respond_fresh p _ h0' _ hc' c.theta _
    rw [e1, e2]
    exact used _ hc2.ne'
  · exact used st h0.ne'

theorem run_ref (p : Brighenti) (hN : p.N ≠ 0) (Q : M) (hQ : Q.det = 1) : ∀ (calls : List Call) (st : State), Ok st →
    (∀ c ∈ calls, 0 < ((1 : M) + c.du).det) →
    run p (refState Q st) (calls.map fun c => ⟨((1 + (c.du : M)) * Q - 1 : M), c.theta, c.gamma⟩) =
      (run p st calls).map fun r => (r.1, refState Q r.2)
  | [], st, _, _ => rfl
  | c :: cs, st, hst, h => by
    obtain ⟨s, st1, h1, -, h3, -, -⟩ := respond_ok p hN st hst c.du (h c (by simp)) c.theta c.gamma
    have ih := run_ref p hN Q hQ cs st1 h3 fun c hc => h c (by simp [hc])
    rw [List.map_cons, run]
    simp only
    rw [respond_ref p hN Q hQ st hst c (h c (by simp)), run, h1]
    simp only [Option.map_some, Option.bind_some]
    rw [ih]
    cases run p st1 cs <;> rfl

/-- **C62, the reference configuration is forgotten** (violation): for every history, deforming the body by any volume-preserving `Q` beforehand —
so that every deformation gradient is `F Q`, shears included — changes no stress at any step. -/
theorem C62_reference_wrong (p : Brighenti) (hN : p.N ≠ 0) (Q : M) (hQ : Q.det = 1) (calls : List Call)
    (h : ∀ c ∈ calls, 0 < ((1 : M) + c.du).det) :
    (run p State.zero (calls.map fun c => ⟨((1 + (c.du : M)) * Q - 1 : M), c.theta, c.gamma⟩)).map Prod.fst =
      (run p State.zero calls).map Prod.fst := by
  have hz : refState Q State.zero = State.zero := by
    have h0 : ((fun _ _ => 0 : Fin 3 → Fin 3 → ℝ)) = (0 : M) := rfl
    rw [refState, State.zero]
    simp only [h0, Matrix.zero_mul]
  have := run_ref p hN Q hQ calls State.zero (.inl rfl) h
  rw [hz] at this
  rw [this]
  cases run p State.zero calls <;> rfl

/-! ## Bertoldi -/

theorem strain_eq (H : M) : (strain H : M) = (1 / 2 : ℝ) • ((1 + H)ᵀ * (1 + H) - 1) := by
  ext i j
  rw [add_comm (1 : M) H]
  show 1 / 2 * (dot (transpose fun i j => H i j + identity 3 i j) (fun i j => H i j + identity 3 i j) i j - identity 3 i j) = _
  rw [F_eq, dot_eq, transpose_eq, identity_eq]
  rfl

theorem strain_symm (H : M) : (strain H : M)ᵀ = strain H := by
  rw [strain_eq, Matrix.transpose_smul, Matrix.transpose_sub, Matrix.transpose_mul, Matrix.transpose_transpose, Matrix.transpose_one]

/-- The second Piola-Kirchhoff stress. -/
def pk2 (p : Bertoldi) (lm : ℝ × ℝ) (H : M) (St gamma eta : ℝ) : M :=
  (lm.1 * (strain H : M).trace) • 1 + (2 * lm.2) • strain H -
    (1 / 2 * p.beta * (St - p.S0)) • ((3 : ℝ) • outer (normalL gamma eta) (normalL gamma eta) - 1 : M)

theorem bertoldi_eq (p : Bertoldi) (H : M) (St gamma eta : ℝ) :
    bertoldi p H St gamma eta = (lame p).bind fun lm => if (1 + H).det = 0 then none else
      some (((1 + H).det)⁻¹ • ((1 + H) * pk2 p lm H St gamma eta * (1 + H)ᵀ) : M) := by
  rw [bertoldi]
  congr 1
  funext lm
  rw [add_comm (1 : M) H]
  simp only [F_eq, det3_eq]
  split
  · rfl
  · have h1 : (fun i j => 1 / (H + 1 : M).det * (H i j + identity 3 i j) : Fin 3 → Fin 3 → ℝ) = (((H + 1 : M).det)⁻¹ • (H + 1) : M) := by
      funext i j; rw [one_div, identity_eq]; rfl
    have h2 : (fun i j => lm.1 * tr (strain H) * identity 3 i j + 2 * lm.2 * strain H i j +
        -(1 / 2) * p.beta * (St - p.S0) * (3 * outer (normalL gamma eta) (normalL gamma eta) i j - identity 3 i j) : Fin 3 → Fin 3 → ℝ) =
        pk2 p lm H St gamma eta := by
      funext i j
      simp only [pk2, tr_eq, identity_eq, Matrix.add_apply, Matrix.sub_apply, Matrix.smul_apply, smul_eq_mul]
      ring
    refine congrArg some ?_
    rw [h1, h2]
    show dot (dot _ _) _ = _
    rw [dot_eq, dot_eq, transpose_eq, Matrix.smul_mul, Matrix.smul_mul]

theorem pk2_symm (p : Bertoldi) (lm : ℝ × ℝ) (H : M) (St gamma eta : ℝ) : (pk2 p lm H St gamma eta)ᵀ = pk2 p lm H St gamma eta := by
  simp only [pk2, Matrix.transpose_add, Matrix.transpose_sub, Matrix.transpose_smul, Matrix.transpose_one, strain_symm, outer_symm]

theorem lame_some (p : Bertoldi) (h1 : p.poisson ≠ -1) (h2 : p.poisson ≠ 1 / 2) :
    lame p = some (p.poisson * p.young / (1 + p.poisson) / (1 - 2 * p.poisson), p.young / 2 / (1 + p.poisson)) := by
  rw [lame, if_neg]
  rintro (h | h)
  · exact h1 (by linarith)
  · exact h2 (by linarith)

/-- **C62, Bertoldi: symmetric and frame-indifferent**: for every order parameter and director the stress is defined exactly for invertible
deformations (when the Poisson ratio is neither `-1` nor `1/2`), symmetric, and turns with a superposed rotation. -/
theorem C62_bertoldi_frame (p : Bertoldi) (h1 : p.poisson ≠ -1) (h2 : p.poisson ≠ 1 / 2) (St gamma eta : ℝ) :
    C31.SymmetricOn (fun H => bertoldi p H St gamma eta) (fun H => (1 + H).det ≠ 0) ∧ C31.FrameIndifferent fun H => bertoldi p H St gamma eta := by
  have hl := lame_some p h1 h2
  refine ⟨⟨fun H => ?_, fun H s hs => ?_⟩, fun Q H hQ => ?_⟩
  · simp only [bertoldi_eq, hl, Option.bind_some]
    split <;> simp_all
  · simp only [bertoldi_eq, hl, Option.bind_some] at hs
    split at hs
    · cases hs
    · cases hs
      rw [Matrix.transpose_smul, Matrix.transpose_mul, Matrix.transpose_mul, Matrix.transpose_transpose, pk2_symm, Matrix.mul_assoc]
  · have hF : (1 : M) + (Q * (1 + H) - 1) = Q * (1 + H) := by abel
    have hE : (strain (Q * (1 + H) - 1) : M) = strain H := by
      rw [strain_eq, strain_eq, hF, Matrix.transpose_mul, Matrix.mul_assoc, ← Matrix.mul_assoc Qᵀ, hQ.1, Matrix.one_mul]
    have hS : ∀ lm, pk2 p lm (Q * (1 + H) - 1) St gamma eta = pk2 p lm H St gamma eta := fun lm => by rw [pk2, pk2, hE]
    simp only [bertoldi_eq, hl, Option.bind_some, hF, hS, Matrix.det_mul, hQ.2, one_mul]
    split
    · rfl
    · rw [Option.map_some]
      congr 1
      rw [Matrix.mul_smul, Matrix.smul_mul, Matrix.transpose_mul]
      simp only [Matrix.mul_assoc]

theorem energy_eq (p : Bertoldi) (lm : ℝ × ℝ) (hl : lame p = some lm) (H : M) (St gamma eta : ℝ) :
    energy p H St gamma eta = some (1 / 2 * lm.1 * (strain H : M).trace ^ 2 + lm.2 * ((strain H : M) * strain H).trace -
      1 / 2 * p.beta * (St - p.S0) * (((3 : ℝ) • outer (normalL gamma eta) (normalL gamma eta) - 1 : M) * strain H).trace) := by
  have hi : ∀ A : M, inner A (strain H) = (A * strain H).trace := fun A => by rw [inner_eq, C33.inner_trace, strain_symm]
  rw [energy, hl, Option.map_some]
  have h2 : (fun i j => 3 * outer (normalL gamma eta) (normalL gamma eta) i j - identity 3 i j : Fin 3 → Fin 3 → ℝ) =
      ((3 : ℝ) • outer (normalL gamma eta) (normalL gamma eta) - 1 : M) := by
    funext i j; rw [identity_eq]; rfl
  congr 1
  simp only [h2, tr_eq]
  rw [hi, hi]
  ring

/-- **C62, Bertoldi: the stress is the gradient of the energy the model reports**: along every differentiable path of deformations, with order
parameter and director fixed, `calculateStrainEnergy` changes at the rate of work of the flux the solver integrates. -/
theorem C62_bertoldi_energy (p : Bertoldi) (St gamma eta : ℝ) (H : ℝ → M) (H' P : M) (hH : ∀ i j, HasDerivAt (fun t => H t i j) (H' i j) 0)
    (hP : Piola.materialFlux Piola.ops3 true (fun H => bertoldi p H St gamma eta) (H 0) = some P) :
    ∃ W : ℝ → ℝ, (∀ t, energy p (H t) St gamma eta = some (W t)) ∧ HasDerivAt W (∑ i, ∑ j, P i j * H' i j) 0 := by
  unfold Piola.materialFlux at hP
  beta_reduce at hP
  rw [bertoldi_eq] at hP
  cases hl : lame p with
  | none => rw [hl] at hP; cases hP
  | some lm =>
  rw [hl, Option.bind_some] at hP
  split at hP
  · cases hP
  rename_i hd
  rw [Option.bind_some, C33.flux_eq C33.exact3, if_pos rfl, if_neg hd] at hP
  have hPF : P = (1 + H 0) * pk2 p lm (H 0) St gamma eta := by
    have := Option.some.inj hP
    rw [← this]
    generalize 1 + H 0 = F at hd ⊢
    rw [Matrix.smul_mul, smul_smul, mul_inv_cancel₀ hd, one_smul, Matrix.mul_assoc, ← Matrix.transpose_mul,
      Matrix.nonsing_inv_mul _ (isUnit_iff_ne_zero.mpr hd), Matrix.transpose_one, Matrix.mul_one]
  refine ⟨_, fun t => energy_eq p lm hl (H t) St gamma eta, ?_⟩
  have hF : C31.HD (fun t => 1 + H t) H' := C31.one_add hH
  have hE : C31.HD (fun t => (strain (H t) : M)) _ :=
    (by simp only [strain_eq]; exact C31.HD.smul (hasDerivAt_const 0 (1 / 2 : ℝ)) ((hF.transpose.mul hF).sub (C31.HD.const 1)))
  have hT := hE.trace
  have hEE := (hE.mul hE).trace
  set D : M := (3 : ℝ) • outer (normalL gamma eta) (normalL gamma eta) - 1 with hD
  have hDs : Dᵀ = D := by rw [hD, Matrix.transpose_sub, Matrix.transpose_smul, Matrix.transpose_one, outer_symm]
  have hDE := ((C31.HD.const D).mul hE).trace
  have hW := (((hT.pow 2).const_mul (1 / 2 * lm.1)).add (hEE.const_mul lm.2)).sub (hDE.const_mul (1 / 2 * p.beta * (St - p.S0)))
  refine hW.congr_deriv ?_
  rw [hPF, C33.inner_trace, pk2, ← hD]
  have hsym := strain_symm (H 0)
  generalize (strain (H 0) : M) = E at hsym ⊢
  generalize 1 + H 0 = F
  simp only [zero_smul, zero_add, sub_zero, Matrix.zero_mul]
  have e1 : (H'ᵀ * F).trace = (F * H'ᵀ).trace := Matrix.trace_mul_comm _ _
  have e2 : (Fᵀ * H').trace = (F * H'ᵀ).trace := by
    rw [← Matrix.trace_transpose, Matrix.transpose_mul, Matrix.transpose_transpose, Matrix.trace_mul_comm]
  have gen : ∀ X : M, Xᵀ = X → (X * (H'ᵀ * F)).trace = (F * X * H'ᵀ).trace ∧ (X * (Fᵀ * H')).trace = (F * X * H'ᵀ).trace := fun X hX => by
    have a : (X * (H'ᵀ * F)).trace = (F * X * H'ᵀ).trace := by rw [← Matrix.mul_assoc, Matrix.trace_mul_comm, Matrix.mul_assoc]
    refine ⟨a, ?_⟩
    rw [← Matrix.trace_transpose, Matrix.transpose_mul, Matrix.transpose_mul, Matrix.transpose_transpose, hX, Matrix.trace_mul_comm, a]
  have e5 : ((H'ᵀ * F) * E).trace = (F * E * H'ᵀ).trace := by rw [Matrix.trace_mul_comm, (gen E hsym).1]
  have e6 : ((Fᵀ * H') * E).trace = (F * E * H'ᵀ).trace := by rw [Matrix.trace_mul_comm, (gen E hsym).2]
  simp only [Matrix.trace_add, Matrix.trace_smul, Matrix.mul_add, Matrix.add_mul, Matrix.mul_smul, Matrix.smul_mul,
    Matrix.mul_sub F, Matrix.sub_mul, Matrix.trace_sub, Matrix.mul_one, smul_eq_mul, e1, e2, (gen E hsym).1, (gen E hsym).2, (gen D hDs).1,
    (gen D hDs).2, e5, e6]
  ring

theorem normalL_unit (g e : ℝ) : normalL g e ⬝ᵥ normalL g e = 1 := by
  simp only [normalL, dotProduct, Fin.sum_univ_three]
  simp
  nlinarith [Real.sin_sq_add_cos_sq g, Real.sin_sq_add_cos_sq e]

/-- **C62, Bertoldi: activation**: the director is a unit vector, and in the undeformed state the stress is the traceless
`-β/2 (S - S₀) (3 n ⊗ n - 1)`; it vanishes exactly when the order parameter has its initial value. -/
theorem C62_bertoldi_rest (p : Bertoldi) (h1 : p.poisson ≠ -1) (h2 : p.poisson ≠ 1 / 2) (hb : p.beta ≠ 0) (St gamma eta : ℝ) :
    normalL gamma eta ⬝ᵥ normalL gamma eta = 1 ∧ ∃ s : M, bertoldi p (0 : M) St gamma eta = some s ∧ s.trace = 0 ∧
      s = -(p.beta / 2 * (St - p.S0)) • ((3 : ℝ) • Matrix.vecMulVec (normalL gamma eta) (normalL gamma eta) - 1) ∧ (s = 0 ↔ St = p.S0) := by
  have hu := normalL_unit gamma eta
  refine ⟨hu, -(p.beta / 2 * (St - p.S0)) • ((3 : ℝ) • Matrix.vecMulVec (normalL gamma eta) (normalL gamma eta) - 1), ?_, ?_, rfl, ?_⟩
  · rw [bertoldi_eq, lame_some p h1 h2, Option.bind_some, if_neg (by simp)]
    have hE : (strain (0 : M) : M) = 0 := by rw [strain_eq]; simp
    simp only [pk2, hE, Matrix.trace_zero, mul_zero, zero_smul, smul_zero, add_zero, zero_sub, Matrix.det_one, inv_one, one_smul, Matrix.one_mul,
      Matrix.transpose_one, Matrix.mul_one, neg_smul]
    congr 3
    ring
  · rw [Matrix.trace_smul, Matrix.trace_sub, Matrix.trace_smul, Matrix.trace_vecMulVec, hu, Matrix.trace_one]
    simp
  · rw [smul_eq_zero, neg_eq_zero, mul_eq_zero, sub_eq_zero]
    have hne : ((3 : ℝ) • Matrix.vecMulVec (normalL gamma eta) (normalL gamma eta) - 1 : M) ≠ 0 := by
      intro h
      have h3 := congrArg (fun A : M => normalL gamma eta ⬝ᵥ (A *ᵥ normalL gamma eta)) h
      simp only [Matrix.sub_mulVec, Matrix.smul_mulVec, Matrix.vecMulVec_mulVec, Matrix.one_mulVec, Matrix.zero_mulVec, dotProduct_zero, hu,
        MulOpposite.op_one, one_smul, dotProduct_sub, dotProduct_smul, smul_eq_mul] at h3
      norm_num at h3
    constructor
    · rintro ((h | h) | h)
      · exact absurd h (by positivity)
      · exact h
      · exact absurd h hne
    · exact fun h => .inl (.inr h)

/-- **C62, Bertoldi: accepted parameters** (violation): the constructor accepts every positive Poisson ratio.  At one half the moduli divide by
zero; otherwise, without activation, the energy is nonnegative for every deformation exactly when the ratio is below one half. -/
theorem C62_bertoldi_poisson_wrong (rho E nu S0 beta : ℝ) (p : Bertoldi) (hp : mkBertoldi rho E nu S0 beta = some p) (gamma eta : ℝ) :
    (nu = 1 / 2 → ∀ H St, bertoldi p H St gamma eta = none ∧ energy p H St gamma eta = none) ∧
    (nu ≠ 1 / 2 → ((∀ (H : M) W, energy p H S0 gamma eta = some W → 0 ≤ W) ↔ nu < 1 / 2)) := by
  unfold mkBertoldi at hp
  split at hp
  · cases hp
  split at hp
  · cases hp
  split at hp
  · cases hp
  split at hp
  · cases hp
  split at hp
  · cases hp
  rename_i h1 h2 h3 h4 h5
  push Not at h1 h2 h3 h4 h5
  cases hp
  constructor
  · rintro h H St
    have hl : lame ⟨rho, E, nu, S0, beta⟩ = none := by
      rw [lame, if_pos]
      right
      simp only
      linarith
    rw [bertoldi_eq, energy, hl]
    exact ⟨rfl, rfl⟩
  · intro h
    have hl := lame_some ⟨rho, E, nu, S0, beta⟩ (by simp only; linarith) h
    simp only at hl
    set lam := nu * E / (1 + nu) / (1 - 2 * nu)
    set mu := E / 2 / (1 + nu) with hmu
    have hmu0 : 0 < mu := by positivity
    have hW : ∀ H : M, energy ⟨rho, E, nu, S0, beta⟩ H S0 gamma eta =
        some (1 / 2 * lam * (strain H : M).trace ^ 2 + mu * ((strain H : M) * strain H).trace) := fun H => by
      rw [energy_eq _ _ hl]
      simp
    have h3l : 3 * lam + 2 * mu = E / (1 - 2 * nu) := by
      have hA : 1 - 2 * nu ≠ 0 := fun h0 => h (by linarith)
      have hB : 1 + nu ≠ 0 := by linarith
      have hl : lam * ((1 + nu) * (1 - 2 * nu)) = nu * E := by
        simp only [lam]; rw [div_div, div_mul_cancel₀ _ (mul_ne_zero hB hA)]
      have hm : mu * (1 + nu) = E / 2 := by rw [hmu, div_mul_cancel₀ _ hB]
      rw [eq_div_iff hA]
      refine mul_left_cancel₀ hB ?_
      linear_combination 3 * hl + 2 * (1 - 2 * nu) * hm
    constructor
    · intro hall
      by_contra hn
      have hneg : 3 * lam + 2 * mu < 0 := by
        rw [h3l]
        exact div_neg_of_pos_of_neg h2 (by rcases lt_or_gt_of_ne h with h | h <;> linarith)
      have := hall 1 _ (hW 1)
      have hE : (strain (1 : M) : M) = (3 / 2 : ℝ) • 1 := by
        rw [strain_eq, Matrix.transpose_add, Matrix.transpose_one]
        rw [← two_smul ℝ (1 : M), Matrix.smul_mul, Matrix.mul_smul, Matrix.one_mul, smul_smul]
        nth_rewrite 2 [← one_smul ℝ (1 : M)]
        rw [← sub_smul, smul_smul]
        norm_num
      rw [hE, Matrix.smul_mul, Matrix.mul_smul, Matrix.one_mul, Matrix.trace_smul, Matrix.trace_smul, Matrix.trace_one] at this
      simp at this
      nlinarith
    · intro hlt H W hw
      rw [hW] at hw
      cases hw
      have hlam : 0 < lam := div_pos (by positivity) (by linarith)
      have hEE : 0 ≤ ((strain H : M) * strain H).trace := by
        have := C33.inner_trace (strain H) (strain H)
        rw [strain_symm] at this
        rw [← this]
        exact Finset.sum_nonneg fun i _ => Finset.sum_nonneg fun j _ => mul_self_nonneg _
      positivity

/-! ### Examples -/

/-- A stretched direction: the square root of `diag(4, 1, 1)` is computed. -/
example : ∃ B, matrixSqrt (Matrix.diagonal ![4, 1, 1] : M) = some B ∧ B.PosDef ∧ ∃ b : ℝ, B *ᵥ Pi.single 0 1 = b • (Pi.single 0 1 : Fin 3 → ℝ) ∧
    2 ≤ b ∧ b ≤ 2 * (1 + 1 / 10 ^ 18) := by
  have hA : (Matrix.diagonal ![4, 1, 1] : M).PosDef := Matrix.PosDef.diagonal fun i => by fin_cases i <;> norm_num
  obtain ⟨B, h1, h2, -⟩ := C62_sqrt _ hA
  have hv : (Matrix.diagonal ![4, 1, 1] : M) *ᵥ Pi.single 0 1 = ((2 : ℝ) * 2) • (Pi.single 0 1 : Fin 3 → ℝ) := by
    ext i
    fin_cases i <;> simp [Matrix.mulVec_diagonal]
    norm_num
  exact ⟨B, h1, h2, C62_sqrt_accurate _ B hA h1 2 _ (by norm_num) (by norm_num) hv⟩

def exLCE : Brighenti := ⟨1, 2, 3, 10, 1 / 2, 300, 4⟩

example : mkBrighenti 1 2 3 10 (1 / 2) 300 4 = some exLCE := by
  simp only [mkBrighenti]
  norm_num [exLCE]

/-- Shear, then stretch while heating: defined, with symmetric stresses. -/
example : ∃ out st, run exLCE State.zero [⟨!![0, 1, 0; 0, 0, 0; 0, 0, 0], 290, 0⟩, ⟨!![1, 1, 0; 0, 0, 0; 0, 0, 0], 310, 1⟩] = some (out, st) ∧
    out.length = 2 ∧ ∀ s ∈ out, (s : M)ᵀ = s := by
  obtain ⟨out, st, h1, h2, h3, -⟩ := C62_history exLCE (by norm_num [exLCE])
    [⟨!![0, 1, 0; 0, 0, 0; 0, 0, 0], 290, 0⟩, ⟨!![1, 1, 0; 0, 0, 0; 0, 0, 0], 310, 1⟩] (by simp [Matrix.det_fin_three])
  exact ⟨out, st, h1, h2, h3⟩

/-- Simple shear at a fresh point: no stress at all. -/
example : ∃ st, respond exLCE State.zero !![0, 1, 0; 0, 0, 0; 0, 0, 0] 290 0 = some ((0 : M), st) := by
  have hd : (1 + !![0, 1, 0; 0, 0, 0; 0, 0, 0] : M).det = 1 := by simp [Matrix.det_fin_three]
  have h := C62_first_wrong exLCE (by norm_num [exLCE]) !![0, 1, 0; 0, 0, 0; 0, 0, 0] (by rw [hd]; exact one_pos) 290 0
  rw [hd, Real.log_one, mul_zero, zero_div, zero_smul] at h
  exact ⟨_, h⟩

/-- A quarter turn about the third axis stresses the body at the transition temperature. -/
example : ∃ s st, run exLCE State.zero [⟨(0 : M), 300, 0⟩, ⟨(Rz (Real.pi / 2) - 1 : M), 300, 0⟩] = some ([(0 : M), s], st) ∧ (s : M) ≠ 0 := by
  obtain ⟨s, st, h1, h2⟩ := C62_rotation_wrong exLCE (by norm_num [exLCE]) (by norm_num [exLCE]) _ (Rz_rotation (Real.pi / 2)) 300 0
  refine ⟨s, st, h1, fun h0 => ?_⟩
  rcases h2.mp h0 with h | h | h | h
  · norm_num [exLCE] at h
  · norm_num [exLCE] at h
  · have := congrFun h 0
    simp [Rz, normalB, Matrix.mulVec, dotProduct, Fin.sum_univ_three] at this
  · have := congrFun h 0
    simp [Rz, normalB, Matrix.mulVec, dotProduct, Fin.sum_univ_three] at this

/-- A shear of the reference configuration goes unnoticed. -/
example : (run exLCE State.zero (([⟨(0 : M), 290, 0⟩, ⟨!![1, 0, 0; 0, 0, 0; 0, 0, 0], 290, 0⟩] : List Call).map fun c =>
      ⟨((1 + (c.du : M)) * !![1, 5, 0; 0, 1, 0; 0, 0, 1] - 1 : M), c.theta, c.gamma⟩)).map Prod.fst =
    (run exLCE State.zero [⟨(0 : M), 290, 0⟩, ⟨!![1, 0, 0; 0, 0, 0; 0, 0, 0], 290, 0⟩]).map Prod.fst :=
  C62_reference_wrong exLCE (by norm_num [exLCE]) _ (by simp [Matrix.det_fin_three]) _ (by simp [Matrix.det_fin_three])

def exBertoldi : Bertoldi := ⟨1, 10, 1 / 4, 1 / 2, 3⟩

example : mkBertoldi 1 10 (1 / 4) (1 / 2) 3 = some exBertoldi ∧ (mkBertoldi 1 10 (3 / 4) (1 / 2) 3).isSome := by
  simp only [mkBertoldi]
  norm_num [exBertoldi]

/-- Losing order stresses the undeformed body. -/
example : ∃ s : M, bertoldi exBertoldi (0 : M) 0 0 0 = some s ∧ s.trace = 0 ∧ s ≠ 0 := by
  obtain ⟨-, s, h1, h2, -, h3⟩ := C62_bertoldi_rest exBertoldi (by norm_num [exBertoldi]) (by norm_num [exBertoldi]) (by norm_num [exBertoldi]) 0 0 0
  exact ⟨s, h1, h2, fun h => by have := h3.mp h; norm_num [exBertoldi] at this⟩

/-- A uniform expansion, whose flux is defined, so the energy theorem applies to it. -/
example : (Piola.materialFlux Piola.ops3 true (fun H => bertoldi exBertoldi H 0 0 0) (1 : M)).isSome := by
  unfold Piola.materialFlux
  beta_reduce
  have hd : ((1 : M) + 1).det ≠ 0 := by
    rw [← two_smul ℝ (1 : M), Matrix.det_smul, Matrix.det_one]
    norm_num
  rw [bertoldi_eq, lame_some _ (by norm_num [exBertoldi]) (by norm_num [exBertoldi]), Option.bind_some, if_neg hd, Option.bind_some,
    C33.flux_eq C33.exact3, if_pos rfl, if_neg hd]
  rfl

end Serac.C62
