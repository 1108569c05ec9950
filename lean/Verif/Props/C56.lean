import Verif.Props.C55
import Verif.Proofs.ExpDeriv
import Mathlib.Analysis.Normed.Algebra.MatrixExponential
import Mathlib.Analysis.Calculus.Deriv.Prod
import Mathlib.Analysis.Calculus.FDeriv.OfCompLeft
import Mathlib.Analysis.Normed.Algebra.Exponential
import Mathlib.LinearAlgebra.Lagrange
/-!
# C56: square root, exponential and logarithm of symmetric matrices, and their derivatives
-/

noncomputable section
namespace Serac.C56
open Serac.Eigen Serac.Tensor Serac.C55
open scoped Matrix
open NormedSpace (exp)

/-! ### Specification -/

/-- `A` is positive definite. -/
def Positive (A : M3) : Prop := ∀ v : V3, v ≠ 0 → 0 < v ⬝ᵥ (A *ᵥ v)

/-- The algorithm decomposes `A` exactly (C55 proves when). -/
def Exact (A : M3) : Prop := ∃ lam Q, eigSymm A = some (lam, Q) ∧ Decomposition A lam Q

/-- `g` is the divided difference of `f` with derivative `f'`. -/
def IsSecant (f f' : ℝ → ℝ) (g : ℝ → ℝ → ℝ) (s : Set ℝ) : Prop := ∀ x ∈ s, ∀ y ∈ s, (x ≠ y → g x y = (f x - f y) / (x - y)) ∧ g x x = f' x

/-- The entries of the matrix `F` have the derivatives `dF` at `t`. -/
def EntryDeriv (F : ℝ → M3) (dF : M3) (t : ℝ) : Prop := ∀ i j, HasDerivAt (fun s => F s i j) (dF i j) t

/-! ### Lemmas -/

/-- `Q diag(v) Qᵀ` -/
def sp (Q : M3) (v : V3) : M3 := Q * Matrix.diagonal v * Qᵀ

theorem decomposition_sp {A : M3} {lam : V3} {Q : M3} (h : Decomposition A lam Q) : A = sp Q lam := by
  have hQ' : Q * Qᵀ = 1 := mul_eq_one_comm.1 h.1
  have hAQ : A * Q = Q * Matrix.diagonal lam := by
    ext i k
    rw [Matrix.mul_diagonal]
    have := congrFun (h.2 k) i
    rw [Matrix.mul_apply]
    simpa [Matrix.mulVec, dotProduct, mul_comm] using this
  rw [sp, ← hAQ, Matrix.mul_assoc, hQ', Matrix.mul_one]

theorem sp_mul {Q : M3} (h : Qᵀ * Q = 1) (v w : V3) : sp Q v * sp Q w = sp Q (v * w) := by
  have : sp Q v * sp Q w = Q * Matrix.diagonal v * (Qᵀ * Q) * Matrix.diagonal w * Qᵀ := by simp only [sp, Matrix.mul_assoc]
  rw [this, h, Matrix.mul_one, Matrix.mul_assoc Q, Matrix.diagonal_mul_diagonal]
  rfl

theorem sp_one {Q : M3} (h : Qᵀ * Q = 1) : sp Q 1 = 1 := by
  rw [sp, show (Matrix.diagonal (1 : V3)) = 1 from Matrix.diagonal_one, Matrix.mul_one, mul_eq_one_comm.1 h]

theorem sp_transpose (Q : M3) (v : V3) : (sp Q v)ᵀ = sp Q v := by
  simp [sp, Matrix.transpose_mul, Matrix.mul_assoc]

theorem sp_aeval {Q : M3} (h : Qᵀ * Q = 1) (v : V3) (p : Polynomial ℝ) : Polynomial.aeval (sp Q v) p = sp Q fun k => p.eval (v k) := by
  have hadd : ∀ v w : V3, sp Q v + sp Q w = sp Q (v + w) := fun v w => by
    simp only [sp, ← Matrix.add_mul, ← Matrix.mul_add]; rw [Matrix.diagonal_add]; rfl
  have hsmul : ∀ (c : ℝ) (v : V3), c • sp Q v = sp Q (c • v) := fun c v => by
    rw [sp, sp, Matrix.diagonal_smul, Matrix.mul_smul, Matrix.smul_mul]
  have hpow : ∀ n : ℕ, sp Q v ^ n = sp Q (v ^ n) := by
    intro n
    induction n with
    | zero => rw [pow_zero, pow_zero, sp_one h]
    | succ n ih => rw [pow_succ, ih, sp_mul h, pow_succ]
  induction p using Polynomial.induction_on' with
  | add p q hp hq =>
    rw [map_add, hp, hq, hadd]
    congr 1; funext k; simp
  | monomial n a =>
    rw [Polynomial.aeval_monomial, hpow, ← Algebra.smul_def, hsmul]
    congr 1; funext k; simp

theorem inv_eq {Q : M3} (h : Qᵀ * Q = 1) : Q⁻¹ = Qᵀ := Matrix.inv_eq_left_inv h

theorem sp_exp {Q : M3} (h : Qᵀ * Q = 1) (v : V3) : exp (sp Q v) = sp Q fun k => Real.exp (v k) := by
  have hu : IsUnit Q := by rw [Matrix.isUnit_iff_isUnit_det]; exact Matrix.isUnit_det_of_left_inverse h
  have h1 := Matrix.exp_conj Q (Matrix.diagonal v) hu
  rw [inv_eq h, Matrix.exp_diagonal] at h1
  rw [sp, h1, sp]
  congr 3
  funext k
  rw [Pi.coe_exp, Real.exp_eq_exp_ℝ]

/-- A function of a matrix does not depend on the decomposition. -/
theorem sp_unique {Q P : M3} (hQ : Qᵀ * Q = 1) (hP : Pᵀ * P = 1) {a b : V3} (h : sp Q a = sp P b) (f : ℝ → ℝ) : (sp Q fun k => f (a k)) = sp P fun k => f (b k) := by
  obtain ⟨p, hp⟩ := (Polynomial.exists_eval_eq_iff (Sum.elim a b) (fun i => f (Sum.elim a b i))).2 (fun i j hij => by rw [hij])
  have h1 : (fun k => f (a k)) = fun k => p.eval (a k) := funext fun k => (hp (Sum.inl k)).symm
  have h2 : (fun k => f (b k)) = fun k => p.eval (b k) := funext fun k => (hp (Sum.inr k)).symm
  rw [h1, h2, ← sp_aeval hQ, ← sp_aeval hP, h]

/-- Every symmetric matrix has an orthonormal decomposition. -/
theorem symm_sp (A : M3) (hA : Aᵀ = A) : ∃ (Q : M3) (a : V3), Qᵀ * Q = 1 ∧ A = sp Q a := by
  have hH : A.IsHermitian := by rw [Matrix.IsHermitian, Matrix.conjTranspose_eq_transpose_of_trivial, hA]
  refine ⟨(hH.eigenvectorUnitary : M3), hH.eigenvalues, ?_, ?_⟩
  · have := Unitary.coe_star_mul_self hH.eigenvectorUnitary
    rwa [Matrix.star_eq_conjTranspose, Matrix.conjTranspose_eq_transpose_of_trivial] at this
  · have h := hH.spectral_theorem
    rw [Unitary.conjStarAlgAut_apply] at h
    rw [sp, ← Matrix.conjTranspose_eq_transpose_of_trivial, ← Matrix.star_eq_conjTranspose]
    exact h

theorem exp_injective (A B : M3) (hA : Aᵀ = A) (hB : Bᵀ = B) (h : exp A = exp B) : A = B := by
  obtain ⟨Q, a, hQ, rfl⟩ := symm_sp A hA
  obtain ⟨P, b, hP, rfl⟩ := symm_sp B hB
  rw [sp_exp hQ, sp_exp hP] at h
  have := sp_unique hQ hP h Real.log
  simpa only [Real.log_exp] using this

theorem function_eq {A : M3} {lam : V3} {Q : M3} (h : eigSymm A = some (lam, Q)) (f : ℝ → ℝ) : matFunction f A = some (sp Q fun k => f (lam k)) := by
  rw [matFunction, h, Option.map_some]
  simp only [dot_eq, diag_eq, transpose_eq, sp, Matrix.mul_assoc]

theorem foldl3 {α : Type*} (s : α → Fin 3 → α) (x : α) : Fin.foldl 3 s x = s (s (s x 0) 1) 2 := rfl

theorem foldl3_add (s : ℝ → Fin 3 → ℝ) (f : Fin 3 → ℝ) (hs : ∀ x k, s x k = x + f k) (x : ℝ) : Fin.foldl 3 s x = x + ∑ k, f k := by
  rw [foldl3, hs, hs, hs, Fin.sum_univ_three]; ring

theorem derivative_eq {A : M3} {lam : V3} {Q : M3} (h : eigSymm A = some (lam, Q)) (g : ℝ → ℝ → ℝ) (dA : M3) :
    matDerivative g A dA = some (Q * (Matrix.of fun a b => g (lam a) (lam b) * (Qᵀ * dA * Q) a b) * Qᵀ) := by
  rw [matDerivative, h]
  refine congrArg some ?_
  funext i j
  beta_reduce
  rw [foldl3_add _ (fun k => ∑ l, ∑ a, ∑ b, g (lam a) (lam b) * Q k a * Q l b * Q i a * Q j b * dA k l) (fun x k => by
    rw [foldl3_add _ (fun l => ∑ a, ∑ b, g (lam a) (lam b) * Q k a * Q l b * Q i a * Q j b * dA k l) (fun x l => by
      rw [foldl3_add _ (fun a => ∑ b, g (lam a) (lam b) * Q k a * Q l b * Q i a * Q j b * dA k l) (fun x a => by
        rw [foldl3_add _ (fun b => g (lam a) (lam b) * Q k a * Q l b * Q i a * Q j b * dA k l) (fun x b => rfl)])])]), zero_add]
  simp only [Matrix.mul_apply, Matrix.of_apply, Matrix.transpose_apply, Fin.sum_univ_three]
  ring

theorem positive_eigen {A : M3} {lam : V3} {Q : M3} (h : Decomposition A lam Q) (hp : Positive A) (k : Fin 3) : 0 < lam k := by
  have h1 : (fun i => Q i k) ⬝ᵥ (fun i => Q i k) = 1 := by
    have := congrFun (congrFun h.1 k) k
    simpa [Matrix.mul_apply, dotProduct] using this
  have h0 : (fun i => Q i k) ≠ 0 := by
    intro h0; rw [h0, zero_dotProduct] at h1; norm_num at h1
  have := hp _ h0
  rw [h.2 k, dotProduct_smul, h1] at this
  simpa using this

theorem sp_positive {Q : M3} (h : Qᵀ * Q = 1) {v : V3} (hv : ∀ k, 0 < v k) : Positive (sp Q v) := by
  intro x hx
  have hQ' : Q * Qᵀ = 1 := mul_eq_one_comm.1 h
  have hne : Qᵀ *ᵥ x ≠ 0 := by
    intro h0
    apply hx
    have := congrArg (Q *ᵥ ·) h0
    simpa [Matrix.mulVec_mulVec, hQ'] using this
  have e : x ⬝ᵥ (sp Q v *ᵥ x) = ∑ k, v k * (Qᵀ *ᵥ x) k ^ 2 := by
    rw [sp, ← Matrix.mulVec_mulVec, ← Matrix.mulVec_mulVec, Matrix.dotProduct_mulVec, ← Matrix.mulVec_transpose]
    simp only [dotProduct, Matrix.mulVec_diagonal]
    exact Finset.sum_congr rfl fun k _ => by ring
  rw [e]
  obtain ⟨k, hk⟩ := Function.ne_iff.1 hne
  have hpos : ∀ k, 0 ≤ v k * (Qᵀ *ᵥ x) k ^ 2 := fun k => mul_nonneg (hv k).le (sq_nonneg _)
  exact Finset.sum_pos' (fun k _ => hpos k) ⟨k, Finset.mem_univ _, mul_pos (hv k) (by have : (Qᵀ *ᵥ x) k ≠ 0 := hk; positivity)⟩

/-! ### Values -/

/-- Polynomials of a matrix: the function applied to eigenvalues is the polynomial of the matrix. -/
theorem C56_polynomial (A : M3) (hA : Exact A) (p : Polynomial ℝ) : matFunction (fun x => p.eval x) A = some (Polynomial.aeval A p) := by
  obtain ⟨lam, Q, h, hd⟩ := hA
  rw [function_eq h, decomposition_sp hd, sp_aeval hd.1]

/-- `exp_symm` is the matrix exponential. -/
theorem C56_exponential (A : M3) (hA : Exact A) : expSymm A = some (exp A) := by
  obtain ⟨lam, Q, h, hd⟩ := hA
  rw [expSymm, function_eq h, decomposition_sp hd, sp_exp hd.1]

/-- `log_symm` of a positive definite matrix is the symmetric matrix whose exponential is the argument, and the only one. -/
theorem C56_logarithm (A : M3) (hA : Exact A) (hp : Positive A) : ∃ B, logSymm A = some B ∧ Bᵀ = B ∧ exp B = A ∧ ∀ C : M3, Cᵀ = C → exp C = A → C = B := by
  obtain ⟨lam, Q, h, hd⟩ := hA
  have hexp : exp (sp Q fun k => Real.log (lam k)) = A := by
    rw [sp_exp hd.1]
    have : (fun k => Real.exp (Real.log (lam k))) = lam := funext fun k => Real.exp_log (positive_eigen hd hp k)
    rw [this, ← decomposition_sp hd]
  exact ⟨_, function_eq h _, sp_transpose _ _, hexp, fun C hC hE => exp_injective C _ hC (sp_transpose _ _) (hE.trans hexp.symm)⟩

/-- `log_symm` undoes `exp_symm`. -/
theorem C56_log_exp (A : M3) (hs : Aᵀ = A) (hA : Exact A) : ∃ E, expSymm A = some E ∧ (Exact E → logSymm E = some A) := by
  obtain ⟨lam, Q, h, hd⟩ := hA
  refine ⟨_, C56_exponential A ⟨lam, Q, h, hd⟩, fun hE => ?_⟩
  have hpos : Positive (exp A) := by
    rw [decomposition_sp hd, sp_exp hd.1]
    exact sp_positive hd.1 fun k => Real.exp_pos _
  obtain ⟨B, h1, -, -, h4⟩ := C56_logarithm _ hE hpos
  rw [h1, h4 A hs rfl]

/-- `sqrt_symm` of a positive definite matrix is a positive definite symmetric matrix whose square is the argument, and the only one. -/
theorem C56_root (A : M3) (hA : Exact A) (hp : Positive A) : ∃ B, sqrtSymm A = some B ∧ Bᵀ = B ∧ Positive B ∧ B * B = A ∧ ∀ C : M3, Cᵀ = C → Positive C → C * C = A → C = B := by
  obtain ⟨lam, Q, h, hd⟩ := hA
  have hl := positive_eigen hd hp
  have hsq : (sp Q fun k => Real.sqrt (lam k)) * (sp Q fun k => Real.sqrt (lam k)) = A := by
    rw [sp_mul hd.1]
    have : ((fun k => Real.sqrt (lam k)) * fun k => Real.sqrt (lam k)) = lam := funext fun k => Real.mul_self_sqrt (hl k).le
    rw [this, ← decomposition_sp hd]
  refine ⟨_, function_eq h _, sp_transpose _ _, sp_positive hd.1 fun k => Real.sqrt_pos.2 (hl k), hsq, fun C hC hCp hCC => ?_⟩
  obtain ⟨P, c, hP, rfl⟩ := symm_sp C hC
  have hc : ∀ k, 0 < c k := by
    have hdec : Decomposition (sp P c) c P := by
      refine ⟨hP, fun k => ?_⟩
      have : sp P c * P = P * Matrix.diagonal c := by rw [sp, Matrix.mul_assoc, hP, Matrix.mul_one]
      funext i
      have := congrFun (congrFun this i) k
      rw [Matrix.mul_apply, Matrix.mul_diagonal] at this
      simpa [Matrix.mulVec, dotProduct, mul_comm] using this
    exact positive_eigen hdec hCp
  rw [sp_mul hP, ← hsq, sp_mul hd.1] at hCC
  have := sp_unique hP hd.1 hCC Real.sqrt
  have e1 : (fun k => Real.sqrt ((c * c) k)) = c := funext fun k => Real.sqrt_mul_self (hc k).le
  have e2 : (fun k => Real.sqrt (((fun k => Real.sqrt (lam k)) * fun k => Real.sqrt (lam k)) k)) = fun k => Real.sqrt (lam k) := funext fun k => Real.sqrt_mul_self (Real.sqrt_nonneg _)
  rw [e1, e2] at this
  exact this

/-- Rotating the argument rotates the result, for every scalar function. -/
theorem C56_isotropic (A R : M3) (hR : Rᵀ * R = 1) (hA : Exact A) (hB : Exact (R * A * Rᵀ)) (f : ℝ → ℝ) :
    ∃ F, matFunction f A = some F ∧ matFunction f (R * A * Rᵀ) = some (R * F * Rᵀ) := by
  obtain ⟨lam, Q, h, hd⟩ := hA
  obtain ⟨mu, P, h', hd'⟩ := hB
  refine ⟨_, function_eq h f, ?_⟩
  rw [function_eq h']
  have hRQ : (R * Q)ᵀ * (R * Q) = 1 := by
    rw [Matrix.transpose_mul, Matrix.mul_assoc, ← Matrix.mul_assoc Rᵀ, hR, Matrix.one_mul, hd.1]
  have hconj : ∀ v, R * sp Q v * Rᵀ = sp (R * Q) v := fun v => by simp only [sp, Matrix.transpose_mul, Matrix.mul_assoc]
  have e : sp P mu = sp (R * Q) lam := by rw [← decomposition_sp hd', ← hconj, ← decomposition_sp hd]
  rw [sp_unique hd'.1 hRQ e f, hconj]

/-- Wherever `eig_symm` merges eigenvalues (`C55_wrong`), `exp_symm` is not the exponential, and a square root of a matrix with non-negative values does not square to it. -/
theorem C56_merged_wrong (A : M3) (hA : Aᵀ = A) (lam : V3) (Q : M3) (h : eigSymm A = some (lam, Q)) (hsq : ∑ k, lam k ^ 2 ≠ squares A) :
    (∃ E, expSymm A = some E ∧ E ≠ exp A) ∧ ((∀ k, 0 ≤ lam k) → ∃ B, sqrtSymm A = some B ∧ B * B ≠ A) := by
  obtain ⟨lam', Q', h1, hQ, -⟩ := C55_result A hA
  rw [h] at h1
  obtain ⟨rfl, rfl⟩ := Prod.mk.inj (Option.some.inj h1)
  have hne : sp Q lam ≠ A := by
    intro he
    refine C55_wrong A lam Q hsq ⟨hQ, fun k => ?_⟩
    have : A * Q = Q * Matrix.diagonal lam := by rw [← he, sp, Matrix.mul_assoc, hQ, Matrix.mul_one]
    funext i
    have := congrFun (congrFun this i) k
    rw [Matrix.mul_apply, Matrix.mul_diagonal] at this
    simpa [Matrix.mulVec, dotProduct, mul_comm] using this
  refine ⟨⟨_, function_eq h _, fun he => hne ?_⟩, fun hl => ⟨_, function_eq h _, fun he => hne ?_⟩⟩
  · rw [← sp_exp hQ] at he
    exact exp_injective _ _ (sp_transpose _ _) hA he
  · rw [sp_mul hQ] at he
    have : ((fun k => Real.sqrt (lam k)) * fun k => Real.sqrt (lam k)) = lam := funext fun k => Real.mul_self_sqrt (hl k)
    rwa [this] at he

/-! ### Derivatives -/

/-- The three functions `g` passed to `symmetric_mat3_function` are the divided differences of the functions they belong to. -/
theorem C56_secants : IsSecant Real.log (fun x => 1 / x) logSecant (Set.Ioi 0) ∧ IsSecant Real.exp Real.exp expSecant Set.univ ∧
    IsSecant Real.sqrt (fun x => 1 / (2 * Real.sqrt x)) sqrtSecant (Set.Ioi 0) := by
  refine ⟨fun x hx y hy => ⟨fun h => ?_, if_pos rfl⟩, fun x _ y _ => ⟨fun h => ?_, if_pos rfl⟩, fun x hx y hy => ⟨fun h => ?_, ?_⟩⟩
  · have hx : 0 < x := hx
    have hy : 0 < y := hy
    have h' := sub_ne_zero.2 h
    rw [logSecant, if_neg h, Real.log_div hx.ne' hy.ne']
    have : x / y - 1 ≠ 0 := by rw [div_sub_one hy.ne']; exact div_ne_zero h' hy.ne'
    rw [div_div, show (x / y - 1) * y = x - y by field_simp]
  · have h' := sub_ne_zero.2 h
    rw [expSecant, if_neg h]
    rw [mul_sub, mul_one, ← Real.exp_add]
    congr 2; ring_nf
  · have hx : 0 < x := hx
    have hy : 0 < y := hy
    have h' := sub_ne_zero.2 h
    have h1 := Real.sqrt_pos.2 hx
    have h2 := Real.sqrt_pos.2 hy
    rw [sqrtSecant, eq_div_iff h', div_mul_eq_mul_div, div_eq_iff (by positivity)]
    have h3 := Real.mul_self_sqrt hx.le
    have h4 := Real.mul_self_sqrt hy.le
    linear_combination h4 - h3
  · rw [sqrtSecant, ← two_mul]

theorem entry_unique {F : ℝ → M3} {dF dF' : M3} {t : ℝ} (h : EntryDeriv F dF t) (h' : EntryDeriv F dF' t) : dF = dF' := by
  ext i j; exact (h i j).unique (h' i j)

theorem entry_mul {F G : ℝ → M3} {dF dG : M3} {t : ℝ} (hF : EntryDeriv F dF t) (hG : EntryDeriv G dG t) :
    EntryDeriv (fun s => F s * G s) (dF * G t + F t * dG) t := by
  intro i j
  have : HasDerivAt (fun s => ∑ k, F s i k * G s k j) (∑ k, (dF i k * G t k j + F t i k * dG k j)) t :=
    HasDerivAt.fun_sum fun k _ => (hF i k).mul (hG k j)
  rw [Finset.sum_add_distrib] at this
  simpa only [Matrix.mul_apply, Matrix.add_apply] using this

/-- Matrices given by their entries in the basis of eigenvectors. -/
theorem of_basis {Q : M3} (hQ : Qᵀ * Q = 1) {X Y : M3} (h : ∀ a b, (Qᵀ * X * Q) a b = Y a b) : X = Q * Y * Qᵀ := by
  have hQ' : Q * Qᵀ = 1 := mul_eq_one_comm.1 hQ
  have : Qᵀ * X * Q = Y := by ext a b; exact h a b
  rw [← this]
  have : Q * (Qᵀ * X * Q) * Qᵀ = (Q * Qᵀ) * X * (Q * Qᵀ) := by simp only [Matrix.mul_assoc]
  rw [this, hQ', Matrix.one_mul, Matrix.mul_one]

/-- Along every differentiable path of matrices with a differentiable path of square roots, the gradient of the result is the derivative of the root. -/
theorem root_derivative_of (A B : ℝ → M3) (dA dB : M3) (t : ℝ) (hE : Exact (A t)) (hp : Positive (A t)) (hA : EntryDeriv A dA t) (hB : EntryDeriv B dB t)
    (hroot : ∀ᶠ s in nhds t, B s * B s = A s) (h0 : sqrtSymm (A t) = some (B t)) : matDerivative sqrtSecant (A t) dA = some dB := by
  obtain ⟨lam, Q, h, hd⟩ := hE
  have hl := positive_eigen hd hp
  have hBt : B t = sp Q fun k => Real.sqrt (lam k) := by
    rw [sqrtSymm, function_eq h] at h0
    exact (Option.some.inj h0).symm
  have hprod : dB * B t + B t * dB = dA := entry_unique (entry_mul hB hB) fun i j =>
    (hA i j).congr_of_eventuallyEq (hroot.mono fun s hs => congrFun (congrFun hs i) j)
  rw [derivative_eq h]
  congr 1
  symm
  refine of_basis hd.1 fun a b => ?_
  have e : Qᵀ * dA * Q = (Qᵀ * dB * Q) * Matrix.diagonal (fun k => Real.sqrt (lam k)) + Matrix.diagonal (fun k => Real.sqrt (lam k)) * (Qᵀ * dB * Q) := by
    rw [← hprod, hBt, Matrix.mul_add, Matrix.add_mul]
    congr 1
    · have : Qᵀ * (dB * sp Q fun k => Real.sqrt (lam k)) * Q = Qᵀ * dB * Q * Matrix.diagonal (fun k => Real.sqrt (lam k)) * (Qᵀ * Q) := by simp only [sp, Matrix.mul_assoc]
      rw [this, hd.1, Matrix.mul_one]
    · have : Qᵀ * ((sp Q fun k => Real.sqrt (lam k)) * dB) * Q = (Qᵀ * Q) * Matrix.diagonal (fun k => Real.sqrt (lam k)) * (Qᵀ * dB * Q) := by simp only [sp, Matrix.mul_assoc]
      rw [this, hd.1, Matrix.one_mul]
  have eab := congrFun (congrFun e a) b
  rw [Matrix.add_apply, Matrix.mul_diagonal, Matrix.diagonal_mul] at eab
  have hpos : 0 < Real.sqrt (lam a) + Real.sqrt (lam b) := add_pos (Real.sqrt_pos.2 (hl a)) (Real.sqrt_pos.2 (hl b))
  rw [Matrix.of_apply, sqrtSecant, eab]
  field_simp
  ring

open scoped Matrix.Norms.Operator in
theorem exp_path (A : ℝ → M3) (dA : M3) (t : ℝ) (hA : EntryDeriv A dA t) : EntryDeriv (fun s => exp (A s)) ((∑' n, ExpDeriv.term n (A t)) dA) t := by
  have h1 : HasDerivAt A dA t := hasDerivAt_pi.2 fun i => hasDerivAt_pi.2 fun j => hA i j
  have h2 := (ExpDeriv.hasFDerivAt_exp (A t)).comp_hasDerivAt t h1
  intro i j
  exact hasDerivAt_pi.1 (hasDerivAt_pi.1 h2 i) j

open scoped Matrix.Norms.Operator in
/-- The derivative of the exponential in the basis of eigenvectors. -/
theorem exp_basis {Q : M3} (hQ : Qᵀ * Q = 1) (lam : V3) (H : M3) (a b : Fin 3) :
    (Qᵀ * ((∑' n, ExpDeriv.term n (sp Q lam)) H) * Q) a b = expSecant (lam a) (lam b) * (Qᵀ * H * Q) a b := by
  -- the functional `X ↦ (Qᵀ X Q) a b`
  let φ : M3 →ₗ[ℝ] ℝ := { toFun := fun X => (Qᵀ * X * Q) a b
                          map_add' := fun X Y => by rw [Matrix.mul_add, Matrix.add_mul]; rfl
                          map_smul' := fun c X => by rw [Matrix.mul_smul, Matrix.smul_mul]; rfl }
  have hpow : ∀ n : ℕ, sp Q lam ^ n = sp Q (lam ^ n) := by
    intro n
    induction n with
    | zero => rw [pow_zero, pow_zero, sp_one hQ]
    | succ n ih => rw [pow_succ, ih, sp_mul hQ, pow_succ]
  have hterm : ∀ n, φ (ExpDeriv.term n (sp Q lam) H) = (Nat.factorial n : ℝ)⁻¹ * (∑ i ∈ Finset.range n, lam a ^ (n - 1 - i) * lam b ^ i) * (Qᵀ * H * Q) a b := by
    intro n
    rw [ExpDeriv.term, _root_.smul_apply, map_smul, ExpDeriv.powDeriv_apply, map_sum, smul_eq_mul, mul_assoc, Finset.sum_mul]
    congr 1
    refine Finset.sum_congr rfl fun i _ => ?_
    show (Qᵀ * (sp Q lam ^ (n - 1 - i) * H * sp Q lam ^ i) * Q) a b = _
    rw [hpow, hpow]
    have : Qᵀ * (sp Q (lam ^ (n - 1 - i)) * H * sp Q (lam ^ i)) * Q = (Qᵀ * Q) * Matrix.diagonal (lam ^ (n - 1 - i)) * (Qᵀ * H * Q) * Matrix.diagonal (lam ^ i) * (Qᵀ * Q) := by
      simp only [sp, Matrix.mul_assoc]
    rw [this, hQ, Matrix.mul_one, Matrix.one_mul, Matrix.mul_diagonal, Matrix.diagonal_mul]
    simp only [Pi.pow_apply]
    ring
  have hsum : HasSum (fun n => ExpDeriv.term n (sp Q lam) H) ((∑' n, ExpDeriv.term n (sp Q lam)) H) :=
    ExpDeriv.hasSum_apply _ _
  have hφ : HasSum (fun n => φ (ExpDeriv.term n (sp Q lam) H)) (φ ((∑' n, ExpDeriv.term n (sp Q lam)) H)) :=
    (LinearMap.toContinuousLinearMap φ).hasSum hsum
  simp only [hterm] at hφ
  have hsec : HasSum (fun n : ℕ => (Nat.factorial n : ℝ)⁻¹ * ∑ i ∈ Finset.range n, lam a ^ (n - 1 - i) * lam b ^ i) (expSecant (lam a) (lam b)) := by
    have hex : ∀ x : ℝ, HasSum (fun n : ℕ => (Nat.factorial n : ℝ)⁻¹ * x ^ n) (Real.exp x) := fun x => by
      have := NormedSpace.exp_series_hasSum_exp' (𝕂 := ℝ) x
      rw [← Real.exp_eq_exp_ℝ] at this
      simpa using this
    by_cases hab : lam a = lam b
    · rw [hab, expSecant, if_pos rfl]
      have h1 : ∀ n : ℕ, ∑ i ∈ Finset.range n, lam b ^ (n - 1 - i) * lam b ^ i = n * lam b ^ (n - 1) := fun n => by
        rw [← geom_sum₂_self]; exact Finset.sum_congr rfl fun i _ => mul_comm _ _
      simp only [h1]
      rw [← hasSum_nat_add_iff' 1]
      simp only [Finset.range_one, Finset.sum_singleton, Nat.cast_zero, zero_mul, mul_zero, sub_zero]
      refine Eq.mpr (congrArg (fun f => HasSum f (Real.exp (lam b))) (funext fun n => ?_)) (hex (lam b))
      rw [Nat.factorial_succ, Nat.add_sub_cancel]
      push_cast
      field_simp
    · have hne := sub_ne_zero.2 hab
      rw [(C56_secants.2.1 (lam a) trivial (lam b) trivial).1 hab]
      have := ((hex (lam a)).sub (hex (lam b))).div_const (lam a - lam b)
      refine Eq.mpr (congrArg (fun f => HasSum f ((Real.exp (lam a) - Real.exp (lam b)) / (lam a - lam b))) (funext fun n => ?_)) this
      have hg := (Commute.all (lam a) (lam b)).geom_sum₂_mul n
      have hc : ∑ i ∈ Finset.range n, lam a ^ (n - 1 - i) * lam b ^ i = ∑ i ∈ Finset.range n, lam a ^ i * lam b ^ (n - 1 - i) := by
        rw [(Commute.all (lam a) (lam b)).geom_sum₂_comm n]
        exact Finset.sum_congr rfl fun i _ => mul_comm _ _
      rw [hc, eq_div_iff hne, mul_assoc, hg]
      ring
  exact hφ.unique (hsec.mul_right _)

open scoped Matrix.Norms.Operator in
theorem exp_entry {Q : M3} (hQ : Qᵀ * Q = 1) (lam : V3) (A : ℝ → M3) (dA : M3) (t : ℝ) (hA : EntryDeriv A dA t) (h : A t = sp Q lam) :
    EntryDeriv (fun s => exp (A s)) (Q * (Matrix.of fun a b => expSecant (lam a) (lam b) * (Qᵀ * dA * Q) a b) * Qᵀ) t := by
  have h1 := exp_path A dA t hA
  rw [h] at h1
  rw [of_basis hQ (X := (∑' n, ExpDeriv.term n (sp Q lam)) dA) (Y := Matrix.of fun a b => expSecant (lam a) (lam b) * (Qᵀ * dA * Q) a b) (fun a b =>
    exp_basis hQ lam dA a b)] at h1
  exact h1

/-- **Exponential.**  Along every differentiable path of matrices the gradient of the result is the derivative of the matrix exponential. -/
theorem C56_exp_derivative (A : ℝ → M3) (dA : M3) (t : ℝ) (hE : Exact (A t)) (hA : EntryDeriv A dA t) :
    ∃ X, matDerivative expSecant (A t) dA = some X ∧ EntryDeriv (fun s => exp (A s)) X t := by
  obtain ⟨lam, Q, h, hd⟩ := hE
  exact ⟨_, derivative_eq h _ _, exp_entry hd.1 lam A dA t hA (decomposition_sp hd)⟩

theorem secant_inverse {x y : ℝ} (hx : 0 < x) (hy : 0 < y) : logSecant x y * expSecant (Real.log x) (Real.log y) = 1 := by
  by_cases h : x = y
  · subst h
    rw [logSecant, if_pos rfl, expSecant, if_pos rfl, Real.exp_log hx]
    field_simp
  · have hl : Real.log x ≠ Real.log y := fun hl => h (Real.log_injOn_pos hx hy hl)
    rw [(C56_secants.1 x hx y hy).1 h, (C56_secants.2.1 _ trivial _ trivial).1 hl, Real.exp_log hx, Real.exp_log hy]
    have h1 := sub_ne_zero.2 h
    have h2 := sub_ne_zero.2 hl
    field_simp

/-- Along every differentiable path of matrices with a differentiable path of logarithms, the gradient of the result is the derivative of the logarithm. -/
theorem log_derivative_of (A L : ℝ → M3) (dA dL : M3) (t : ℝ) (hE : Exact (A t)) (hp : Positive (A t)) (hA : EntryDeriv A dA t) (hL : EntryDeriv L dL t)
    (hlog : ∀ᶠ s in nhds t, exp (L s) = A s) (h0 : logSymm (A t) = some (L t)) : matDerivative logSecant (A t) dA = some dL := by
  obtain ⟨lam, Q, h, hd⟩ := hE
  have hl := positive_eigen hd hp
  have hLt : L t = sp Q fun k => Real.log (lam k) := by
    rw [logSymm, function_eq h] at h0
    exact (Option.some.inj h0).symm
  have h1 : Q * (Matrix.of fun a b => expSecant (Real.log (lam a)) (Real.log (lam b)) * (Qᵀ * dL * Q) a b) * Qᵀ = dA :=
    entry_unique (exp_entry hd.1 (fun k => Real.log (lam k)) L dL t hL hLt) fun i j =>
      (hA i j).congr_of_eventuallyEq (hlog.mono fun s hs => congrFun (congrFun hs i) j)
  rw [derivative_eq h]
  congr 1
  symm
  refine of_basis hd.1 fun a b => ?_
  have h2 : Qᵀ * dA * Q = Matrix.of fun a b => expSecant (Real.log (lam a)) (Real.log (lam b)) * (Qᵀ * dL * Q) a b := by
    rw [← h1]
    have : ∀ Y : M3, Qᵀ * (Q * Y * Qᵀ) * Q = (Qᵀ * Q) * Y * (Qᵀ * Q) := fun Y => by simp only [Matrix.mul_assoc]
    rw [this, hd.1, Matrix.one_mul, Matrix.mul_one]
  rw [Matrix.of_apply, h2, Matrix.of_apply, ← mul_assoc, secant_inverse (hl a) (hl b), one_mul]

/-! Logarithms of a differentiable path are differentiable. -/

theorem sp_squares {Q : M3} (h : Qᵀ * Q = 1) (v : V3) : squares (sp Q v) = ∑ k, v k ^ 2 := by
  refine (decomposition_squares (A := sp Q v) (Q := Q) ⟨h, fun k => ?_⟩).symm
  have : sp Q v * Q = Q * Matrix.diagonal v := by rw [sp, Matrix.mul_assoc, h, Matrix.mul_one]
  funext i
  have := congrFun (congrFun this i) k
  rw [Matrix.mul_apply, Matrix.mul_diagonal] at this
  simpa [Matrix.mulVec, dotProduct, mul_comm] using this

theorem sp_trace {Q : M3} (h : Qᵀ * Q = 1) (v : V3) : (sp Q v).trace = ∑ k, v k := by
  rw [sp, Matrix.trace_mul_comm, ← Matrix.mul_assoc, h, Matrix.one_mul, Matrix.trace_diagonal]

theorem sp_det {Q : M3} (h : Qᵀ * Q = 1) (v : V3) : (sp Q v).det = ∏ k, v k := by
  have hdet : Q.det * Q.det = 1 := by
    have := congrArg Matrix.det h
    rwa [Matrix.det_mul, Matrix.det_transpose, Matrix.det_one] at this
  rw [sp, Matrix.det_mul, Matrix.det_mul, Matrix.det_transpose, Matrix.det_diagonal]
  linear_combination (∏ k, v k) * hdet

/-- The logarithm is bounded where the trace is bounded and the determinant is bounded away from zero. -/
theorem log_bound {X : M3} (hX : Xᵀ = X) {T δ : ℝ} (hδ : 0 < δ) (hT : (exp X).trace ≤ T) (hd : δ ≤ (exp X).det) :
    squares X ≤ 3 * (|Real.log T| + |Real.log δ - 2 * Real.log T|) ^ 2 := by
  obtain ⟨Q, x, hQ, rfl⟩ := symm_sp X hX
  rw [sp_exp hQ, sp_trace hQ, Fin.sum_univ_three] at hT
  rw [sp_exp hQ, sp_det hQ, Fin.prod_univ_three, ← Real.exp_add, ← Real.exp_add] at hd
  have h0 := Real.exp_pos (x 0)
  have h1 := Real.exp_pos (x 1)
  have h2 := Real.exp_pos (x 2)
  have hTp : 0 < T := by linarith
  have u0 : x 0 ≤ Real.log T := (Real.le_log_iff_exp_le hTp).2 (by linarith)
  have u1 : x 1 ≤ Real.log T := (Real.le_log_iff_exp_le hTp).2 (by linarith)
  have u2 : x 2 ≤ Real.log T := (Real.le_log_iff_exp_le hTp).2 (by linarith)
  have hl : Real.log δ ≤ x 0 + x 1 + x 2 := (Real.log_le_iff_le_exp hδ).2 hd
  have hb : ∀ y, Real.log δ - 2 * Real.log T ≤ y → y ≤ Real.log T → y ^ 2 ≤ (|Real.log T| + |Real.log δ - 2 * Real.log T|) ^ 2 := by
    intro y h1 h2
    rw [sq_le_sq, abs_of_nonneg (add_nonneg (abs_nonneg (Real.log T)) (abs_nonneg (Real.log δ - 2 * Real.log T)))]
    have a1 := le_abs_self (Real.log T)
    have a2 := neg_abs_le (Real.log δ - 2 * Real.log T)
    have a3 := abs_nonneg (Real.log T)
    have a4 := abs_nonneg (Real.log δ - 2 * Real.log T)
    exact abs_le.2 ⟨by linarith, by linarith⟩
  rw [sp_squares hQ, Fin.sum_univ_three]
  have b0 := hb (x 0) (by linarith) u0
  have b1 := hb (x 1) (by linarith) u1
  have b2 := hb (x 2) (by linarith) u2
  linarith

open scoped Matrix.Norms.Operator in
theorem compact_symm (R : ℝ) : IsCompact {X : M3 | Xᵀ = X ∧ squares X ≤ R} := by
  have hc : IsClosed {X : M3 | Xᵀ = X ∧ squares X ≤ R} := by
    have h1 : IsClosed {X : M3 | Xᵀ = X} := isClosed_eq (continuous_id.matrix_transpose) continuous_id
    have h2 : IsClosed {X : M3 | squares X ≤ R} := isClosed_le (by unfold squares; fun_prop) continuous_const
    exact h1.inter h2
  have hpi : IsCompact (Set.pi Set.univ fun _ : Fin 3 => Set.pi Set.univ fun _ : Fin 3 => Set.Icc (-Real.sqrt R) (Real.sqrt R)) :=
    isCompact_univ_pi fun _ => isCompact_univ_pi fun _ => isCompact_Icc
  refine IsCompact.of_isClosed_subset hpi hc fun X hX i _ j _ => ?_
  have h1 : X i j ^ 2 ≤ R := by
    refine le_trans ?_ hX.2
    refine le_trans (Finset.single_le_sum (f := fun j => X i j ^ 2) (fun j _ => sq_nonneg _) (Finset.mem_univ j)) ?_
    exact Finset.single_le_sum (f := fun i => ∑ j, X i j ^ 2) (fun i _ => Finset.sum_nonneg fun j _ => sq_nonneg _) (Finset.mem_univ i)
  exact abs_le.1 (Real.abs_le_sqrt h1)

open scoped Matrix.Norms.Operator in
theorem log_continuous (A L : ℝ → M3) (t : ℝ) (hA : ContinuousAt A t) (hL : ∀ᶠ s in nhds t, (L s)ᵀ = L s ∧ exp (L s) = A s) : ContinuousAt L t := by
  have ht := hL.self_of_nhds
  have hdpos : 0 < (A t).det := by
    obtain ⟨Q, x, hQ, hx⟩ := symm_sp (L t) ht.1
    rw [← ht.2, hx, sp_exp hQ, sp_det hQ]
    exact Finset.prod_pos fun k _ => Real.exp_pos _
  have htr : ∀ᶠ s in nhds t, (A s).trace ≤ (A t).trace + 1 := by
    have : ContinuousAt (fun s => (A s).trace) t := by
      have h : Continuous fun X : M3 => X.trace := continuous_id.matrix_trace
      exact h.continuousAt.comp hA
    exact (this.eventually_lt continuousAt_const (by linarith)).mono fun s hs => hs.le
  have hdet : ∀ᶠ s in nhds t, (A t).det / 2 ≤ (A s).det := by
    have : ContinuousAt (fun s => (A s).det) t := by
      have h : Continuous fun X : M3 => X.det := continuous_id.matrix_det
      exact h.continuousAt.comp hA
    exact (continuousAt_const.eventually_lt this (by linarith)).mono fun s hs => hs.le
  refine (compact_symm _).tendsto_nhds_of_unique_mapClusterPt (hL.and (htr.and hdet) |>.mono fun s hs =>
    ⟨hs.1.1, log_bound hs.1.1 (T := (A t).trace + 1) (δ := (A t).det / 2) (by linarith) (by rw [hs.1.2]; exact hs.2.1) (by rw [hs.1.2]; exact hs.2.2)⟩) ?_
  intro Y hY hcl
  refine exp_injective Y (L t) hY.1 ht.1 ?_
  have hcont : Continuous fun X : M3 => exp X := NormedSpace.exp_continuous
  have h1 : MapClusterPt (exp Y) (nhds t) ((fun X : M3 => exp X) ∘ L) := hcl.continuousAt_comp hcont.continuousAt
  have h2 : Filter.Tendsto ((fun X : M3 => exp X) ∘ L) (nhds t) (nhds (A t)) :=
    Filter.Tendsto.congr' (hL.mono fun s hs => hs.2.symm) hA
  rw [ht.2]
  exact eq_of_nhds_neBot (Filter.NeBot.mono h1 (inf_le_inf_left _ h2))

open scoped Matrix.Norms.Operator in
theorem log_path (A L : ℝ → M3) (dA : M3) (t : ℝ) (hA : EntryDeriv A dA t) (hL : ∀ᶠ s in nhds t, (L s)ᵀ = L s ∧ exp (L s) = A s) : ∃ dL, EntryDeriv L dL t := by
  have hA' : HasDerivAt A dA t := hasDerivAt_pi.2 fun i => hasDerivAt_pi.2 fun j => hA i j
  have hc := log_continuous A L t hA'.continuousAt hL
  obtain ⟨Q, x, hQ, hx⟩ := symm_sp (L t) hL.self_of_nhds.1
  have hf := ExpDeriv.hasFDerivAt_exp (L t)
  set D : M3 →L[ℝ] M3 := ∑' n, ExpDeriv.term n (L t) with hD
  have hinj : Function.Injective (D : M3 →ₗ[ℝ] M3) := by
    rw [← LinearMap.ker_eq_bot, LinearMap.ker_eq_bot']
    intro X hX
    have h0 : D X = 0 := hX
    have hne : ∀ a b, expSecant a b ≠ 0 := fun a b h => by
      have := secant_inverse (Real.exp_pos a) (Real.exp_pos b)
      rw [Real.log_exp, Real.log_exp, h, mul_zero] at this
      exact zero_ne_one this
    have hz : ∀ a b, (Qᵀ * X * Q) a b = (0 : M3) a b := fun a b => by
      have this : (Qᵀ * D X * Q) a b = expSecant (x a) (x b) * (Qᵀ * X * Q) a b := by
        rw [hD, hx]
        exact exp_basis hQ x X a b
      rw [h0, Matrix.mul_zero, Matrix.zero_mul] at this
      exact (mul_eq_zero.1 this.symm).resolve_left (hne _ _)
    rw [of_basis hQ hz, Matrix.mul_zero, Matrix.zero_mul]
  let e : M3 ≃L[ℝ] M3 := (LinearEquiv.ofInjectiveEndo (D : M3 →ₗ[ℝ] M3) hinj).toContinuousLinearEquiv
  have hinv : Function.LeftInverse (e.symm : M3 →L[ℝ] M3) D := fun X => by
    have : D X = e X := rfl
    rw [this]
    exact e.symm_apply_apply X
  have h := HasFDerivAt.of_comp_of_leftInverse hc hf hA'.hasFDerivAt (hL.mono fun s hs => hs.2) hinv
  exact ⟨_, fun i j => hasDerivAt_pi.1 (hasDerivAt_pi.1 h.hasDerivAt i) j⟩

/-- **Logarithm.**  Along every differentiable path of matrices with symmetric logarithms, the logarithms have a derivative, and the gradient of the result is that
    derivative. -/
theorem C56_log_derivative (A L : ℝ → M3) (dA : M3) (t : ℝ) (hE : Exact (A t)) (hA : EntryDeriv A dA t) (hL : ∀ᶠ s in nhds t, (L s)ᵀ = L s ∧ exp (L s) = A s) :
    ∃ X, matDerivative logSecant (A t) dA = some X ∧ EntryDeriv L X t := by
  obtain ⟨dL, hdL⟩ := log_path A L dA t hA hL
  have ht := hL.self_of_nhds
  have hp : Positive (A t) := by
    obtain ⟨Q, x, hQ, hx⟩ := symm_sp (L t) ht.1
    rw [← ht.2, hx, sp_exp hQ]
    exact sp_positive hQ fun k => Real.exp_pos _
  obtain ⟨B, hB, -, -, huniq⟩ := C56_logarithm (A t) hE hp
  have : L t = B := huniq (L t) ht.1 ht.2
  exact ⟨dL, log_derivative_of A L dA dL t hE hp hA hdL (hL.mono fun s hs => hs.2) (by rw [hB, this]), hdL⟩

theorem positive_log {B : M3} (hs : Bᵀ = B) (hp : Positive B) : ∃ X : M3, Xᵀ = X ∧ exp X = B := by
  obtain ⟨Q, b, hQ, rfl⟩ := symm_sp B hs
  have hb : ∀ k, 0 < b k := by
    refine positive_eigen (A := sp Q b) (Q := Q) ⟨hQ, fun k => ?_⟩ hp
    have : sp Q b * Q = Q * Matrix.diagonal b := by rw [sp, Matrix.mul_assoc, hQ, Matrix.mul_one]
    funext i
    have := congrFun (congrFun this i) k
    rw [Matrix.mul_apply, Matrix.mul_diagonal] at this
    simpa [Matrix.mulVec, dotProduct, mul_comm] using this
  refine ⟨sp Q fun k => Real.log (b k), sp_transpose _ _, ?_⟩
  rw [sp_exp hQ]
  congr 1
  funext k
  exact Real.exp_log (hb k)

open scoped Matrix.Norms.Operator in
/-- **Square root.**  Along every differentiable path of matrices with positive definite symmetric roots, the roots have a derivative, and the gradient of the result is
    that derivative. -/
theorem C56_root_derivative (A B : ℝ → M3) (dA : M3) (t : ℝ) (hE : Exact (A t)) (hA : EntryDeriv A dA t)
    (hB : ∀ᶠ s in nhds t, (B s)ᵀ = B s ∧ Positive (B s) ∧ B s * B s = A s) : ∃ X, matDerivative sqrtSecant (A t) dA = some X ∧ EntryDeriv B X t := by
  have hch : ∀ s, ∃ X : M3, ((B s)ᵀ = B s ∧ Positive (B s) ∧ B s * B s = A s) → Xᵀ = X ∧ exp X = B s := fun s => by
    by_cases h : (B s)ᵀ = B s ∧ Positive (B s) ∧ B s * B s = A s
    · obtain ⟨X, hX⟩ := positive_log h.1 h.2.1
      exact ⟨X, fun _ => hX⟩
    · exact ⟨0, fun h' => absurd h' h⟩
  choose M hM using hch
  have hL : ∀ᶠ s in nhds t, ((2 : ℝ) • M s)ᵀ = (2 : ℝ) • M s ∧ exp ((2 : ℝ) • M s) = A s := hB.mono fun s hs => by
    obtain ⟨h1, h2⟩ := hM s hs
    refine ⟨by rw [Matrix.transpose_smul, h1], ?_⟩
    rw [two_smul, Matrix.exp_add_of_commute _ _ (Commute.refl _), h2, hs.2.2]
  obtain ⟨dL, hdL⟩ := log_path A (fun s => (2 : ℝ) • M s) dA t hA hL
  have hdM : EntryDeriv M ((1 / 2 : ℝ) • dL) t := fun i j => by
    have := (hdL i j).const_mul (1 / 2 : ℝ)
    refine this.congr_of_eventuallyEq (Filter.Eventually.of_forall fun s => ?_)
    show M s i j = 1 / 2 * (2 * M s i j)
    ring
  have ht := hB.self_of_nhds
  have hdB := exp_path M _ t hdM
  have hdB' : EntryDeriv B ((∑' n, ExpDeriv.term n (M t)) ((1 / 2 : ℝ) • dL)) t := fun i j =>
    (hdB i j).congr_of_eventuallyEq (hB.mono fun s hs => congrFun (congrFun (hM s hs).2.symm i) j)
  have hp : Positive (A t) := by
    obtain ⟨Q, x, hQ, hx⟩ := symm_sp _ hL.self_of_nhds.1
    rw [← hL.self_of_nhds.2, hx, sp_exp hQ]
    exact sp_positive hQ fun k => Real.exp_pos _
  obtain ⟨B', hB', -, -, -, huniq⟩ := C56_root (A t) hE hp
  have : B t = B' := huniq (B t) ht.1 ht.2.1 ht.2.2
  exact ⟨_, root_derivative_of A B dA _ t hE hp hA hdB' (hB.mono fun s hs => hs.2.2) (by rw [hB', this]), hdB'⟩

/-- **Polynomials.**  With a divided difference of a polynomial the gradient is the derivative of the polynomial of the matrix along the path. -/
theorem C56_polynomial_derivative (A : ℝ → M3) (dA : M3) (t : ℝ) (hE : Exact (A t)) (hA : EntryDeriv A dA t) (p : Polynomial ℝ) (g : ℝ → ℝ → ℝ)
    (hg : IsSecant (fun x => p.eval x) (fun x => (Polynomial.derivative p).eval x) g Set.univ) :
    ∃ X, matDerivative g (A t) dA = some X ∧ EntryDeriv (fun s => Polynomial.aeval (A s) p) X t := by
  obtain ⟨lam, Q, h, hd⟩ := hE
  refine ⟨_, derivative_eq h _ _, ?_⟩
  -- the statement for any divided difference of any polynomial
  have key : ∀ (q : Polynomial ℝ), ∃ X, EntryDeriv (fun s => Polynomial.aeval (A s) q) X t ∧
      ∀ a b, (lam a ≠ lam b → (Qᵀ * X * Q) a b = (q.eval (lam a) - q.eval (lam b)) / (lam a - lam b) * (Qᵀ * dA * Q) a b) ∧
        (lam a = lam b → (Qᵀ * X * Q) a b = (Polynomial.derivative q).eval (lam a) * (Qᵀ * dA * Q) a b) := by
    intro q
    induction q using Polynomial.induction_on with
    | C c =>
      refine ⟨0, fun i j => ?_, fun a b => ⟨fun _ => ?_, fun _ => ?_⟩⟩
      · simp only [Polynomial.aeval_C]; exact hasDerivAt_const _ _
      · simp
      · simp
    | add q r hq hr =>
      obtain ⟨X, hX, hX'⟩ := hq
      obtain ⟨Y, hY, hY'⟩ := hr
      refine ⟨X + Y, fun i j => ?_, fun a b => ⟨fun hab => ?_, fun hab => ?_⟩⟩
      · simp only [map_add, Matrix.add_apply]; exact (hX i j).add (hY i j)
      · rw [Matrix.mul_add, Matrix.add_mul, Matrix.add_apply, (hX' a b).1 hab, (hY' a b).1 hab]; simp; ring
      · rw [Matrix.mul_add, Matrix.add_mul, Matrix.add_apply, (hX' a b).2 hab, (hY' a b).2 hab]; simp; ring
    | monomial n c ih =>
      obtain ⟨X, hX, hX'⟩ := ih
      refine ⟨X * A t + Polynomial.aeval (A t) (Polynomial.C c * Polynomial.X ^ n) * dA, ?_, fun a b => ?_⟩
      · have := entry_mul hX hA
        have e : (fun s => Polynomial.aeval (A s) (Polynomial.C c * Polynomial.X ^ n) * A s) = fun s => Polynomial.aeval (A s) (Polynomial.C c * Polynomial.X ^ (n + 1)) := by
          funext s; rw [pow_succ, ← mul_assoc]; simp
        rw [e] at this
        exact this
      · have hAt := decomposition_sp hd
        have e1 : Qᵀ * (X * A t) * Q = Qᵀ * X * Q * Matrix.diagonal lam := by
          conv_lhs => rw [hAt]
          have : Qᵀ * (X * sp Q lam) * Q = Qᵀ * X * Q * Matrix.diagonal lam * (Qᵀ * Q) := by simp only [sp, Matrix.mul_assoc]
          rw [this, hd.1, Matrix.mul_one]
        have e2 : Qᵀ * (Polynomial.aeval (A t) (Polynomial.C c * Polynomial.X ^ n) * dA) * Q = Matrix.diagonal (fun k => c * lam k ^ n) * (Qᵀ * dA * Q) := by
          conv_lhs => rw [hAt, sp_aeval hd.1]
          have : ∀ v, Qᵀ * (sp Q v * dA) * Q = (Qᵀ * Q) * Matrix.diagonal v * (Qᵀ * dA * Q) := fun v => by simp only [sp, Matrix.mul_assoc]
          rw [this, hd.1, Matrix.one_mul]
          congr 3; funext k; simp
        rw [Matrix.mul_add, Matrix.add_mul, Matrix.add_apply, e1, e2, Matrix.mul_diagonal, Matrix.diagonal_mul]
        refine ⟨fun hab => ?_, fun hab => ?_⟩
        · rw [(hX' a b).1 hab]
          have := sub_ne_zero.2 hab
          simp
          field_simp
          ring
        · rw [(hX' a b).2 hab]
          simp [← hab]
          rcases n with _ | n
          · simp
          · simp; ring
  obtain ⟨X, hX, hX'⟩ := key p
  rw [← of_basis hd.1 (X := X) (Y := Matrix.of fun a b => g (lam a) (lam b) * (Qᵀ * dA * Q) a b) fun a b => ?_]
  · exact hX
  · rw [Matrix.of_apply]
    by_cases hab : lam a = lam b
    · rw [(hX' a b).2 hab, hab, (hg (lam b) trivial (lam b) trivial).2]
    · rw [(hX' a b).1 hab, (hg (lam a) trivial (lam b) trivial).1 hab]

/-! ### Non-vacuity -/

/-- `diag(-2, -1, 3)` is decomposed exactly (C55). -/
theorem diagonal_exact : Exact !![-2, 0, 0; 0, -1, 0; 0, 0, 3] :=
  ⟨_, _, diagonal_result, C55_distinct _ (by ext i j; fin_cases i <;> fin_cases j <;> rfl) _ _ diagonal_result (by
    intro j k h
    fin_cases j <;> fin_cases k <;> first | exact absurd rfl h | (simp; norm_num))⟩

/-- A positive definite matrix with eigenvalues 1, 1, 4. -/
def spd : M3 := !![2, 1, 1; 1, 2, 1; 1, 1, 2]

theorem spd_exact : Exact spd :=
  C55_repeated _ (by ext i j; fin_cases i <;> fin_cases j <;> rfl) ![4, 1, 1] (by
    intro x
    rw [Matrix.det_fin_three, Fin.prod_univ_three]
    simp [spd]
    ring) rfl

theorem spd_positive : Positive spd := by
  intro v hv
  have e : v ⬝ᵥ (spd *ᵥ v) = v 0 ^ 2 + v 1 ^ 2 + v 2 ^ 2 + (v 0 + v 1 + v 2) ^ 2 := by
    simp [spd, Matrix.mulVec, dotProduct, Fin.sum_univ_three]
    ring
  rw [e]
  have : v 0 ≠ 0 ∨ v 1 ≠ 0 ∨ v 2 ≠ 0 := by
    by_contra hcon
    push Not at hcon
    exact hv (by funext i; fin_cases i <;> simp [hcon])
  rcases this with h | h | h <;> positivity

example : ∃ B, sqrtSymm spd = some B ∧ B * B = spd := by
  obtain ⟨B, h1, -, -, h2, -⟩ := C56_root spd spd_exact spd_positive
  exact ⟨B, h1, h2⟩

example : ∃ B, logSymm spd = some B ∧ exp B = spd := by
  obtain ⟨B, h1, -, h2, -⟩ := C56_logarithm spd spd_exact spd_positive
  exact ⟨B, h1, h2⟩

/-- The path `s ↦ s² spd` at `s = 1`: its roots are `s B`. -/
example (B : M3) (hB : sqrtSymm spd = some B) : matDerivative sqrtSecant spd ((2 : ℝ) • spd) = some B := by
  obtain ⟨B', h1, hs, hp, h2, -⟩ := C56_root spd spd_exact spd_positive
  rw [hB] at h1
  obtain rfl := Option.some.inj h1
  obtain ⟨X, hX, hX'⟩ := C56_root_derivative (fun s => s ^ 2 • spd) (fun s => s • B) ((2 : ℝ) • spd) 1 (by simpa using spd_exact)
    (fun i j => by
      have := ((hasDerivAt_pow 2 (1 : ℝ)).mul_const (spd i j))
      simpa using this)
    ((eventually_gt_nhds (show (0 : ℝ) < 1 by norm_num)).mono fun s h0 => ⟨by rw [Matrix.transpose_smul, hs], fun v hv => by
      rw [Matrix.smul_mulVec, dotProduct_smul, smul_eq_mul]; exact mul_pos h0 (hp v hv), by rw [Matrix.smul_mul, Matrix.mul_smul, h2, smul_smul, sq]⟩)
  have : X = B := entry_unique hX' fun i j => by
    have := ((hasDerivAt_id (1 : ℝ)).mul_const (B i j))
    simpa using this
  rw [← this]
  simpa using hX

/-- The path `s ↦ exp(s L)` at `s = 1` for the logarithm `L` of `spd`: the derivative of its logarithms is `L`. -/
example (L : M3) (hs : Lᵀ = L) (hL : exp L = spd) (dA : M3) (hA : EntryDeriv (fun s : ℝ => exp (s • L)) dA 1) : matDerivative logSecant spd dA = some L := by
  obtain ⟨X, hX, hX'⟩ := C56_log_derivative (fun s => exp (s • L)) (fun s => s • L) dA 1 (by simpa [hL] using spd_exact) hA
    (Filter.Eventually.of_forall fun s => ⟨by rw [Matrix.transpose_smul, hs], rfl⟩)
  have : X = L := entry_unique hX' fun i j => by
    have := ((hasDerivAt_id (1 : ℝ)).mul_const (L i j))
    simpa using this
  rw [← this]
  simpa [hL] using hX

/-- Exchanging two axes. -/
example (f : ℝ → ℝ) : ∃ F, matFunction f spd = some F ∧
    matFunction f (!![0, 1, 0; 1, 0, 0; 0, 0, 1] * spd * !![0, 1, 0; 1, 0, 0; 0, 0, 1]ᵀ) = some (!![0, 1, 0; 1, 0, 0; 0, 0, 1] * F * !![0, 1, 0; 1, 0, 0; 0, 0, 1]ᵀ) := by
  have e : (!![0, 1, 0; 1, 0, 0; 0, 0, 1] * spd * !![0, 1, 0; 1, 0, 0; 0, 0, 1]ᵀ : M3) = spd := by
    ext i j; fin_cases i <;> fin_cases j <;> simp [spd, Matrix.mul_apply, Fin.sum_univ_three]
  exact C56_isotropic spd _ (by ext i j; fin_cases i <;> fin_cases j <;> simp [Matrix.mul_apply, Fin.sum_univ_three]) spd_exact (by rw [e]; exact spd_exact) f

/-- The path `s ↦ s D` through `diag(-2, -1, 3)`. -/
example : ∃ X, matDerivative expSecant !![-2, 0, 0; 0, -1, 0; 0, 0, 3] !![-2, 0, 0; 0, -1, 0; 0, 0, 3] = some X ∧
    EntryDeriv (fun s : ℝ => exp (s • (!![-2, 0, 0; 0, -1, 0; 0, 0, 3] : M3))) X 1 := by
  have key := C56_exp_derivative (fun s => s • (!![-2, 0, 0; 0, -1, 0; 0, 0, 3] : M3)) !![-2, 0, 0; 0, -1, 0; 0, 0, 3] 1 (by
    rw [one_smul]; exact diagonal_exact) (fun i j => by
      have := ((hasDerivAt_id (1 : ℝ)).mul_const ((!![-2, 0, 0; 0, -1, 0; 0, 0, 3] : M3) i j))
      rw [one_mul] at this
      exact this)
  simp only [one_smul] at key
  exact key

end Serac.C56
