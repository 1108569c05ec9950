import Verif.Proofs.Eigen
/-!
# C55: `eig_symm` returns the eigenvalues and eigenvectors of a symmetric matrix, except where its two remaining eigenvalues are merged by mistake
-/

noncomputable section
namespace Serac.C55
open Serac.Eigen Serac.Tensor
open scoped Matrix

/-! ### Specification -/

/-- The columns of `Q` are orthonormal eigenvectors of `A` for the values `lam`. -/
def Decomposition (A : M3) (lam : V3) (Q : M3) : Prop := Qᵀ * Q = 1 ∧ ∀ k, A *ᵥ (fun i => Q i k) = lam k • fun i => Q i k

/-- Square of the length of `A q - lam q` for column `k`. -/
def defect (A : M3) (lam : V3) (Q : M3) (k : Fin 3) : ℝ := ∑ i, ((A *ᵥ fun i => Q i k) i - lam k * Q i k) ^ 2

/-- Sum of the squares of the entries. -/
def squares (A : M3) : ℝ := ∑ i, ∑ j, A i j ^ 2

/-- The eigenvalues of `A` counted with multiplicity are `lam`. -/
def Spectrum (A : M3) (lam : V3) : Prop := ∀ x, (x • (1 : M3) - A).det = ∏ k, (x - lam k)

/-! ### Lemmas -/

theorem dev_symm {A : M3} (h : Aᵀ = A) : (dev A : M3)ᵀ = dev A := by
  rw [dev_eq]; simp [Matrix.transpose_sub, h]

theorem dev_trace (A : M3) : (dev A : M3).trace = 0 := by
  rw [dev_eq]; simp [Matrix.trace_sub, Matrix.trace_smul]

theorem decomposition_squares {A : M3} {lam : V3} {Q : M3} (h : Decomposition A lam Q) : ∑ k, lam k ^ 2 = squares A := by
  have hQ' : Q * Qᵀ = 1 := mul_eq_one_comm.1 h.1
  have hAQ : A * Q = Q * Matrix.diagonal lam := by
    ext i k
    rw [Matrix.mul_diagonal]
    have := congrFun (h.2 k) i
    rw [Matrix.mul_apply]
    simpa [Matrix.mulVec, dotProduct, mul_comm] using this
  have hA : A = Q * Matrix.diagonal lam * Qᵀ := by rw [← hAQ, Matrix.mul_assoc, hQ', Matrix.mul_one]
  have h1 : squares A = (Aᵀ * A).trace := by
    simp only [squares, Matrix.trace, Matrix.diag, Matrix.mul_apply, Matrix.transpose_apply]
    rw [Finset.sum_comm]
    simp [sq]
  have h2 : Aᵀ * A = Q * (Matrix.diagonal lam * Matrix.diagonal lam) * Qᵀ := by
    rw [hA]
    simp only [Matrix.transpose_mul, Matrix.transpose_transpose, Matrix.diagonal_transpose, Matrix.mul_assoc]
    rw [← Matrix.mul_assoc Qᵀ Q, h.1, Matrix.one_mul]
  rw [h1, h2, Matrix.trace_mul_comm, ← Matrix.mul_assoc, h.1, Matrix.one_mul, Matrix.diagonal_mul_diagonal, Matrix.trace_diagonal]
  simp [sq]

theorem decomposition_spectrum {A : M3} {lam : V3} {Q : M3} (h : Decomposition A lam Q) : Spectrum A lam := by
  intro x
  have hQ' : Q * Qᵀ = 1 := mul_eq_one_comm.1 h.1
  have hAQ : A * Q = Q * Matrix.diagonal lam := by
    ext i k
    rw [Matrix.mul_diagonal]
    have := congrFun (h.2 k) i
    rw [Matrix.mul_apply]
    simpa [Matrix.mulVec, dotProduct, mul_comm] using this
  have hx : x • (1 : M3) - A = Q * (Matrix.diagonal fun k => x - lam k) * Qᵀ := by
    have : (Matrix.diagonal fun k => x - lam k) = x • (1 : M3) - Matrix.diagonal lam := by
      ext i j; by_cases hij : i = j <;> simp [hij]
    rw [this, Matrix.mul_sub, Matrix.sub_mul, ← hAQ, Matrix.mul_assoc A, hQ', Matrix.mul_one]
    simp [hQ']
  have hdet : Q.det * Q.det = 1 := by
    have := congrArg Matrix.det hQ'
    rwa [Matrix.det_mul, Matrix.det_transpose, Matrix.det_one] at this
  rw [hx, Matrix.det_mul, Matrix.det_mul, Matrix.det_transpose, Matrix.det_diagonal]
  linear_combination (∏ k, (x - lam k)) * hdet

theorem spectrum_shift {A : M3} {lam : V3} (c : ℝ) (h : Spectrum A lam) : Spectrum (A - c • (1 : M3)) fun k => lam k - c := by
  intro x
  have := h (x + c)
  rw [show (x + c) • (1 : M3) - A = x • (1 : M3) - (A - c • (1 : M3)) by rw [add_smul]; abel] at this
  rw [this]
  exact Finset.prod_congr rfl fun k _ => by ring

/-- The result in terms of the unsorted decomposition of the deviator. -/
theorem eigSymm_eq (A : M3) (hA : Aᵀ = A) : ∃ (eta : V3) (Q' : M3) (o : Equiv.Perm (Fin 3)), DevSpec (dev A) eta Q' ∧
    eigSymm A = some (fun k => eta (o k) + A.trace / 3, fun i k => Q' i (o k)) ∧
      Monotone fun k => eta (o k) + A.trace / 3 := by
  obtain ⟨eta, Q, h1, h2⟩ := deviator_spec (dev A) (dev_symm hA) (dev_trace A)
  obtain ⟨hb, hle1, hle2⟩ := argsort_spec fun i => eta i + tr A / 3
  refine ⟨eta, Q, Equiv.ofBijective _ hb, h2, ?_, ?_⟩
  · simp only [eigSymm, h1, bind, Option.bind, pure, tr_eq]
    rfl
  · rw [tr_eq] at hle1 hle2
    intro i j hij
    show eta (argsort (fun i => eta i + tr A / 3) i) + _ ≤ eta (argsort (fun i => eta i + tr A / 3) j) + _
    rw [tr_eq]
    fin_cases i <;> fin_cases j <;> first | exact le_rfl | exact hle1 | exact hle2 | exact hle1.trans hle2 | exact absurd hij (by decide)

theorem sum_perm (o : Equiv.Perm (Fin 3)) (f : Fin 3 → ℝ) : ∑ k, f (o k) = ∑ k, f k := Equiv.sum_comp o f

theorem ortho_perm {Q : M3} (h : Qᵀ * Q = 1) (o : Equiv.Perm (Fin 3)) : let P : M3 := fun i k => Q i (o k)
    Pᵀ * P = 1 := by
  ext i j
  have h := congrFun (congrFun h (o i)) (o j)
  simp only [Matrix.one_apply, o.injective.eq_iff] at h ⊢
  exact h

theorem col_shift (A : M3) (v : V3) (e c : ℝ) : A *ᵥ v - (e + c) • v = (A - c • (1 : M3)) *ᵥ v - e • v := by
  rw [Matrix.sub_mulVec, Matrix.smul_mulVec, Matrix.one_mulVec, add_smul]; abel

theorem squares_dev (A : M3) : squares A = 2 * invJ2 (dev A) + A.trace ^ 2 / 3 := by
  rw [J2_eq, dev_eq]
  simp only [squares, Fin.sum_univ_three, Matrix.sub_apply, Matrix.smul_apply, Matrix.one_apply, Matrix.trace_fin_three, smul_eq_mul]
  simp
  ring

theorem sum_squares (eta : V3) (h : eta 0 + eta 1 + eta 2 = 0) (c : ℝ) : ∑ k, (eta k + c) ^ 2 = eta 0 ^ 2 + eta 1 ^ 2 + eta 2 ^ 2 + 3 * c ^ 2 := by
  rw [Fin.sum_univ_three]
  linear_combination 2 * c * h

theorem sq_invJ2_of_char {D : M3} (hs : Dᵀ = D) (ht : D.trace = 0) {eta : V3} (hc : ∀ x, (D - x • (1 : M3)).det = (eta 0 - x) * (eta 1 - x) * (eta 2 - x)) :
    eta 0 ^ 2 + eta 1 ^ 2 + eta 2 ^ 2 = 2 * invJ2 D ∧ invJ3 D = eta 0 * eta 1 * eta 2 ∧ eta 0 + eta 1 + eta 2 = 0 := by
  have k : ∀ x, -x ^ 3 + invJ2 D * x + invJ3 D = (eta 0 - x) * (eta 1 - x) * (eta 2 - x) := fun x => by rw [← charpoly_dev D hs ht x, hc x]
  have k0 := k 0
  have k1 := k 1
  have k2 := k (-1)
  have hsum : eta 0 + eta 1 + eta 2 = 0 := by linarith
  refine ⟨?_, by linarith, hsum⟩
  have hJ : invJ2 D = -(eta 0 * eta 1 + eta 1 * eta 2 + eta 2 * eta 0) := by linarith
  rw [hJ]
  linear_combination (eta 0 + eta 1 + eta 2) * hsum

theorem spectrum_char {D : M3} {eta : V3} (h : Spectrum D eta) (x : ℝ) : (D - x • (1 : M3)).det = (eta 0 - x) * (eta 1 - x) * (eta 2 - x) := by
  have := h x
  rw [show x • (1 : M3) - D = (-1 : ℝ) • (D - x • (1 : M3)) by simp, Matrix.det_smul, Fintype.card_fin, Fin.prod_univ_three] at this
  linarith

/-- Classification of the results. -/
theorem classify (A : M3) (hA : Aᵀ = A) : ∃ lam Q, eigSymm A = some (lam, Q) ∧ Qᵀ * Q = 1 ∧ Monotone lam ∧ ∑ k, lam k = A.trace ∧
    (Decomposition A lam Q
      ∨ (Spectrum A lam ∧ (∀ k, defect A lam Q k ≤ 2e-15 ^ 2) ∧ ∑ k, lam k ^ 2 = squares A ∧ (∃ j k, lam j ≠ lam k ∧ |lam j - lam k| ≤ 2e-15)
          ∧ 27 * invJ3 (dev A) ^ 2 < 4 * invJ2 (dev A) ^ 3)
      ∨ ((∃ j k, j ≠ k ∧ lam j = lam k) ∧ ∑ k, lam k ^ 2 < squares A ∧ 27 * invJ3 (dev A) ^ 2 < 4 * invJ2 (dev A) ^ 3
          ∧ ∀ k, lam k = (fun i => Q i k) ⬝ᵥ (A *ᵥ fun i => Q i k))) := by
  obtain ⟨eta, Q, o, hD, he, hm⟩ := eigSymm_eq A hA
  have hdev : (dev A : M3) = A - (A.trace / 3) • (1 : M3) := by rw [dev_eq]; rfl
  have hss : ∑ k, (eta (o k) + A.trace / 3) ^ 2 = eta 0 ^ 2 + eta 1 ^ 2 + eta 2 ^ 2 + A.trace ^ 2 / 3 := by
    rw [sum_perm o fun k => (eta k + A.trace / 3) ^ 2, sum_squares eta hD.sum]
    ring
  refine ⟨_, _, he, ?_, hm, ?_, ?_⟩
  · exact ortho_perm hD.ortho o
  · rw [sum_perm o fun k => eta k + A.trace / 3, Fin.sum_univ_three]
    have := hD.sum
    linarith
  · rcases hD.cases with h | ⟨hne, hle, hst, hch, hres⟩ | ⟨heq, hlt, hst, hray⟩
    · left
      refine ⟨?_, fun k => ?_⟩
      · exact ortho_perm hD.ortho o
      · have h1 := h (o k)
        rw [hdev] at h1
        rw [← sub_eq_zero]
        exact (col_shift A (fun i => Q i (o k)) (eta (o k)) (A.trace / 3)).trans (sub_eq_zero.2 h1)
    · right; left
      have hdsq := (sq_invJ2_of_char (dev_symm hA) (dev_trace A) hch).1
      refine ⟨fun x => ?_, fun k => ?_, ?_, ⟨o.symm 1, o.symm 2, ?_, ?_⟩, hst⟩
      · have h1 := hch (x - A.trace / 3)
        have e : (dev A : M3) - (x - A.trace / 3) • (1 : M3) = (-1 : ℝ) • (x • (1 : M3) - A) := by
          rw [hdev, sub_smul]; simp only [neg_smul, one_smul]; abel
        rw [e, Matrix.det_smul, Fintype.card_fin] at h1
        rw [Equiv.prod_comp o fun k => x - (eta k + A.trace / 3), Fin.prod_univ_three]
        linarith
      · have h1 := hres (o k)
        rw [hdev] at h1
        have e := col_shift A (fun i => Q i (o k)) (eta (o k)) (A.trace / 3)
        have h2 : (A *ᵥ (fun i => Q i (o k)) - (eta (o k) + A.trace / 3) • fun i => Q i (o k)) ⬝ᵥ (A *ᵥ (fun i => Q i (o k)) - (eta (o k) + A.trace / 3) • fun i => Q i (o k)) ≤ 2e-15 ^ 2 := by
          rw [e]; exact h1
        refine le_trans (le_of_eq ?_) h2
        simp only [defect, dotProduct, Pi.sub_apply, Pi.smul_apply, smul_eq_mul, sq]
      · rw [hss, hdsq, squares_dev]
      · simp only [Equiv.apply_symm_apply]
        intro h; exact hne (by linarith)
      · simp only [Equiv.apply_symm_apply]
        rw [show eta 1 + A.trace / 3 - (eta 2 + A.trace / 3) = eta 1 - eta 2 by ring]
        exact hle
    · right; right
      refine ⟨⟨o.symm 1, o.symm 2, fun h => absurd (o.symm.injective h) (by decide), ?_⟩, ?_, hst, fun k => ?_⟩
      · simp only [Equiv.apply_symm_apply]; rw [heq]
      · rw [hss, squares_dev]; linarith
      · have h1 := hray (o k)
        have h2 : Qᵀ (o k) ⬝ᵥ Qᵀ (o k) = 1 := by
          have := congrFun (congrFun hD.ortho (o k)) (o k)
          rw [Matrix.one_apply_eq] at this
          exact this
        rw [hdev, Matrix.sub_mulVec, Matrix.smul_mulVec, Matrix.one_mulVec, dotProduct_sub, dotProduct_smul, h2, smul_eq_mul, mul_one] at h1
        exact eq_sub_iff_add_eq.1 h1

/-! ### Theorems -/

/-- For every symmetric matrix the function has a result: no division by zero, no index out of range.  The columns of the second part are orthonormal, the values ascend and their sum is the
    trace. -/
theorem C55_result (A : M3) (hA : Aᵀ = A) : ∃ lam Q, eigSymm A = some (lam, Q) ∧ Qᵀ * Q = 1 ∧ Monotone lam ∧ ∑ k, lam k = A.trace := by
  obtain ⟨lam, Q, h1, h2, h3, h4, -⟩ := classify A hA
  exact ⟨lam, Q, h1, h2, h3, h4⟩

/-- The values of a matrix with a positive quadratic form are positive, merged or not: logarithms and square roots of them exist. -/
theorem C55_positive (A : M3) (hA : Aᵀ = A) (hp : ∀ v : V3, v ≠ 0 → 0 < v ⬝ᵥ (A *ᵥ v)) (lam : V3) (Q : M3) (h : eigSymm A = some (lam, Q)) (k : Fin 3) : 0 < lam k := by
  obtain ⟨lam', Q', h1, hQ, -, -, hc⟩ := classify A hA
  rw [h] at h1
  obtain ⟨rfl, rfl⟩ := Prod.mk.inj (Option.some.inj h1)
  have hq : (fun i => Q i k) ⬝ᵥ (fun i => Q i k) = 1 := by
    have := congrFun (congrFun hQ k) k
    rw [Matrix.one_apply_eq] at this
    exact this
  have h0 : (fun i => Q i k) ≠ 0 := by
    intro h0; rw [h0, zero_dotProduct] at hq; norm_num at hq
  rcases hc with hc | hc | hc
  · have := hp _ h0
    rw [hc.2 k, dotProduct_smul, hq, smul_eq_mul, mul_one] at this
    exact this
  · have hz : (lam k • (1 : M3) - A).det = 0 := by
      rw [hc.1, Finset.prod_eq_zero (Finset.mem_univ k) (sub_self _)]
    obtain ⟨v, hv, hv0⟩ := Matrix.exists_mulVec_eq_zero_iff.2 hz
    rw [Matrix.sub_mulVec, Matrix.smul_mulVec, Matrix.one_mulVec, sub_eq_zero] at hv0
    have := hp v hv
    rw [← hv0, dotProduct_smul, smul_eq_mul] at this
    exact pos_of_mul_pos_left this (dot_self_nonneg v)
  · rw [hc.2.2.2 k]
    exact hp _ h0

/-- If the squares of the values add up to the sum of the squares of the entries, then the values are the eigenvalues, and the columns are eigenvectors up to an error of length at most `2e-15`.
    (The full property would not need the hypothesis: see `C55_wrong` and `C55_tie`.) -/
theorem C55_eigenvalues_partial (A : M3) (hA : Aᵀ = A) (lam : V3) (Q : M3) (h : eigSymm A = some (lam, Q)) (hsq : ∑ k, lam k ^ 2 = squares A) :
    Spectrum A lam ∧ ∀ k, defect A lam Q k ≤ 2e-15 ^ 2 := by
  obtain ⟨lam', Q', h1, -, -, -, hc⟩ := classify A hA
  rw [h] at h1
  obtain ⟨rfl, rfl⟩ := Prod.mk.inj (Option.some.inj h1)
  rcases hc with hc | hc | hc
  · refine ⟨decomposition_spectrum hc, fun k => ?_⟩
    have : defect A lam Q k = 0 := by
      rw [defect, hc.2 k]; simp
    rw [this]; positivity
  · exact ⟨hc.1, hc.2.1⟩
  · linarith [hc.2.1]

/-- If in addition different values are more than `2e-15` apart, then the decomposition is exact. -/
theorem C55_exact_partial (A : M3) (hA : Aᵀ = A) (lam : V3) (Q : M3) (h : eigSymm A = some (lam, Q)) (hsq : ∑ k, lam k ^ 2 = squares A)
    (hgap : ∀ j k, lam j ≠ lam k → 2e-15 < |lam j - lam k|) : Decomposition A lam Q := by
  obtain ⟨lam', Q', h1, -, -, -, hc⟩ := classify A hA
  rw [h] at h1
  obtain ⟨rfl, rfl⟩ := Prod.mk.inj (Option.some.inj h1)
  rcases hc with hc | ⟨-, -, -, ⟨j, k, hne, hle⟩, -⟩ | hc
  · exact hc
  · exact absurd hle (not_le.2 (hgap j k hne))
  · linarith [hc.2.1]

/-- Three values more than `2e-15` apart are always exact, without any further test. -/
theorem C55_distinct (A : M3) (hA : Aᵀ = A) (lam : V3) (Q : M3) (h : eigSymm A = some (lam, Q)) (hgap : ∀ j k, j ≠ k → 2e-15 < |lam j - lam k|) : Decomposition A lam Q := by
  obtain ⟨lam', Q', h1, -, -, -, hc⟩ := classify A hA
  rw [h] at h1
  obtain ⟨rfl, rfl⟩ := Prod.mk.inj (Option.some.inj h1)
  rcases hc with hc | ⟨-, -, -, ⟨j, k, hne, hle⟩, -⟩ | ⟨⟨j, k, hjk, heq⟩, -⟩
  · exact hc
  · exact absurd hle (not_le.2 (hgap j k fun h => hne (by rw [h])))
  · have := hgap j k hjk
    rw [heq, sub_self, abs_zero] at this
    norm_num at this

/-- A matrix with a repeated eigenvalue is always decomposed exactly. -/
theorem C55_repeated (A : M3) (hA : Aᵀ = A) (mu : V3) (hmu : Spectrum A mu) (hrep : mu 1 = mu 2) : ∃ lam Q, eigSymm A = some (lam, Q) ∧ Decomposition A lam Q := by
  obtain ⟨lam, Q, h1, -, -, -, hc⟩ := classify A hA
  refine ⟨lam, Q, h1, ?_⟩
  have hsp := spectrum_shift (A.trace / 3) hmu
  rw [show A - (A.trace / 3) • (1 : M3) = dev A by rw [dev_eq]; rfl] at hsp
  obtain ⟨hJ2, hJ3, hsum⟩ := sq_invJ2_of_char (dev_symm hA) (dev_trace A) (spectrum_char hsp)
  have hnot : ¬ 27 * invJ3 (dev A) ^ 2 < 4 * invJ2 (dev A) ^ 3 := by
    have e0 : mu 0 - A.trace / 3 = -2 * (mu 2 - A.trace / 3) := by rw [hrep] at hsum; linarith
    rw [hrep, e0] at hJ2 hJ3
    generalize mu 2 - A.trace / 3 = p at hJ2 hJ3
    have : invJ2 (dev A) = 3 * p ^ 2 := by linarith
    rw [this, hJ3, not_lt]
    exact le_of_eq (by ring)
  rcases hc with hc | hc | hc
  · exact hc
  · exact absurd hc.2.2.2.2 hnot
  · exact absurd hc.2.2.1 hnot

/-- The condition on the squares is necessary. -/
theorem C55_wrong (A : M3) (lam : V3) (Q : M3) (hsq : ∑ k, lam k ^ 2 ≠ squares A) : ¬ Decomposition A lam Q := fun h => hsq (decomposition_squares h)

/-! ### A matrix whose eigenvalues are merged -/

/-- Its eigenvalues are -60, -45 and 105. -/
def merged : M3 := !![-49, 22, 0; 22, 84, -50; 0, -50, -35]

theorem merged_spectrum : Spectrum merged ![-60, -45, 105] := by
  intro x
  rw [Matrix.det_fin_three, Fin.prod_univ_three]
  simp [merged]
  ring

theorem norm_lt {u v : V3} (h : u ⬝ᵥ u < v ⬝ᵥ v) : Eigen.norm u < Eigen.norm v := by
  rw [norm_eq, norm_eq]; exact Real.sqrt_lt_sqrt (dot_self_nonneg u) h

/-- `eig_symm` returns -52.5 twice instead of -60 and -45. -/
theorem C55_tie : ∃ Q, eigSymm merged = some (![-52.5, -52.5, 105], Q) ∧ ¬ Decomposition merged ![-52.5, -52.5, 105] Q := by
  have hT : merged.trace = 0 := by rw [Matrix.trace_fin_three]; simp [merged]; norm_num
  have hS : mergedᵀ = merged := by ext i j; fin_cases i <;> fin_cases j <;> rfl
  have hdev : (dev merged : M3) = merged := by rw [dev_eq, hT]; simp
  have hJ2 : invJ2 merged = 8325 := by rw [J2_eq]; simp [Fin.sum_univ_three, merged]; norm_num
  have hJ3 : invJ3 merged = 283500 := by rw [invJ3, det3_eq, Matrix.det_fin_three]; simp [merged]; norm_num
  have hfe : firstEigenvalue merged = 105 := by
    obtain ⟨h1, h2, h3⟩ := firstEigenvalue_spec merged hS hT (by rw [hJ2]; norm_num)
    rw [hJ2, hJ3] at h1
    have hp : 0 < firstEigenvalue merged := h3.2 (by rw [hJ3]; norm_num)
    generalize firstEigenvalue merged = e at h1 hp
    have : (e + 60) * (e + 45) * (e - 105) = 0 := by linear_combination h1
    rcases mul_eq_zero.1 this with h | h
    · have := mul_pos (show 0 < e + 60 by linarith) (show 0 < e + 45 by linarith)
      linarith
    · linarith
  set R : M3 := !![-154, 22, 0; 22, -21, -50; 0, -50, -140] with hR
  have hrows : (rowsOf merged 105 : M3) = R := by
    ext i j; fin_cases i <;> fin_cases j <;> simp [rowsOf, merged, hR] <;> norm_num
  have hR0 : R 0 = ![-154, 22, 0] := rfl
  have hR1 : R 1 = ![22, -21, -50] := rfl
  have hR2 : R 2 = ![0, -50, -140] := rfl
  have hl : largest R = some 0 := by
    obtain ⟨i, hi, hmax⟩ := largest_spec R
    rw [hi]
    fin_cases i
    · rfl
    · exact absurd (hmax 0) (not_le.2 (norm_lt (by simp [hR0, hR1, dotProduct, Fin.sum_univ_three]; norm_num)))
    · exact absurd (hmax 0) (not_le.2 (norm_lt (by simp [hR0, hR2, dotProduct, Fin.sum_univ_three]; norm_num)))
  obtain ⟨c, -, hn0, -, hc⟩ := normalize_eq (R 0) (by rw [hR0]; intro h; have := congrFun h 1; norm_num at this)
  have hc' : c * c = 1 / 24200 := by
    have : R 0 ⬝ᵥ R 0 = 24200 := by simp [hR0, dotProduct, Fin.sum_univ_three]; norm_num
    rw [this] at hc; linarith
  have ht1 : reject (R (0 + 1)) (c • R 0) = ![-5 / 2, -35 / 2, -50] := by
    rw [reject_eq, dotProduct_smul, smul_smul, smul_eq_mul, show c * (R (0 + 1) ⬝ᵥ R 0) = (R (0 + 1) ⬝ᵥ R 0) * c by ring, mul_assoc, hc']
    funext i
    fin_cases i <;> simp [hR0, hR1, dotProduct, Fin.sum_univ_three] <;> norm_num
  have ht2 : reject (R (0 + 2)) (c • R 0) = ![-7, -49, -140] := by
    rw [reject_eq, dotProduct_smul, smul_smul, smul_eq_mul, show c * (R (0 + 2) ⬝ᵥ R 0) = (R (0 + 2) ⬝ᵥ R 0) * c by ring, mul_assoc, hc']
    funext i
    fin_cases i <;> simp [hR0, hR2, dotProduct, Fin.sum_univ_three] <;> norm_num
  have hlong : longer (reject (R (0 + 1)) (c • R 0)) (reject (R (0 + 2)) (c • R 0)) = ![-7, -49, -140] := by
    rw [ht1, ht2, longer, if_neg]
    exact not_lt.2 (norm_lt (by simp [dotProduct, Fin.sum_univ_three]; norm_num)).le
  obtain ⟨d, -, hn1, -, hd⟩ := normalize_eq (![-7, -49, -140] : V3) (by intro h; have := congrFun h 0; norm_num at this)
  have hd' : d * d = 1 / 22050 := by
    have : (![-7, -49, -140] : V3) ⬝ᵥ ![-7, -49, -140] = 22050 := by simp [dotProduct, Fin.sum_univ_three]; norm_num
    rw [this] at hd; linarith
  have hplane : plane R = some (c • R 0, d • ![-7, -49, -140]) := by
    simp only [plane, hl, hn0, bind, Option.bind, pure]
    rw [hlong, hn1]
  have hb : (block merged (c • R 0) (d • ![-7, -49, -140])).A11 = -105 / 2 ∧ (block merged (c • R 0) (d • ![-7, -49, -140])).A22 = -105 / 2 := by
    simp only [block, dotVV_eq', dotMV_eq', Matrix.mulVec_smul, smul_dotProduct, dotProduct_smul, smul_eq_mul]
    constructor
    · rw [← mul_assoc, hc']
      simp [hR0, merged, Matrix.mulVec, dotProduct, Fin.sum_univ_three]; norm_num
    · rw [← mul_assoc, hd']
      simp [merged, Matrix.mulVec, dotProduct, Fin.sum_univ_three]; norm_num
  have hdelta : (block merged (c • R 0) (d • ![-7, -49, -140])).delta = 0 := by
    rw [Block.delta, hb.1, hb.2, sub_self, sgn_zero]; ring
  have hD : ∃ Q, deviator merged = some (![105, -105 / 2, -105 / 2], Q) := by
    refine ⟨columns (cross (c • R 0) (d • ![-7, -49, -140])) (c • R 0) (d • ![-7, -49, -140]), ?_⟩
    rw [deviator, if_pos (by rw [hJ2]; norm_num)]
    simp only [hfe, hrows, hplane, bind, Option.bind, pure, hdelta, hb.1, hb.2, abs_zero]
    rw [if_pos (by norm_num)]
    congr 3
    norm_num
  obtain ⟨Q, hQ⟩ := hD
  refine ⟨fun i k => Q i (![1, 2, 0] k), ?_, C55_wrong _ _ _ ?_⟩
  · have htr : tr merged = 0 := by rw [tr_eq, hT]
    have hord : argsort (fun i => (![105, -105 / 2, -105 / 2] : V3) i + 0 / 3) = ![1, 2, 0] := by
      rw [argsort_eq]
      exact (if_pos (show (-105 / 2 + 0 / 3 : ℝ) < 105 + 0 / 3 by norm_num)).trans ((if_pos (show (-105 / 2 + 0 / 3 : ℝ) < 105 + 0 / 3 by norm_num)).trans
        (if_neg (show ¬ (-105 / 2 + 0 / 3 : ℝ) < -105 / 2 + 0 / 3 by norm_num)))
    simp only [eigSymm, hdev, hQ, bind, Option.bind, pure, htr, hord]
    congr 2
    funext k
    fin_cases k
    · show (-105 / 2 + 0 / 3 : ℝ) = -52.5
      norm_num
    · show (-105 / 2 + 0 / 3 : ℝ) = -52.5
      norm_num
    · show (105 + 0 / 3 : ℝ) = 105
      norm_num
  · simp [squares, Fin.sum_univ_three, merged]; norm_num

/-! ### Non-vacuity -/

/-- A shear with three eigenvalues `-1, 2, 4` (the squares add up to 21). -/
example : ∃ lam Q, eigSymm !![3, 1, 0; 1, 3, 0; 0, 0, -1] = some (lam, Q) ∧ Monotone lam ∧ ∑ k, lam k = 5 := by
  obtain ⟨lam, Q, h1, -, h3, h4⟩ := C55_result !![3, 1, 0; 1, 3, 0; 0, 0, -1] (by ext i j; fin_cases i <;> fin_cases j <;> rfl)
  exact ⟨lam, Q, h1, h3, by rw [h4, Matrix.trace_fin_three]; simp; norm_num⟩

/-- A matrix with the eigenvalues 1, 1, 4 is decomposed exactly. -/
example : ∃ lam Q, eigSymm !![2, 1, 1; 1, 2, 1; 1, 1, 2] = some (lam, Q) ∧ Decomposition !![2, 1, 1; 1, 2, 1; 1, 1, 2] lam Q :=
  C55_repeated _ (by ext i j; fin_cases i <;> fin_cases j <;> rfl) ![4, 1, 1] (by
    intro x
    rw [Matrix.det_fin_three, Fin.prod_univ_three]
    simp
    ring) rfl

/-- The decomposition of a diagonal matrix, step by step. -/
theorem diagonal_result : eigSymm !![-2, 0, 0; 0, -1, 0; 0, 0, 3] = some (![-2, -1, 3], !![1, 0, 0; 0, -1, 0; 0, 0, 1]) := by
  set D : M3 := !![-2, 0, 0; 0, -1, 0; 0, 0, 3] with hDdef
  have hT : D.trace = 0 := by rw [Matrix.trace_fin_three]; simp [hDdef]; norm_num
  have hS : Dᵀ = D := by ext i j; fin_cases i <;> fin_cases j <;> rfl
  have hdev : (dev D : M3) = D := by rw [dev_eq, hT]; simp
  have hJ2 : invJ2 D = 7 := by rw [J2_eq]; simp [Fin.sum_univ_three, hDdef]; norm_num
  have hJ3 : invJ3 D = 6 := by rw [invJ3, det3_eq, Matrix.det_fin_three]; simp [hDdef]; norm_num
  have hfe : firstEigenvalue D = 3 := by
    obtain ⟨h1, h2, h3⟩ := firstEigenvalue_spec D hS hT (by rw [hJ2]; norm_num)
    rw [hJ2, hJ3] at h1
    have hp : 0 < firstEigenvalue D := h3.2 (by rw [hJ3]; norm_num)
    generalize firstEigenvalue D = e at h1 hp
    have : (e + 2) * (e + 1) * (e - 3) = 0 := by linear_combination h1
    rcases mul_eq_zero.1 this with h | h
    · have := mul_pos (show 0 < e + 2 by linarith) (show 0 < e + 1 by linarith)
      linarith
    · linarith
  set R : M3 := !![-5, 0, 0; 0, -4, 0; 0, 0, 0] with hR
  have hrows : (rowsOf D 3 : M3) = R := by
    ext i j; fin_cases i <;> fin_cases j <;> simp [rowsOf, hDdef, hR] <;> norm_num
  have hR0 : R 0 = ![-5, 0, 0] := rfl
  have hR1 : R 1 = ![0, -4, 0] := rfl
  have hR2 : R 2 = ![0, 0, 0] := rfl
  have hl : largest R = some 0 := by
    obtain ⟨i, hi, hmax⟩ := largest_spec R
    rw [hi]
    fin_cases i
    · rfl
    · exact absurd (hmax 0) (not_le.2 (norm_lt (by simp [hR0, hR1, dotProduct, Fin.sum_univ_three]; norm_num)))
    · exact absurd (hmax 0) (not_le.2 (norm_lt (by simp [hR0, hR2, dotProduct, Fin.sum_univ_three])))
  have hn : ∀ (u w : V3) (c : ℝ), 0 < c → u = c • w → w ⬝ᵥ w = 1 → normalize u = some w := by
    intro u w c hc hu hw
    have hne : u ≠ 0 := by
      rintro rfl
      have : w = 0 := by simpa [hc.ne'] using hu.symm
      rw [this, zero_dotProduct] at hw; norm_num at hw
    obtain ⟨d, hd, h1, -, h2⟩ := normalize_eq u hne
    rw [h1, hu, smul_smul]
    have h3 : u ⬝ᵥ u = c * c := by rw [hu, smul_dotProduct, dotProduct_smul, hw]; simp
    rw [h3] at h2
    have : d * c = 1 := by nlinarith [mul_pos hd hc]
    rw [this, one_smul]
  have hn0 : normalize (R 0) = some ![-1, 0, 0] := hn _ _ 5 (by norm_num) (by rw [hR0]; funext i; fin_cases i <;> simp) (by simp [dotProduct, Fin.sum_univ_three])
  have ht1 : reject (R (0 + 1)) ![-1, 0, 0] = ![0, -4, 0] := by
    rw [reject_eq]; funext i; fin_cases i <;> simp [hR1, dotProduct, Fin.sum_univ_three]
  have ht2 : reject (R (0 + 2)) ![-1, 0, 0] = ![0, 0, 0] := by
    rw [reject_eq]; funext i; fin_cases i <;> simp [hR2, dotProduct, Fin.sum_univ_three]
  have hlong : longer (reject (R (0 + 1)) ![-1, 0, 0]) (reject (R (0 + 2)) ![-1, 0, 0]) = ![0, -4, 0] := by
    rw [ht1, ht2, longer, if_pos]
    exact norm_lt (by simp [dotProduct, Fin.sum_univ_three])
  have hplane : plane R = some (![-1, 0, 0], ![0, -1, 0]) := by
    simp only [plane, hl, hn0, bind, Option.bind, pure]
    rw [hlong, hn _ ![0, -1, 0] 4 (by norm_num) (by funext i; fin_cases i <;> simp) (by simp [dotProduct, Fin.sum_univ_three])]
  have hb : block D ![-1, 0, 0] ![0, -1, 0] = ⟨-2, 0, 0, -1⟩ := by
    simp only [block, dotVV_eq', dotMV_eq', Block.mk.injEq]
    refine ⟨?_, ?_, ?_, ?_⟩ <;> simp [hDdef, Matrix.mulVec, dotProduct, Fin.sum_univ_three]
  have hdelta : (⟨-2, 0, 0, -1⟩ : Block).delta = -1 / 2 := by
    show 1 / 2 * sgn (-2 - -1) * Real.sqrt ((-2 - -1) * (-2 - -1) + 4 * 0 * 0) = -1 / 2
    rw [show ((-2 - -1) * (-2 - -1) + 4 * 0 * 0 : ℝ) = 1 by norm_num, Real.sqrt_one]
    norm_num [sgn]
  have hv0 : cross (![-1, 0, 0] : V3) ![0, -1, 0] = ![0, 0, 1] := by
    rw [cross_eq, cross_apply]; funext i; fin_cases i <;> simp
  have hv1 : cross (![1, 0, 0] : V3) ![0, 0, 1] = ![0, -1, 0] := by
    rw [cross_eq, cross_apply]; funext i; fin_cases i <;> simp
  have hv2 : cross (![0, 0, 1] : V3) ![0, -1, 0] = ![1, 0, 0] := by
    rw [cross_eq, cross_apply]; funext i; fin_cases i <;> simp
  have hw1 : (fun i => dotMV D ![-1, 0, 0] i - (1 / 2 * (-2 + -1) - -1 / 2) * (![-1, 0, 0] : V3) i) = ![1, 0, 0] := by
    rw [dotMV_eq']; funext i; fin_cases i <;> simp [hDdef, Matrix.mulVec, dotProduct, Fin.sum_univ_three]; norm_num
  have hw2 : (fun i => dotMV D ![0, -1, 0] i - (1 / 2 * (-2 + -1) - -1 / 2) * (![0, -1, 0] : V3) i) = ![0, 0, 0] := by
    rw [dotMV_eq']; funext i; fin_cases i <;> simp [hDdef, Matrix.mulVec, dotProduct, Fin.sum_univ_three]; norm_num
  have hD : deviator D = some (![3, -1, -2], columns ![0, 0, 1] ![0, -1, 0] ![1, 0, 0]) := by
    rw [deviator, if_pos (by rw [hJ2]; norm_num)]
    simp only [hfe, hrows, hplane, bind, Option.bind, pure, hb, hdelta, hv0]
    rw [if_neg (by norm_num [abs_of_nonpos]), hw1, hw2, longer, if_pos (norm_lt (by simp [dotProduct, Fin.sum_univ_three])),
      normalize_unit _ (by simp [dotProduct, Fin.sum_univ_three])]
    simp only [hv1]
    rw [normalize_unit _ (by simp [dotProduct, Fin.sum_univ_three])]
    simp only [hv2]
    rw [normalize_unit _ (by simp [dotProduct, Fin.sum_univ_three])]
    norm_num
  have hord : argsort (fun i => (![3, -1, -2] : V3) i + 0 / 3) = ![2, 1, 0] := by
    rw [argsort_eq]
    exact (if_pos (show (-1 + 0 / 3 : ℝ) < 3 + 0 / 3 by norm_num)).trans ((if_pos (show (-2 + 0 / 3 : ℝ) < 3 + 0 / 3 by norm_num)).trans
      (if_pos (show (-2 + 0 / 3 : ℝ) < -1 + 0 / 3 by norm_num)))
  have htr : tr D = 0 := by rw [tr_eq, hT]
  simp only [eigSymm, hdev, hD, bind, Option.bind, pure, htr, hord]
  congr 2
  · funext k
    fin_cases k
    · show (-2 + 0 / 3 : ℝ) = -2
      norm_num
    · show (-1 + 0 / 3 : ℝ) = -1
      norm_num
    · show (3 + 0 / 3 : ℝ) = 3
      norm_num
  · funext i k
    fin_cases i <;> fin_cases k <;> rfl

/-- Its hypotheses: those of `C55_eigenvalues_partial`, `C55_exact_partial` and `C55_distinct`. -/
example : Decomposition !![-2, 0, 0; 0, -1, 0; 0, 0, 3] ![-2, -1, 3] !![1, 0, 0; 0, -1, 0; 0, 0, 1] :=
  C55_distinct _ (by ext i j; fin_cases i <;> fin_cases j <;> rfl) _ _ diagonal_result (by
    intro j k h
    fin_cases j <;> fin_cases k <;> first | exact absurd rfl h | (simp; norm_num))

example : Spectrum !![-2, 0, 0; 0, -1, 0; 0, 0, 3] ![-2, -1, 3] :=
  (C55_eigenvalues_partial _ (by ext i j; fin_cases i <;> fin_cases j <;> rfl) _ _ diagonal_result (by simp [squares, Fin.sum_univ_three])).1

example : Decomposition !![-2, 0, 0; 0, -1, 0; 0, 0, 3] ![-2, -1, 3] !![1, 0, 0; 0, -1, 0; 0, 0, 1] :=
  C55_exact_partial _ (by ext i j; fin_cases i <;> fin_cases j <;> rfl) _ _ diagonal_result (by simp [squares, Fin.sum_univ_three]) (by
    intro j k h
    fin_cases j <;> fin_cases k <;> first | exact absurd rfl h | (simp; norm_num))

/-- The identity matrix has a positive quadratic form. -/
example (lam : V3) (Q : M3) (h : eigSymm (1 : M3) = some (lam, Q)) : 0 < lam 0 :=
  C55_positive 1 Matrix.transpose_one (fun v hv => by
    rw [Matrix.one_mulVec]
    exact lt_of_le_of_ne (dot_self_nonneg v) fun h => hv (dotProduct_self_eq_zero.1 h.symm)) lam Q h 0

end Serac.C55
