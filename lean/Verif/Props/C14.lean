import Verif.Proofs.LU
import Verif.Proofs.Tensor
import Mathlib.Analysis.Calculus.Deriv.Mul
import Mathlib.Analysis.Calculus.Deriv.Add
import Mathlib.Tactic.NormNum
/-!
# C14: the dense LU solve

The specification is Mathlib's matrix product and determinant.  The full claim is: for every invertible `A`, `linear_solve A b` returns
the solution.  The code exchanges rows for *all* columns before it eliminates anything, so the pivots of the elimination are not the
largest available and can be exactly zero: the full claim is false from size 3 on (`C14_zero_pivot`).  What holds:

* `C14_factors_partial`, `C14_solve_partial`: whenever no zero pivot is met the factors and the solution are right, for every size;
* `C14_two`: for sizes 1 and 2 no zero pivot is ever met on an invertible matrix;
* `C14_derivative_partial`: the derivative part.
-/

namespace Serac.C14
open Serac.LU Matrix

variable {R V : Type} [Field R] [LinearOrder R] [AddCommGroup V] [Module R V] {n : ℕ}

/-- **C14 (partial), factors.**  If no zero pivot is met: `P` is a permutation, `L` is lower triangular with unit diagonal, `U` is upper
triangular and `L U` is `A` with its rows permuted by `P`. -/
theorem C14_factors_partial (A : Matrix (Fin n) (Fin n) R) (f : Factors R n) (h : factorizeLu A = some f) :
    Function.Bijective f.P ∧ of f.L * of f.U = A.submatrix f.P id ∧ (∀ i, f.L i i = 1) ∧ (∀ i j, i < j → f.L i j = 0) ∧
      (∀ i j, j < i → f.U i j = 0) := by
  obtain ⟨hb, hp, hd, hl, hu⟩ := factorizeLu_spec A f h
  refine ⟨hb, ?_, hd, hl, hu⟩
  ext i j
  rw [Matrix.mul_apply]
  exact hp i j

/-- **C14 (partial), solution.**  For every invertible matrix and every right-hand side (vector or matrix): the solver either meets a zero
pivot while factorising, or returns the solution. -/
theorem C14_solve_partial (A : Matrix (Fin n) (Fin n) R) (hA : A.det ≠ 0) :
    factorizeLu A = none ∨ ∀ b : Fin n → V, ∃ x, linearSolve A b = some x ∧ ∀ i, ∑ j, A i j • x j = b i := by
  cases h : factorizeLu A with
  | none => exact Or.inl rfl
  | some f =>
    refine Or.inr fun b => ?_
    obtain ⟨x, h1, h2⟩ := solveFactors_spec A f h hA b
    exact ⟨x, by unfold linearSolve; rw [h]; exact h1, h2⟩

/-- **C14, sizes 1 and 2.**  Every invertible system is solved. -/
theorem C14_two [IsStrictOrderedRing R] (hn : n ≤ 2) (A : Matrix (Fin n) (Fin n) R) (hA : A.det ≠ 0) (b : Fin n → V) :
    ∃ x, linearSolve A b = some x ∧ ∀ i, ∑ j, A i j • x j = b i := by
  refine (C14_solve_partial (V := V) A hA).resolve_left (fun hnone => ?_) b
  obtain ⟨P, U, hp, hb, hU⟩ := pivotRows_spec A
  unfold factorizeLu at hnone
  rw [hp, Option.bind_some, Option.map_eq_none_iff] at hnone
  match n, hn with
  | 0, _ => rw [eliminate, forFrom] at hnone; simp at hnone
  | 1, _ =>
    rw [eliminate, forFrom, dif_pos (by omega), forFrom, dif_neg (by simp), Option.bind_some, forFrom, dif_neg (by simp)] at hnone
    cases hnone
  | 2, _ =>
    have hfirst := pivotRows_first A P U hp
    have h00 : U 0 0 ≠ 0 := by
      intro h0
      apply hA
      have hz : ∀ j, U j 0 = 0 := by
        intro j
        have := hfirst j
        rw [h0, abs'_eq, abs'_eq, abs_zero] at this
        exact abs_eq_zero.mp (le_antisymm this (abs_nonneg _))
      refine Matrix.det_eq_zero_of_column_eq_zero 0 fun i => ?_
      obtain ⟨r, rfl⟩ := hb.2 i
      have := hz r
      rwa [hU r] at this
    rw [eliminate, forFrom, dif_pos (by omega)] at hnone
    dsimp only at hnone
    rw [forFrom, dif_pos (by simp)] at hnone
    simp only [elimRow] at hnone
    rw [show (⟨0, by omega⟩ : Fin 2) = 0 from rfl, if_neg h00, Option.bind_some, forFrom, dif_neg (by simp), Option.bind_some,
      forFrom, dif_pos (by omega)] at hnone
    dsimp only at hnone
    rw [forFrom, dif_neg (by simp), Option.bind_some, forFrom, dif_neg (by simp)] at hnone
    cases hnone

/-- The offending matrices: `t * [[1,1,0],[1,1,1],[0,1,0]]`. -/
def bad (t : R) : Fin 3 → Fin 3 → R := ![![t, t, 0], ![t, t, t], ![0, t, 0]]

omit [LinearOrder R] in
theorem bad_det (t : R) : (of (bad t)).det = -t ^ 3 := by
  rw [Matrix.det_fin_three]; simp [bad]; ring

/-- **C14, refuted in general.**  For every non-zero `t` this matrix is invertible, but the solver divides by an exactly zero pivot,
whatever the right-hand side. -/
theorem C14_zero_pivot [IsStrictOrderedRing R] (t : R) (ht : t ≠ 0) (b : Fin 3 → V) :
    (of (bad t)).det ≠ 0 ∧ linearSolve (bad t) b = none := by
  refine ⟨by rw [bad_det]; exact neg_ne_zero.mpr (pow_ne_zero 3 ht), ?_⟩
  have hpos : ¬ |t| < 0 := not_lt.mpr (abs_nonneg t)
  have hfind : ∀ i, findPivot (bad t) i = some (abs' (bad t i i), i) := by
    intro i
    unfold findPivot
    fin_cases i
    · simp [forFrom, bad, abs'_eq]
    · simp [forFrom, bad, abs'_eq]
    · simp [forFrom, bad, abs'_eq]
  have hswap : ∀ {X : Type} (x : Fin 3 → X) (i : Fin 3), swapAt x i i = x := by
    intro X x i; rw [swapAt_eq]; simp
  have hpiv : pivotRows (bad t) = some (id, bad t) := by
    unfold pivotRows
    rw [forFrom, dif_pos (by omega)]
    dsimp only
    rw [hfind, Option.map_some, hswap, hswap, Option.bind_some, forFrom, dif_pos (by omega)]
    dsimp only
    rw [hfind, Option.map_some, hswap, hswap, Option.bind_some, forFrom, dif_pos (by omega)]
    dsimp only
    rw [hfind, Option.map_some, hswap, hswap, Option.bind_some, forFrom, dif_neg (by omega)]
  have : factorizeLu (bad t) = none := by
    rw [factorizeLu, hpiv, Option.bind_some, Option.map_eq_none_iff]
    simp [eliminate, forFrom_lt, forFrom_ge, elimRow, bad, ht]
  rw [linearSolve, this, Option.bind_none]

/-- **C14 (partial), derivative.**  With derivative-carrying operands, and when no zero pivot is met, the second solve returns the
derivative of the solution. -/
theorem C14_derivative_partial (A : ℝ → Matrix (Fin n) (Fin n) ℝ) (b : ℝ → Fin n → ℝ) (dA : Matrix (Fin n) (Fin n) ℝ) (db : Fin n → ℝ)
    (t : ℝ) (hA' : ∀ i j, HasDerivAt (fun s => A s i j) (dA i j) t) (hb' : ∀ i, HasDerivAt (fun s => b s i) (db i) t)
    (hA : (A t).det ≠ 0) (f : Factors ℝ n) (hf : factorizeLu (A t) = some f) :
    ∃ x dx, linearSolveDual (A t) dA (b t) db = some (x, dx) ∧ A t *ᵥ x = b t ∧
      ∀ i, HasDerivAt (fun s => ((A s)⁻¹ *ᵥ b s) i) (dx i) t := by
  obtain ⟨x, hx1, hx2⟩ := solveFactors_spec (A t) f hf hA (b t)
  have hx2' : A t *ᵥ x = b t := by ext i; simpa [Matrix.mulVec, dotProduct] using hx2 i
  set r : Fin n → ℝ := fun i => db i - Fin.foldl n (fun s j => s + dA i j * x j) 0 with hr
  have hrr : r = db - dA *ᵥ x := by
    funext i
    have := Tensor.accum_eq n (0 : ℝ) fun j => dA i j * x j
    simp only [Tensor.accum] at this
    simp only [hr, this, zero_add, Pi.sub_apply, Matrix.mulVec, dotProduct]
  obtain ⟨dx, hd1, hd2⟩ := solveFactors_spec (A t) f hf hA r
  have hd2' : A t *ᵥ dx = r := by ext i; simpa [Matrix.mulVec, dotProduct] using hd2 i
  have hu := isUnit_iff_ne_zero.mpr hA
  have hinvx : (A t)⁻¹ *ᵥ b t = x := by rw [← hx2', Matrix.mulVec_mulVec, Matrix.nonsing_inv_mul _ hu, Matrix.one_mulVec]
  have hdx : dx = (A t)⁻¹ *ᵥ r := by rw [← hd2', Matrix.mulVec_mulVec, Matrix.nonsing_inv_mul _ hu, Matrix.one_mulVec]
  refine ⟨x, dx, by unfold linearSolveDual; rw [hf, Option.bind_some, hx1, Option.bind_some]; dsimp only; rw [← hr, hd1]; rfl, hx2', fun i => ?_⟩
  have hBi : ∀ j, HasDerivAt (fun s => (A s)⁻¹ i j) (-((A t)⁻¹ * dA * (A t)⁻¹) i j) t := by
    intro j
    have := (Tensor.hasFDerivAt_inv A _ t (fun i j => (hA' i j).hasFDerivAt) hA i j).hasDerivAt
    refine this.congr_deriv ?_
    simp only [_root_.neg_apply, _root_.sum_apply, _root_.smul_apply,
      ContinuousLinearMap.toSpanSingleton_apply, smul_eq_mul, one_mul, Matrix.mul_apply, Finset.sum_mul]
    rw [Finset.sum_comm]
    congr 1
    refine Finset.sum_congr rfl fun _ _ => Finset.sum_congr rfl fun _ _ => by ring
  have hsum : HasDerivAt (fun s => ∑ j, (A s)⁻¹ i j * b s j) (∑ j, (-((A t)⁻¹ * dA * (A t)⁻¹) i j * b t j + (A t)⁻¹ i j * db j)) t :=
    HasDerivAt.fun_sum fun j _ => (hBi j).mul (hb' j)
  refine hsum.congr_deriv ?_
  rw [hdx, hrr, Matrix.mulVec_sub, Pi.sub_apply, Finset.sum_add_distrib]
  have e1 : ∑ j, -((A t)⁻¹ * dA * (A t)⁻¹) i j * b t j = -((A t)⁻¹ *ᵥ (dA *ᵥ x)) i := by
    rw [Matrix.mulVec_mulVec, ← hinvx, Matrix.mulVec_mulVec]
    simp only [neg_mul, Finset.sum_neg_distrib]
    rfl
  rw [e1]
  have e2 : ∑ j, (A t)⁻¹ i j * db j = ((A t)⁻¹ *ᵥ db) i := rfl
  rw [e2]; ring

/-! ### Examples -/

/-- A 3x3 system that needs a row exchange and meets no zero pivot. -/
example : ∃ f, factorizeLu (![![0, 2, 1], ![4, 1, 0], ![2, 5, 3]] : Fin 3 → Fin 3 → ℚ) = some f := by
  norm_num [factorizeLu, pivotRows, findPivot, forFrom_lt, forFrom_ge, eliminate, elimRow, swapAt, abs', Function.update]

end Serac.C14
