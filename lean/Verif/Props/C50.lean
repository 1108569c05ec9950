import Verif.Model.Quadrature
import Mathlib.Analysis.SpecialFunctions.Integrals.Basic
import Mathlib.Algebra.MvPolynomial.Degrees
import Mathlib.Algebra.MvPolynomial.Equiv
import Mathlib.Algebra.Polynomial.Eval.Degree
import Mathlib.Data.Nat.Factorial.Basic
import Mathlib.Tactic.FieldSimp
import Mathlib.Tactic.NormNum
/-!
# C50: quadrature of mass and stiffness integrals

Independent specification: `size1`, `size` (the sum of the absolute coefficients, which measures a polynomial), the integrals over the reference
elements (Mathlib's interval integrals) and the degrees listed in `segDegree`, `triDegree`, `tetDegree`.

The tables are decimal literals with about 15 digits, so "exact" means an error of at most `2.5e-15` times the size of the polynomial.  Mass integrals on
tetrahedra of order two and three and on triangles of order three are not exact; that is proved too.
-/

namespace Serac.C50

open Serac.Quadrature Finset MeasureTheory
open scoped Nat

/-! ### Specification -/

/-- Sum of the absolute values of the coefficients. -/
noncomputable def size1 (f : Polynomial ℝ) : ℝ := ∑ k ∈ f.support, |f.coeff k|
noncomputable def size {n : ℕ} (f : MvPolynomial (Fin n) ℝ) : ℝ := ∑ m ∈ f.support, |f.coeff m|

noncomputable def at2 (f : MvPolynomial (Fin 2) ℝ) (x y : ℝ) : ℝ := MvPolynomial.eval ![x, y] f
noncomputable def at3 (f : MvPolynomial (Fin 3) ℝ) (x y z : ℝ) : ℝ := MvPolynomial.eval ![x, y, z] f

/-- Integrals over the reference elements. -/
noncomputable def intSegment (f : ℝ → ℝ) : ℝ := ∫ x in (0:ℝ)..1, f x
noncomputable def intTriangle (f : ℝ → ℝ → ℝ) : ℝ := ∫ x in (0:ℝ)..1, ∫ y in (0:ℝ)..(1 - x), f x y
noncomputable def intSquare (f : ℝ → ℝ → ℝ) : ℝ := ∫ x in (0:ℝ)..1, ∫ y in (0:ℝ)..1, f x y
noncomputable def intTetrahedron (f : ℝ → ℝ → ℝ → ℝ) : ℝ := ∫ x in (0:ℝ)..1, ∫ y in (0:ℝ)..(1 - x), ∫ z in (0:ℝ)..(1 - x - y), f x y z
noncomputable def intCube (f : ℝ → ℝ → ℝ → ℝ) : ℝ := ∫ x in (0:ℝ)..1, ∫ y in (0:ℝ)..1, ∫ z in (0:ℝ)..1, f x y z

/-- Degrees of exactness. -/
def segDegree (n : ℕ) : ℕ := 2 * n - 1
def triDegree : ℕ → ℕ
  | 1 => 1
  | 2 => 2
  | 3 => 4
  | 4 => 5
  | _ => 7
def tetDegree : ℕ → ℕ
  | 1 => 1
  | 2 => 2
  | 3 => 3
  | 4 => 5
  | 5 => 6
  | _ => 8

/-- Rounding level of the tables. -/
noncomputable def tol : ℝ := 25 / 10 ^ 16

/-! ### Moments -/

theorem beta (L : ℝ) (a b : ℕ) : ∫ y in (0:ℝ)..L, y ^ a * (L - y) ^ b = L ^ (a + b + 1) * (a ! * b !) / (a + b + 1)! := by
  induction b generalizing a with
  | zero =>
    simp only [pow_zero, mul_one, integral_pow, Nat.factorial_zero, Nat.cast_one, add_zero, Nat.factorial_succ a]
    have : (a ! : ℝ) ≠ 0 := by exact_mod_cast Nat.factorial_ne_zero a
    push_cast
    field_simp
    simp
  | succ b ih =>
    have hder : ∀ y ∈ Set.uIcc (0:ℝ) L, HasDerivAt (fun y => y ^ (a + 1) * (L - y) ^ (b + 1))
        ((a + 1) * (y ^ a * (L - y) ^ (b + 1)) - (b + 1) * (y ^ (a + 1) * (L - y) ^ b)) y := by
      intro y _
      have h1 : HasDerivAt (fun y : ℝ => y ^ (a + 1)) ((a + 1 : ℕ) * y ^ a) y := hasDerivAt_pow (a + 1) y
      have h2 : HasDerivAt (fun y : ℝ => (L - y) ^ (b + 1)) ((b + 1 : ℕ) * (L - y) ^ b * (-1)) y :=
        ((hasDerivAt_id y).const_sub L).pow (b + 1)
      exact (h1.mul h2).congr_deriv (by push_cast; ring)
    have hint := intervalIntegral.integral_eq_sub_of_hasDerivAt hder (Continuous.intervalIntegrable (by fun_prop) _ _)
    rw [intervalIntegral.integral_sub (Continuous.intervalIntegrable (by fun_prop) _ _) (Continuous.intervalIntegrable (by fun_prop) _ _),
      intervalIntegral.integral_const_mul, intervalIntegral.integral_const_mul, ih] at hint
    simp only [sub_self, ne_eq, Nat.add_eq_zero_iff, one_ne_zero, and_false, not_false_eq_true, zero_pow, mul_zero, zero_mul] at hint
    have ha : (a : ℝ) + 1 ≠ 0 := by positivity
    rw [show a + (b + 1) + 1 = a + 1 + b + 1 by ring, Nat.factorial_succ b]
    rw [Nat.factorial_succ a] at hint
    push_cast at hint ⊢
    have h3 : (↑a + 1) * ∫ y in (0:ℝ)..L, y ^ a * (L - y) ^ (b + 1) =
      (↑b + 1) * (L ^ (a + 1 + b + 1) * ((↑a + 1) * ↑a ! * ↑b !) / ↑(a + 1 + b + 1)!) := by linarith
    rw [← mul_right_inj' ha, h3]
    ring

section
variable {ι : Type} (S : Finset ι) (c : ι → ℝ)

theorem int1 (a : ι → ℕ) : ∫ x in (0:ℝ)..1, ∑ m ∈ S, c m * x ^ a m = ∑ m ∈ S, c m * (1 / (a m + 1)) := by
  rw [intervalIntegral.integral_finsetSum fun m _ => Continuous.intervalIntegrable (by fun_prop) _ _]
  refine sum_congr rfl fun m _ => ?_
  rw [intervalIntegral.integral_const_mul, integral_pow]
  simp

theorem int2 (a b : ι → ℕ) : (∫ x in (0:ℝ)..1, ∫ y in (0:ℝ)..(1 - x), ∑ m ∈ S, c m * (x ^ a m * y ^ b m)) =
    ∑ m ∈ S, c m * ((a m)! * (b m)! / (a m + b m + 2)!) := by
  have hin : ∀ x : ℝ, (∫ y in (0:ℝ)..(1 - x), ∑ m ∈ S, c m * (x ^ a m * y ^ b m)) =
      ∑ m ∈ S, (c m / (b m + 1)) * (x ^ a m * (1 - x) ^ (b m + 1)) := by
    intro x
    rw [intervalIntegral.integral_finsetSum fun m _ => Continuous.intervalIntegrable (by fun_prop) _ _]
    refine sum_congr rfl fun m _ => ?_
    rw [intervalIntegral.integral_const_mul, intervalIntegral.integral_const_mul, integral_pow]
    simp
    ring
  simp only [hin]
  rw [intervalIntegral.integral_finsetSum fun m _ => Continuous.intervalIntegrable (by fun_prop) _ _]
  refine sum_congr rfl fun m _ => ?_
  rw [intervalIntegral.integral_const_mul, beta, Nat.factorial_succ (b m), one_pow]
  have : (b m : ℝ) + 1 ≠ 0 := by positivity
  have h2 : ((a m + b m + 2)! : ℝ) ≠ 0 := by exact_mod_cast Nat.factorial_ne_zero _
  rw [show a m + (b m + 1) + 1 = a m + b m + 2 by ring]
  push_cast
  field_simp

theorem int3 (a b e : ι → ℕ) :
    (∫ x in (0:ℝ)..1, ∫ y in (0:ℝ)..(1 - x), ∫ z in (0:ℝ)..(1 - x - y), ∑ m ∈ S, c m * (x ^ a m * y ^ b m * z ^ e m)) =
    ∑ m ∈ S, c m * ((a m)! * (b m)! * (e m)! / (a m + b m + e m + 3)!) := by
  have hin : ∀ x y : ℝ, (∫ z in (0:ℝ)..(1 - x - y), ∑ m ∈ S, c m * (x ^ a m * y ^ b m * z ^ e m)) =
      ∑ m ∈ S, (c m * x ^ a m / (e m + 1)) * (y ^ b m * (1 - x - y) ^ (e m + 1)) := by
    intro x y
    rw [intervalIntegral.integral_finsetSum fun m _ => Continuous.intervalIntegrable (by fun_prop) _ _]
    refine sum_congr rfl fun m _ => ?_
    rw [intervalIntegral.integral_const_mul, intervalIntegral.integral_const_mul, integral_pow]
    simp
    ring
  have hmid : ∀ x : ℝ, (∫ y in (0:ℝ)..(1 - x), ∑ m ∈ S, (c m * x ^ a m / (e m + 1)) * (y ^ b m * (1 - x - y) ^ (e m + 1))) =
      ∑ m ∈ S, (c m / (e m + 1) * ((b m)! * (e m + 1)! / (b m + e m + 2)!)) * (x ^ a m * (1 - x) ^ (b m + e m + 2)) := by
    intro x
    rw [intervalIntegral.integral_finsetSum fun m _ => Continuous.intervalIntegrable (by fun_prop) _ _]
    refine sum_congr rfl fun m _ => ?_
    rw [intervalIntegral.integral_const_mul, beta, show b m + (e m + 1) + 1 = b m + e m + 2 by ring]
    ring
  simp only [hin, hmid]
  rw [intervalIntegral.integral_finsetSum fun m _ => Continuous.intervalIntegrable (by fun_prop) _ _]
  refine sum_congr rfl fun m _ => ?_
  rw [intervalIntegral.integral_const_mul, beta, one_pow, show a m + (b m + e m + 2) + 1 = a m + b m + e m + 3 by ring, Nat.factorial_succ (e m)]
  have h1 : (e m : ℝ) + 1 ≠ 0 := by positivity
  have h2 : ((a m + b m + e m + 3)! : ℝ) ≠ 0 := by exact_mod_cast Nat.factorial_ne_zero _
  have h3 : ((b m + e m + 2)! : ℝ) ≠ 0 := by exact_mod_cast Nat.factorial_ne_zero _
  push_cast
  field_simp

theorem intS (a b : ι → ℕ) : (∫ x in (0:ℝ)..1, ∫ y in (0:ℝ)..1, ∑ m ∈ S, c m * (x ^ a m * y ^ b m)) =
    ∑ m ∈ S, c m * (1 / (a m + 1) * (1 / (b m + 1))) := by
  have hin : ∀ x : ℝ, (∫ y in (0:ℝ)..1, ∑ m ∈ S, c m * (x ^ a m * y ^ b m)) = ∑ m ∈ S, (c m * (1 / (b m + 1))) * x ^ a m := by
    intro x
    rw [intervalIntegral.integral_finsetSum fun m _ => Continuous.intervalIntegrable (by fun_prop) _ _]
    refine sum_congr rfl fun m _ => ?_
    rw [intervalIntegral.integral_const_mul, intervalIntegral.integral_const_mul, integral_pow]
    simp
    ring
  simp only [hin, int1]
  exact sum_congr rfl fun m _ => by ring

theorem intC (a b e : ι → ℕ) : (∫ x in (0:ℝ)..1, ∫ y in (0:ℝ)..1, ∫ z in (0:ℝ)..1, ∑ m ∈ S, c m * (x ^ a m * y ^ b m * z ^ e m)) =
    ∑ m ∈ S, c m * (1 / (a m + 1) * (1 / (b m + 1)) * (1 / (e m + 1))) := by
  have hin : ∀ x y : ℝ, (∫ z in (0:ℝ)..1, ∑ m ∈ S, c m * (x ^ a m * y ^ b m * z ^ e m)) =
      ∑ m ∈ S, (c m * (1 / (e m + 1))) * (x ^ a m * y ^ b m) := by
    intro x y
    rw [intervalIntegral.integral_finsetSum fun m _ => Continuous.intervalIntegrable (by fun_prop) _ _]
    refine sum_congr rfl fun m _ => ?_
    rw [intervalIntegral.integral_const_mul, intervalIntegral.integral_const_mul, integral_pow]
    simp
    ring
  simp only [hin, intS]
  exact sum_congr rfl fun m _ => by ring

end

/-! ### Weighted sums -/

theorem foldl_sum {P : Type} (l : List P) (g : P → ℝ) (s : ℝ) : l.foldl (fun s p => s + g p) s = s + (l.map g).sum := by
  induction l generalizing s with
  | nil => simp
  | cons p t ih => simp [ih, add_assoc]

theorem list_sum_comm {P ι : Type} (l : List P) (S : Finset ι) (g : ι → P → ℝ) :
    (l.map fun p => ∑ m ∈ S, g m p).sum = ∑ m ∈ S, (l.map (g m)).sum := by
  induction l with
  | nil => simp
  | cons p t ih => simp [ih, sum_add_distrib]

/-- Rational moments of a rule. -/
def mom1 (r : Rule ℚ) (a : ℕ) : ℚ := (r.map fun p => p.1 ^ a * p.2).sum
def mom2 (r : Rule (ℚ × ℚ)) (a b : ℕ) : ℚ := (r.map fun p => p.1.1 ^ a * p.1.2 ^ b * p.2).sum
def mom3 (r : Rule (ℚ × ℚ × ℚ)) (a b e : ℕ) : ℚ := (r.map fun p => p.1.1 ^ a * p.1.2.1 ^ b * p.1.2.2 ^ e * p.2).sum

section
variable {ι : Type} (S : Finset ι) (c : ι → ℝ)

theorem cast_sum {P : Type} (l : List P) (g : P → ℚ) : (((l.map g).sum : ℚ) : ℝ) = (l.map fun p => (g p : ℝ)).sum := by
  induction l with
  | nil => simp
  | cons p t ih => simp [ih]

theorem mul_sum_list {P : Type} (l : List P) (g : P → ℝ) (k : ℝ) : (l.map fun p => k * g p).sum = k * (l.map g).sum := by
  induction l with
  | nil => simp
  | cons p t ih => simp [ih, mul_add]

theorem sum1_eq (r : Rule ℚ) (a : ι → ℕ) : sum1 r (fun x => ∑ m ∈ S, c m * x ^ a m) = ∑ m ∈ S, c m * mom1 r (a m) := by
  unfold sum1 mom1
  rw [foldl_sum, zero_add]
  simp only [sum_mul]
  rw [list_sum_comm]
  refine sum_congr rfl fun m _ => ?_
  rw [cast_sum, ← mul_sum_list]
  congr 1; apply List.map_congr_left; intro p _; push_cast; ring

theorem sum2_eq (r : Rule (ℚ × ℚ)) (a b : ι → ℕ) :
    sum2 r (fun x y => ∑ m ∈ S, c m * (x ^ a m * y ^ b m)) = ∑ m ∈ S, c m * mom2 r (a m) (b m) := by
  unfold sum2 mom2
  rw [foldl_sum, zero_add]
  simp only [sum_mul]
  rw [list_sum_comm]
  refine sum_congr rfl fun m _ => ?_
  rw [cast_sum, ← mul_sum_list]
  congr 1; apply List.map_congr_left; intro p _; push_cast; ring

theorem sum3_eq (r : Rule (ℚ × ℚ × ℚ)) (a b e : ι → ℕ) :
    sum3 r (fun x y z => ∑ m ∈ S, c m * (x ^ a m * y ^ b m * z ^ e m)) = ∑ m ∈ S, c m * mom3 r (a m) (b m) (e m) := by
  unfold sum3 mom3
  rw [foldl_sum, zero_add]
  simp only [sum_mul]
  rw [list_sum_comm]
  refine sum_congr rfl fun m _ => ?_
  rw [cast_sum, ← mul_sum_list]
  congr 1; apply List.map_congr_left; intro p _; push_cast; ring

/-- From moments to polynomials. -/
theorem error_bound (q i : ι → ℝ) (t : ℝ) (h : ∀ m ∈ S, |q m - i m| ≤ t) :
    |∑ m ∈ S, c m * q m - ∑ m ∈ S, c m * i m| ≤ t * ∑ m ∈ S, |c m| := by
  rw [← sum_sub_distrib, mul_sum]
  refine (abs_sum_le_sum_abs _ _).trans (sum_le_sum fun m hm => ?_)
  rw [← mul_sub, abs_mul, mul_comm]
  exact mul_le_mul_of_nonneg_right (h m hm) (abs_nonneg _)

end

theorem at2_eq (f : MvPolynomial (Fin 2) ℝ) (x y : ℝ) : at2 f x y = ∑ m ∈ f.support, f.coeff m * (x ^ m 0 * y ^ m 1) := by
  simp [at2, MvPolynomial.eval_eq']

theorem at3_eq (f : MvPolynomial (Fin 3) ℝ) (x y z : ℝ) : at3 f x y z = ∑ m ∈ f.support, f.coeff m * (x ^ m 0 * y ^ m 1 * z ^ m 2) := by
  simp [at3, MvPolynomial.eval_eq', Fin.prod_univ_three]

theorem deg2 {f : MvPolynomial (Fin 2) ℝ} {d : ℕ} (h : f.totalDegree ≤ d) {m : Fin 2 →₀ ℕ} (hm : m ∈ f.support) : m 0 + m 1 ≤ d := by
  have := (MvPolynomial.le_totalDegree hm).trans h
  rw [Finsupp.sum_fintype _ _ (fun _ => rfl)] at this
  simpa using this

theorem deg3 {f : MvPolynomial (Fin 3) ℝ} {d : ℕ} (h : f.totalDegree ≤ d) {m : Fin 3 →₀ ℕ} (hm : m ∈ f.support) : m 0 + m 1 + m 2 ≤ d := by
  have := (MvPolynomial.le_totalDegree hm).trans h
  rw [Finsupp.sum_fintype _ _ (fun _ => rfl)] at this
  simpa [Fin.sum_univ_three] using this

/-! ### Checking the tables: all monomials up to the degree -/

def tolQ : ℚ := 25 / 10 ^ 16
def Close (a b : ℚ) : Prop := a - b ≤ tolQ ∧ b - a ≤ tolQ
instance (a b : ℚ) : Decidable (Close a b) := inferInstanceAs (Decidable (_ ∧ _))

theorem Close.real {a b : ℚ} (h : Close a b) : |(a : ℝ) - b| ≤ tol := by
  have h1 : ((a - b : ℚ) : ℝ) ≤ (tolQ : ℚ) := by exact_mod_cast h.1
  have h2 : ((b - a : ℚ) : ℝ) ≤ (tolQ : ℚ) := by exact_mod_cast h.2
  have h3 : ((tolQ : ℚ) : ℝ) = tol := by simp [tolQ, tol]
  rw [h3] at h1 h2
  push_cast at h1 h2
  rw [abs_le]
  constructor <;> linarith

theorem seg_table : ∀ n < 9, 1 ≤ n → ∃ r, segment n = some r ∧ ∀ a < 2 * n, Close (mom1 r a) (1 / (a + 1)) := by
  intro n hn h1
  interval_cases n <;> exact ⟨_, rfl, by decide +kernel⟩

set_option maxRecDepth 10000 in
theorem tri_table : ∀ n < 6, 1 ≤ n → ∃ r, triangle n = some r ∧
    ∀ a < triDegree n + 1, ∀ b < triDegree n + 1 - a, Close (mom2 r a b) (a ! * b ! / (a + b + 2)!) := by
  intro n hn h1
  interval_cases n <;> exact ⟨_, rfl, by decide +kernel⟩

set_option maxRecDepth 10000 in
theorem tet_table : ∀ n < 7, 1 ≤ n → ∃ r, tetrahedron n = some r ∧
    ∀ a < tetDegree n + 1, ∀ b < tetDegree n + 1 - a, ∀ e < tetDegree n + 1 - a - b,
      Close (mom3 r a b e) (a ! * b ! * e ! / (a + b + e + 3)!) := by
  intro n hn h1
  interval_cases n <;> exact ⟨_, rfl, by decide +kernel⟩

/-! ### The rules -/

/-- **C50, segments.**  The `n`-point rule is exact for polynomials of degree `2n - 1`. -/
theorem C50_segment (n : ℕ) (h1 : 1 ≤ n) (h8 : n ≤ 8) : ∃ r, segment n = some r ∧
    ∀ f : Polynomial ℝ, f.natDegree ≤ segDegree n → |sum1 r (fun x => f.eval x) - intSegment fun x => f.eval x| ≤ tol * size1 f := by
  obtain ⟨r, hr, ht⟩ := seg_table n (by omega) h1
  refine ⟨r, hr, fun f hf => ?_⟩
  unfold intSegment size1
  simp only [Polynomial.eval_eq_sum, Polynomial.sum]
  rw [sum1_eq, int1]
  refine error_bound _ _ _ _ _ fun m hm => ?_
  have hm' := Polynomial.le_natDegree_of_mem_supp m hm
  unfold segDegree at hf
  have := (ht m (by omega)).real
  push_cast at this
  exact this

/-- **C50, triangles.** -/
theorem C50_triangle (n : ℕ) (h1 : 1 ≤ n) (h5 : n ≤ 5) : ∃ r, triangle n = some r ∧
    ∀ f : MvPolynomial (Fin 2) ℝ, f.totalDegree ≤ triDegree n → |sum2 r (at2 f) - intTriangle (at2 f)| ≤ tol * size f := by
  obtain ⟨r, hr, ht⟩ := tri_table n (by omega) h1
  refine ⟨r, hr, fun f hf => ?_⟩
  rw [show at2 f = fun x y => ∑ m ∈ f.support, f.coeff m * (x ^ m 0 * y ^ m 1) from funext fun x => funext fun y => at2_eq f x y]
  unfold intTriangle size
  rw [sum2_eq, int2]
  refine error_bound _ _ _ _ _ fun m hm => ?_
  have hm' := deg2 hf hm
  have := (ht (m 0) (by omega) (m 1) (by omega)).real
  push_cast at this
  exact this

/-- **C50, tetrahedra.** -/
theorem C50_tetrahedron (n : ℕ) (h1 : 1 ≤ n) (h6 : n ≤ 6) : ∃ r, tetrahedron n = some r ∧
    ∀ f : MvPolynomial (Fin 3) ℝ, f.totalDegree ≤ tetDegree n → |sum3 r (at3 f) - intTetrahedron (at3 f)| ≤ tol * size f := by
  obtain ⟨r, hr, ht⟩ := tet_table n (by omega) h1
  refine ⟨r, hr, fun f hf => ?_⟩
  rw [show at3 f = fun x y z => ∑ m ∈ f.support, f.coeff m * (x ^ m 0 * y ^ m 1 * z ^ m 2) from
    funext fun x => funext fun y => funext fun z => at3_eq f x y z]
  unfold intTetrahedron size
  rw [sum3_eq, int3]
  refine error_bound _ _ _ _ _ fun m hm => ?_
  have hm' := deg3 hf hm
  have := (ht (m 0) (by omega) (m 1) (by omega) (m 2) (by omega)).real
  push_cast at this
  exact this

theorem sum_flatMap {P Q : Type} (l : List P) (f : P → List Q) (g : Q → ℚ) :
    ((l.flatMap f).map g).sum = (l.map fun p => ((f p).map g).sum).sum := by
  induction l with
  | nil => simp
  | cons p t ih => simp [ih]

theorem sum_mul_list {P : Type} (l : List P) (g : P → ℚ) (k : ℚ) : (l.map fun p => g p * k).sum = (l.map g).sum * k := by
  induction l with
  | nil => simp
  | cons p t ih => simp [ih, add_mul]

theorem mom_square (r : Rule ℚ) (a b : ℕ) :
    mom2 (r.flatMap fun pj => r.map fun pi => ((pi.1, pj.1), pi.2 * pj.2)) a b = mom1 r a * mom1 r b := by
  unfold mom2
  rw [sum_flatMap]
  simp only [List.map_map, Function.comp_def]
  rw [show mom1 r a * mom1 r b = mom1 r b * mom1 r a by ring]
  unfold mom1
  rw [← sum_mul_list]
  congr 1; apply List.map_congr_left; intro pj _
  rw [mul_comm, ← sum_mul_list]
  congr 1; apply List.map_congr_left; intro pi _
  ring

theorem mom_cube (r : Rule ℚ) (a b e : ℕ) :
    mom3 (r.flatMap fun pk => r.flatMap fun pj => r.map fun pi => ((pi.1, pj.1, pk.1), pi.2 * pj.2 * pk.2)) a b e =
      mom1 r a * mom1 r b * mom1 r e := by
  unfold mom3
  rw [sum_flatMap]
  rw [show mom1 r a * mom1 r b * mom1 r e = mom1 r e * (mom1 r a * mom1 r b) by ring]
  rw [← mom_square]
  conv_rhs => unfold mom1
  rw [← sum_mul_list]
  congr 1; apply List.map_congr_left; intro pk _
  unfold mom2
  rw [mul_comm, ← sum_mul_list, sum_flatMap, sum_flatMap]
  congr 1; apply List.map_congr_left; intro pj _
  simp only [List.map_map, Function.comp_def]
  congr 1; apply List.map_congr_left; intro pi _
  ring

theorem prod_close {A B α β t s : ℝ} (hA : |A - α| ≤ t) (hB : |B - β| ≤ s) (hα : |α| ≤ 1) (hβ : |β| ≤ 1) : |A * B - α * β| ≤ t * (1 + s) + s := by
  have h1 : |B| ≤ 1 + s := by
    have := abs_add_le (B - β) β
    rw [sub_add_cancel] at this
    linarith
  have ht : 0 ≤ t := (abs_nonneg _).trans hA
  have hs : 0 ≤ s := (abs_nonneg _).trans hB
  calc |A * B - α * β| = |(A - α) * B + α * (B - β)| := by ring_nf
    _ ≤ |A - α| * |B| + |α| * |B - β| := (abs_add_le _ _).trans (by rw [abs_mul, abs_mul])
    _ ≤ t * (1 + s) + 1 * s := by gcongr
    _ = _ := by ring

theorem inv_le_one (a : ℕ) : |(1 : ℝ) / (a + 1)| ≤ 1 := by
  rw [abs_of_nonneg (by positivity), div_le_one (by positivity)]
  have : (0 : ℝ) ≤ a := Nat.cast_nonneg a
  linarith

/-- **C50, squares.**  Exact for polynomials of degree `2n - 1` in each variable. -/
theorem C50_square (n : ℕ) (h1 : 1 ≤ n) (h8 : n ≤ 8) : ∃ r, square n = some r ∧
    ∀ f : MvPolynomial (Fin 2) ℝ, (∀ i, f.degreeOf i ≤ segDegree n) → |sum2 r (at2 f) - intSquare (at2 f)| ≤ 3 * tol * size f := by
  obtain ⟨r, hr, ht⟩ := seg_table n (by omega) h1
  refine ⟨_, by rw [square, hr]; rfl, fun f hf => ?_⟩
  rw [show at2 f = fun x y => ∑ m ∈ f.support, f.coeff m * (x ^ m 0 * y ^ m 1) from funext fun x => funext fun y => at2_eq f x y]
  unfold intSquare size
  rw [sum2_eq, intS]
  refine error_bound _ _ _ _ _ fun m hm => ?_
  unfold segDegree at hf
  have h0 := (MvPolynomial.degreeOf_le_iff.1 (hf 0)) m hm
  have h1' := (MvPolynomial.degreeOf_le_iff.1 (hf 1)) m hm
  have e0 := (ht (m 0) (by omega)).real
  have e1 := (ht (m 1) (by omega)).real
  push_cast at e0 e1
  rw [mom_square]
  push_cast
  refine (prod_close e0 e1 (inv_le_one _) (inv_le_one _)).trans ?_
  norm_num [tol]

/-- **C50, cubes.** -/
theorem C50_cube (n : ℕ) (h1 : 1 ≤ n) (h8 : n ≤ 8) : ∃ r, cube n = some r ∧
    ∀ f : MvPolynomial (Fin 3) ℝ, (∀ i, f.degreeOf i ≤ segDegree n) → |sum3 r (at3 f) - intCube (at3 f)| ≤ 4 * tol * size f := by
  obtain ⟨r, hr, ht⟩ := seg_table n (by omega) h1
  refine ⟨_, by rw [cube, hr]; rfl, fun f hf => ?_⟩
  rw [show at3 f = fun x y z => ∑ m ∈ f.support, f.coeff m * (x ^ m 0 * y ^ m 1 * z ^ m 2) from
    funext fun x => funext fun y => funext fun z => at3_eq f x y z]
  unfold intCube size
  rw [sum3_eq, intC]
  refine error_bound _ _ _ _ _ fun m hm => ?_
  unfold segDegree at hf
  have h0 := (MvPolynomial.degreeOf_le_iff.1 (hf 0)) m hm
  have h1' := (MvPolynomial.degreeOf_le_iff.1 (hf 1)) m hm
  have h2' := (MvPolynomial.degreeOf_le_iff.1 (hf 2)) m hm
  have e0 := (ht (m 0) (by omega)).real
  have e1 := (ht (m 1) (by omega)).real
  have e2 := (ht (m 2) (by omega)).real
  push_cast at e0 e1 e2
  rw [mom_cube]
  push_cast
  have e01 := prod_close e0 e1 (inv_le_one _) (inv_le_one _)
  refine (prod_close e01 e2 ?_ (inv_le_one _)).trans ?_
  · rw [abs_mul]
    exact mul_le_one₀ (inv_le_one _) (abs_nonneg _) (inv_le_one _)
  · norm_num [tol]

/-! ### Mass and stiffness integrals of order-`p` spaces -/

theorem foldl_max (l : List ℕ) (a : ℕ) : a ≤ l.foldl max a ∧ (∀ q ∈ l, q ≤ l.foldl max a) ∧ (∀ m, a ≤ m → (∀ q ∈ l, q ≤ m) → l.foldl max a ≤ m) := by
  induction l generalizing a with
  | nil => simp
  | cons x l ih =>
    obtain ⟨h1, h2, h3⟩ := ih (max a x)
    rw [List.foldl_cons]
    refine ⟨(le_max_left a x).trans h1, fun q hq => ?_, fun m hm hl => h3 m (max_le hm (hl x (by simp))) fun q hq => hl q (by simp [hq])⟩
    rcases List.mem_cons.1 hq with rfl | hq
    · exact (le_max_right a q).trans h1
    · exact h2 q hq

/-- **C50, mass (partial).**  With the number of points that `Functional` chooses for a test space of order `p` and trial spaces of the orders `qs`, the integral of the product of
a function of the test space and a function of one of the spaces over the reference element (hence over every affine element) is exact: on segments, quadrilaterals and hexahedra for every
order with a table, on triangles up to order two, on tetrahedra for order one. -/
theorem C50_mass_partial (p : ℕ) (qs : List ℕ) (hp : 1 ≤ p) (n : ℕ) (hpn : p ≤ n) (hqn : ∀ q ∈ qs, q ≤ n) (q : ℕ) (hq : q ∈ p :: qs) :
    (n ≤ 7 → ∃ r, segment (functionalQ p qs) = some r ∧ ∀ f g : Polynomial ℝ, f.natDegree ≤ p → g.natDegree ≤ q →
      |sum1 r (fun x => (f * g).eval x) - intSegment fun x => (f * g).eval x| ≤ tol * size1 (f * g)) ∧
    (n ≤ 7 → ∃ r, square (functionalQ p qs) = some r ∧ ∀ f g : MvPolynomial (Fin 2) ℝ, (∀ i, f.degreeOf i ≤ p) → (∀ i, g.degreeOf i ≤ q) →
      |sum2 r (at2 (f * g)) - intSquare (at2 (f * g))| ≤ 3 * tol * size (f * g)) ∧
    (n ≤ 7 → ∃ r, cube (functionalQ p qs) = some r ∧ ∀ f g : MvPolynomial (Fin 3) ℝ, (∀ i, f.degreeOf i ≤ p) → (∀ i, g.degreeOf i ≤ q) →
      |sum3 r (at3 (f * g)) - intCube (at3 (f * g))| ≤ 4 * tol * size (f * g)) ∧
    (n ≤ 2 → ∃ r, triangle (functionalQ p qs) = some r ∧ ∀ f g : MvPolynomial (Fin 2) ℝ, f.totalDegree ≤ p → g.totalDegree ≤ q →
      |sum2 r (at2 (f * g)) - intTriangle (at2 (f * g))| ≤ tol * size (f * g)) ∧
    (n ≤ 1 → ∃ r, tetrahedron (functionalQ p qs) = some r ∧ ∀ f g : MvPolynomial (Fin 3) ℝ, f.totalDegree ≤ p → g.totalDegree ≤ q →
      |sum3 r (at3 (f * g)) - intTetrahedron (at3 (f * g))| ≤ tol * size (f * g)) := by
  obtain ⟨k1, k2, k3⟩ := foldl_max qs p
  have hQ : functionalQ p qs = qs.foldl max p + 1 := rfl
  have hmn := k3 n hpn hqn
  have hqm : q ≤ qs.foldl max p := by
    rcases List.mem_cons.1 hq with rfl | h
    · exact k1
    · exact k2 q h
  rw [hQ]
  generalize qs.foldl max p = m at k1 hmn hqm
  refine ⟨fun h => ?_, fun h => ?_, fun h => ?_, fun h => ?_, fun h => ?_⟩
  · obtain ⟨r, hr, H⟩ := C50_segment (m + 1) (by omega) (by omega)
    refine ⟨r, hr, fun f g hf hg => H _ (Polynomial.natDegree_mul_le.trans ?_)⟩
    unfold segDegree; omega
  · obtain ⟨r, hr, H⟩ := C50_square (m + 1) (by omega) (by omega)
    refine ⟨r, hr, fun f g hf hg => H _ fun i => (MvPolynomial.degreeOf_mul_le i f g).trans ?_⟩
    have := hf i; have := hg i
    unfold segDegree; omega
  · obtain ⟨r, hr, H⟩ := C50_cube (m + 1) (by omega) (by omega)
    refine ⟨r, hr, fun f g hf hg => H _ fun i => (MvPolynomial.degreeOf_mul_le i f g).trans ?_⟩
    have := hf i; have := hg i
    unfold segDegree; omega
  · obtain ⟨r, hr, H⟩ := C50_triangle (m + 1) (by omega) (by omega)
    refine ⟨r, hr, fun f g hf hg => H _ ((MvPolynomial.totalDegree_mul f g).trans ?_)⟩
    obtain rfl | rfl : m = 1 ∨ m = 2 := by omega
    · exact (Nat.add_le_add (hf.trans k1) (hg.trans hqm)).trans (by decide)
    · exact (Nat.add_le_add (hf.trans k1) (hg.trans hqm)).trans (by decide)
  · obtain ⟨r, hr, H⟩ := C50_tetrahedron (m + 1) (by omega) (by omega)
    refine ⟨r, hr, fun f g hf hg => H _ ((MvPolynomial.totalDegree_mul f g).trans ?_)⟩
    obtain rfl : m = 1 := by omega
    exact (Nat.add_le_add (hf.trans k1) (hg.trans hqm)).trans (by decide)

/-- **C50, stiffness.**  On triangles and tetrahedra the integral of the product of two derivatives of functions of the space (polynomials of degree `p - 1`) is exact
for every order with a table.  (On quadrilaterals and hexahedra this is part of `C50_mass_partial`.) -/
theorem C50_stiffness (p : ℕ) (hp : 1 ≤ p) :
    (p ≤ 4 → ∃ r, triangle (functionalQ p [p]) = some r ∧ ∀ f g : MvPolynomial (Fin 2) ℝ, f.totalDegree ≤ p - 1 → g.totalDegree ≤ p - 1 →
      |sum2 r (at2 (f * g)) - intTriangle (at2 (f * g))| ≤ tol * size (f * g)) ∧
    (p ≤ 5 → ∃ r, tetrahedron (functionalQ p [p]) = some r ∧ ∀ f g : MvPolynomial (Fin 3) ℝ, f.totalDegree ≤ p - 1 → g.totalDegree ≤ p - 1 →
      |sum3 r (at3 (f * g)) - intTetrahedron (at3 (f * g))| ≤ tol * size (f * g)) := by
  have hQ : functionalQ p [p] = p + 1 := by simp [functionalQ]
  rw [hQ]
  refine ⟨fun h => ?_, fun h => ?_⟩
  · obtain ⟨r, hr, H⟩ := C50_triangle (p + 1) (by omega) (by omega)
    refine ⟨r, hr, fun f g hf hg => H _ ((MvPolynomial.totalDegree_mul f g).trans ((Nat.add_le_add hf hg).trans ?_))⟩
    interval_cases p <;> decide
  · obtain ⟨r, hr, H⟩ := C50_tetrahedron (p + 1) (by omega) (by omega)
    refine ⟨r, hr, fun f g hf hg => H _ ((MvPolynomial.totalDegree_mul f g).trans ((Nat.add_le_add hf hg).trans ?_))⟩
    interval_cases p <;> decide

theorem one_int2 (a b : ℕ) : intTriangle (fun x y => x ^ a * y ^ b) = ((a ! * b ! / (a + b + 2)! : ℚ) : ℝ) := by
  have := int2 {()} (fun _ => 1) (fun _ => a) (fun _ => b)
  simp only [sum_singleton, one_mul] at this
  unfold intTriangle
  rw [this]
  push_cast
  rfl

theorem one_sum2 (r : Rule (ℚ × ℚ)) (a b : ℕ) : sum2 r (fun x y => x ^ a * y ^ b) = mom2 r a b := by
  have := sum2_eq {()} (fun _ => 1) r (fun _ => a) (fun _ => b)
  simpa only [sum_singleton, one_mul] using this

theorem one_int3 (a b e : ℕ) : intTetrahedron (fun x y z => x ^ a * y ^ b * z ^ e) = ((a ! * b ! * e ! / (a + b + e + 3)! : ℚ) : ℝ) := by
  have := int3 {()} (fun _ => 1) (fun _ => a) (fun _ => b) (fun _ => e)
  simp only [sum_singleton, one_mul] at this
  unfold intTetrahedron
  rw [this]
  push_cast
  rfl

theorem one_sum3 (r : Rule (ℚ × ℚ × ℚ)) (a b e : ℕ) : sum3 r (fun x y z => x ^ a * y ^ b * z ^ e) = mom3 r a b e := by
  have := sum3_eq {()} (fun _ => 1) r (fun _ => a) (fun _ => b) (fun _ => e)
  simpa only [sum_singleton, one_mul] using this

open MvPolynomial in
/-- **C50 fails for mass integrals on triangles of order three.**  The product of the two functions `x³` and `y³` of the space is integrated with a relative error of
more than `6e-4`. -/
theorem C50_mass_triangle_wrong : ∃ r, triangle (functionalQ 3 [3]) = some r ∧ ∃ f g : MvPolynomial (Fin 2) ℝ,
    f.totalDegree ≤ 3 ∧ g.totalDegree ≤ 3 ∧ sum2 r (at2 (f * g)) - intTriangle (at2 (f * g)) < -(6 / 10 ^ 4) * intTriangle (at2 (f * g)) ∧
    0 < intTriangle (at2 (f * g)) := by
  refine ⟨_, rfl, X 0 ^ 3, X 1 ^ 3, (totalDegree_X_pow _ _).le, (totalDegree_X_pow _ _).le, ?_⟩
  have h : at2 (X 0 ^ 3 * X 1 ^ 3 : MvPolynomial (Fin 2) ℝ) = fun x y => x ^ 3 * y ^ 3 := by
    funext x y; simp [at2]
  rw [h, one_int2, one_sum2, ← Rat.cast_sub]
  constructor
  · rw [show -(6 / 10 ^ 4 : ℝ) = ((-(6 / 10 ^ 4) : ℚ) : ℝ) by norm_num, ← Rat.cast_mul, Rat.cast_lt]
    decide +kernel
  · rw [← Rat.cast_zero, Rat.cast_lt]; decide +kernel

open MvPolynomial in
/-- **C50 fails for mass integrals on tetrahedra of order two.**  `xy · xz` is integrated with a relative error of more than `6e-3`. -/
theorem C50_mass_tetrahedron2_wrong : ∃ r, tetrahedron (functionalQ 2 [2]) = some r ∧ ∃ f g : MvPolynomial (Fin 3) ℝ,
    f.totalDegree ≤ 2 ∧ g.totalDegree ≤ 2 ∧ sum3 r (at3 (f * g)) - intTetrahedron (at3 (f * g)) < -(6 / 10 ^ 3) * intTetrahedron (at3 (f * g)) ∧
    0 < intTetrahedron (at3 (f * g)) := by
  refine ⟨_, rfl, X 0 * X 1, X 0 * X 2, ?_, ?_, ?_⟩
  · exact (totalDegree_mul _ _).trans (by simp)
  · exact (totalDegree_mul _ _).trans (by simp)
  have h : at3 (X 0 * X 1 * (X 0 * X 2) : MvPolynomial (Fin 3) ℝ) = fun x y z => x ^ 2 * y ^ 1 * z ^ 1 := by
    funext x y z; simp [at3]; ring
  rw [h, one_int3, one_sum3, ← Rat.cast_sub]
  constructor
  · rw [show -(6 / 10 ^ 3 : ℝ) = ((-(6 / 10 ^ 3) : ℚ) : ℝ) by norm_num, ← Rat.cast_mul, Rat.cast_lt]
    decide +kernel
  · rw [← Rat.cast_zero, Rat.cast_lt]; decide +kernel

open MvPolynomial in
/-- **C50 fails for mass integrals on tetrahedra of order three.**  `x²y · x²z` is integrated with a relative error of more than `6e-3`. -/
theorem C50_mass_tetrahedron3_wrong : ∃ r, tetrahedron (functionalQ 3 [3]) = some r ∧ ∃ f g : MvPolynomial (Fin 3) ℝ,
    f.totalDegree ≤ 3 ∧ g.totalDegree ≤ 3 ∧ sum3 r (at3 (f * g)) - intTetrahedron (at3 (f * g)) < -(6 / 10 ^ 3) * intTetrahedron (at3 (f * g)) ∧
    0 < intTetrahedron (at3 (f * g)) := by
  refine ⟨_, rfl, X 0 ^ 2 * X 1, X 0 ^ 2 * X 2, ?_, ?_, ?_⟩
  · exact (totalDegree_mul _ _).trans (by simp)
  · exact (totalDegree_mul _ _).trans (by simp)
  have h : at3 (X 0 ^ 2 * X 1 * (X 0 ^ 2 * X 2) : MvPolynomial (Fin 3) ℝ) = fun x y z => x ^ 4 * y ^ 1 * z ^ 1 := by
    funext x y z; simp [at3]; ring
  rw [h, one_int3, one_sum3, ← Rat.cast_sub]
  constructor
  · rw [show -(6 / 10 ^ 3 : ℝ) = ((-(6 / 10 ^ 3) : ℚ) : ℝ) by norm_num, ← Rat.cast_mul, Rat.cast_lt]
    decide +kernel
  · rw [← Rat.cast_zero, Rat.cast_lt]; decide +kernel

/-- **C50, stability.**  Every rule has positive weights, points inside the reference element, and the number of points that the buffers are sized for. -/
theorem C50_points :
    (∀ n r, segment n = some r → r.length = numPoints .segment n ∧ ∀ p ∈ r, 0 < p.1 ∧ p.1 < 1 ∧ 0 < p.2) ∧
    (∀ n r, triangle n = some r → r.length = numPoints .triangle n ∧ ∀ p ∈ r, 0 < p.1.1 ∧ 0 < p.1.2 ∧ p.1.1 + p.1.2 < 1 ∧ 0 < p.2) ∧
    (∀ n r, tetrahedron n = some r → r.length = numPoints .tetrahedron n ∧
      ∀ p ∈ r, 0 < p.1.1 ∧ 0 < p.1.2.1 ∧ 0 < p.1.2.2 ∧ p.1.1 + p.1.2.1 + p.1.2.2 < 1 ∧ 0 < p.2) ∧
    (∀ n r, square n = some r → r.length = numPoints .square n) ∧ (∀ n r, cube n = some r → r.length = numPoints .cube n) := by
  have hs : ∀ n r, segment n = some r → r.length = numPoints .segment n ∧ ∀ p ∈ r, 0 < p.1 ∧ p.1 < 1 ∧ 0 < p.2 := by
    intro n r h
    match n, h with
    | 1, h | 2, h | 3, h | 4, h | 5, h | 6, h | 7, h | 8, h => cases h; exact ⟨rfl, by decide +kernel⟩
    | 0, h => cases h
    | n + 9, h => cases h
  refine ⟨hs, ?_, ?_, ?_, ?_⟩
  · intro n r h
    match n, h with
    | 1, h | 2, h | 3, h | 4, h | 5, h => cases h; exact ⟨rfl, by decide +kernel⟩
    | 0, h => cases h
    | n + 6, h => cases h
  · intro n r h
    match n, h with
    | 1, h | 2, h | 3, h | 4, h | 5, h | 6, h => cases h; exact ⟨rfl, by decide +kernel⟩
    | 0, h => cases h
    | n + 7, h => cases h
  · intro n r h
    cases hr : segment n with
    | none => simp [square, hr] at h
    | some s =>
      have hl := (hs n s hr).1
      simp only [square, hr, Option.map_some, Option.some.injEq] at h
      subst h
      simp only [List.length_flatMap, List.length_map, List.map_const', List.sum_replicate, hl, numPoints, smul_eq_mul]
  · intro n r h
    cases hr : segment n with
    | none => simp [cube, hr] at h
    | some s =>
      have hl := (hs n s hr).1
      simp only [cube, hr, Option.map_some, Option.some.injEq] at h
      subst h
      simp only [List.length_flatMap, List.length_map, List.map_const', List.sum_replicate, hl, numPoints, smul_eq_mul]
      ring

/-- The hypotheses are met: `x` and `1 - x` of order one, whose product is not zero. -/
example : (Polynomial.X : Polynomial ℝ).natDegree ≤ 1 ∧ (1 - Polynomial.X : Polynomial ℝ).natDegree ≤ 1 :=
  ⟨Polynomial.natDegree_X_le, (Polynomial.natDegree_sub_le _ _).trans (by simp)⟩

example : (MvPolynomial.X 0 * MvPolynomial.X 1 : MvPolynomial (Fin 2) ℝ).totalDegree ≤ triDegree 2 :=
  (MvPolynomial.totalDegree_mul _ _).trans (by simp [triDegree])

/-- A quadratic field in a linear test space on hexahedra: three points per direction. -/
example : ∃ r, cube (functionalQ 1 [1, 2]) = some r ∧ ∀ f g : MvPolynomial (Fin 3) ℝ, (∀ i, f.degreeOf i ≤ 1) → (∀ i, g.degreeOf i ≤ 2) →
    |sum3 r (at3 (f * g)) - intCube (at3 (f * g))| ≤ 4 * tol * size (f * g) :=
  (C50_mass_partial 1 [1, 2] le_rfl 2 (by decide) (by decide) 2 (by decide)).2.2.1 (by decide)

end Serac.C50
