import Verif.Model.Polynomials
import Mathlib.RingTheory.Polynomial.Bernstein
import Mathlib.Analysis.SpecialFunctions.Trigonometric.Chebyshev.Basic
import Mathlib.MeasureTheory.Integral.IntervalIntegral.FundThmCalculus
import Mathlib.Analysis.Calculus.Deriv.Polynomial
import Mathlib.Topology.Algebra.Polynomial
import Mathlib.Tactic.LinearCombination
/-!
# C16: one-dimensional polynomial families

Specifications: powers, Mathlib's Chebyshev polynomials of both kinds (and their trigonometric definition, which is the one in the code's
comments), Mathlib's Bernstein polynomials, and, for Legendre, the characterisation by degree, orthogonality on (-1, 1) and value 1 at 1.
-/

noncomputable section
namespace Serac.C16
open Serac Serac.Poly Polynomial

variable {R : Type} [Field R]

/-- **C16, powers.** -/
theorem C16_powers (n : ℕ) (x : R) (i : ℕ) (hi : i < n) : powers n x i = x ^ i := by
  have := forRange_inv (fun k (v : ℕ → R) => ∀ i < k, v i = x ^ i) (lo := 1) (hi := n)
    (body := fun i (values : ℕ → R) => Function.update values i (values (i - 1) * x))
    (s := Function.update (fun _ => 0) 0 1) (by omega) (fun i hi => by
      have : i = 0 := by omega
      subst this; simp)
    (fun k v hk _ h i hi => by
      by_cases e : i = k
      · subst e
        rw [Function.update_self, h (i - 1) (by omega), ← pow_succ]
        congr 1; omega
      · rw [Function.update_of_ne e]; exact h i (by omega))
  exact this i hi

/-- A two-term recurrence started with the first two values. -/
private theorem recurrence (n : ℕ) (a b : R) (g : ℕ → R → R → R) (p : ℕ → R) (h0 : p 0 = a) (h1 : p 1 = b)
    (hp : ∀ i, 2 ≤ i → p i = g i (p (i - 1)) (p (i - 2))) (i : ℕ) (hi : i < n) :
    forRange 2 n (fun i (T : ℕ → R) => Function.update T i (g i (T (i - 1)) (T (i - 2))))
      (if 1 < n then Function.update (if 0 < n then Function.update (fun _ => 0) 0 a else fun _ => 0) 1 b
        else if 0 < n then Function.update (fun _ => 0) 0 a else fun _ => 0) i = p i := by
  rw [if_pos (by omega : 0 < n)]
  by_cases hn : 1 < n
  · rw [if_pos hn]
    have := forRange_inv (fun k (v : ℕ → R) => ∀ i < k, v i = p i) (lo := 2) (hi := n)
      (body := fun i (T : ℕ → R) => Function.update T i (g i (T (i - 1)) (T (i - 2))))
      (s := Function.update (Function.update (fun _ => 0) 0 a) 1 b) (by omega) (fun i hi => by
        have : i = 0 ∨ i = 1 := by omega
        rcases this with rfl | rfl <;> simp [h0, h1])
      (fun k v hk _ h i hi => by
        by_cases e : i = k
        · subst e
          rw [Function.update_self, h (i - 1) (by omega), h (i - 2) (by omega), ← hp i hk]
        · rw [Function.update_of_ne e]; exact h i (by omega))
    exact this i hi
  · rw [if_neg hn, forRange_ge _ _ (by omega)]
    have : i = 0 := by omega
    subst this; simp [h0]

/-- **C16, Chebyshev polynomials of the first kind.** -/
theorem C16_chebyshevT (n : ℕ) (x : R) (i : ℕ) (hi : i < n) : chebyshevT n x i = (Chebyshev.T R i).eval x := by
  refine recurrence n 1 x (fun _ a b => 2 * x * a - b) (fun i => (Chebyshev.T R i).eval x) (by simp) (by simp) (fun i h => ?_) i hi
  obtain ⟨k, rfl⟩ := Nat.exists_eq_add_of_le' h
  have e1 : ((k + 2 : ℕ) : ℤ) = (k : ℤ) + 2 := by push_cast; rfl
  have e2 : ((k + 2 - 1 : ℕ) : ℤ) = (k : ℤ) + 1 := by omega
  have e3 : ((k + 2 - 2 : ℕ) : ℤ) = (k : ℤ) := by omega
  simp only [e1, e2, e3, Chebyshev.T_add_two, eval_sub, eval_mul, eval_X, eval_ofNat]

/-- **C16, Chebyshev polynomials of the second kind.** -/
theorem C16_chebyshevU (n : ℕ) (x : R) (i : ℕ) (hi : i < n) : chebyshevU n x i = (Chebyshev.U R i).eval x := by
  refine recurrence n 1 (2 * x) (fun _ a b => 2 * x * a - b) (fun i => (Chebyshev.U R i).eval x) (by simp) (by simp) (fun i h => ?_) i hi
  obtain ⟨k, rfl⟩ := Nat.exists_eq_add_of_le' h
  have e1 : ((k + 2 : ℕ) : ℤ) = (k : ℤ) + 2 := by push_cast; rfl
  have e2 : ((k + 2 - 1 : ℕ) : ℤ) = (k : ℤ) + 1 := by omega
  have e3 : ((k + 2 - 2 : ℕ) : ℤ) = (k : ℤ) := by omega
  simp only [e1, e2, e3, Chebyshev.U_add_two, eval_sub, eval_mul, eval_X, eval_ofNat]

/-- **C16, the documented trigonometric identities.** -/
theorem C16_chebyshev_trig (n : ℕ) (t : ℝ) (i : ℕ) (hi : i < n) :
    chebyshevT n (Real.cos t) i = Real.cos (i * t) ∧ Real.sin t * chebyshevU n (Real.cos t) i = Real.sin ((i + 1) * t) := by
  rw [C16_chebyshevT n _ i hi, C16_chebyshevU n _ i hi]
  have h1 := Chebyshev.T_real_cos t i
  have h2 := Chebyshev.U_real_cos t i
  push_cast at h1 h2
  exact ⟨h1, by rw [mul_comm]; exact h2⟩

/-! ### Legendre -/

/-- The polynomials of the recurrence. -/
private def leg : ℕ → ℝ[X]
  | 0 => 1
  | 1 => X
  | n + 2 => C ((n + 2 : ℝ)⁻¹) * (C (2 * n + 3 : ℝ) * X * leg (n + 1) - C (n + 1 : ℝ) * leg n)

private theorem leg_rec (n : ℕ) : C (n + 2 : ℝ) * leg (n + 2) = C (2 * n + 3 : ℝ) * X * leg (n + 1) - C (n + 1 : ℝ) * leg n := by
  rw [leg, ← mul_assoc, ← C_mul, mul_inv_cancel₀ (by positivity), C_1, one_mul]

private theorem C_cancel {a : ℝ} (ha : a ≠ 0) {p q : ℝ[X]} (h : C a * p = C a * q) : p = q :=
  mul_left_cancel₀ (by simpa using ha) h

/-- The two contiguity relations. -/
private theorem leg_ab (n : ℕ) :
    derivative (leg (n + 1)) = X * derivative (leg n) + C (n + 1 : ℝ) * leg n ∧
      X * derivative (leg (n + 1)) = derivative (leg n) + C (n + 1 : ℝ) * leg (n + 1) := by
  induction n with
  | zero => simp [leg]
  | succ n ih =>
    obtain ⟨hA, hB⟩ := ih
    have hrec := leg_rec n
    have hd := congrArg derivative hrec
    simp only [derivative_mul, derivative_sub, derivative_C, zero_mul, zero_add, derivative_X, mul_one] at hd
    have k2 : (C (2 : ℝ) : ℝ[X]) = 2 := map_ofNat C 2
    have k3 : (C (3 : ℝ) : ℝ[X]) = 3 := map_ofNat C 3
    have c1 : C (2 * n + 3 : ℝ) = 2 * C (n : ℝ) + 3 := by rw [C_add, C_mul, k2, k3]
    have c2 : C (n + 2 : ℝ) = C (n : ℝ) + 2 := by rw [C_add, k2]
    have c3 : C (n + 1 : ℝ) = C (n : ℝ) + 1 := by simp [map_add]
    have c4 : C (((n + 1 : ℕ) : ℝ) + 1) = C (n : ℝ) + 2 := by push_cast; simp [map_add]; ring
    rw [c1, c2, c3] at hd hrec
    rw [c3] at hA hB
    have hne : (n + 2 : ℝ) ≠ 0 := by positivity
    have hA' : derivative (leg (n + 2)) = X * derivative (leg (n + 1)) + (C (n : ℝ) + 2) * leg (n + 1) := by
      apply C_cancel hne
      rw [c2]
      linear_combination hd + (C (n : ℝ) + 1) * hB
    refine ⟨by rw [c4]; exact hA', ?_⟩
    rw [c4]
    show X * derivative (leg (n + 2)) = derivative (leg (n + 1)) + (C (n : ℝ) + 2) * leg (n + 2)
    rw [hA', hrec]
    linear_combination X * hB - hA

/-- Legendre's differential equation. -/
private theorem leg_ode (n : ℕ) : derivative ((X ^ 2 - 1) * derivative (leg n)) = C ((n : ℝ) * (n + 1)) * leg n := by
  cases n with
  | zero => simp [leg]
  | succ n =>
    obtain ⟨hA, hB⟩ := leg_ab n
    have h1 : (X ^ 2 - 1) * derivative (leg (n + 1)) = C (n + 1 : ℝ) * (X * leg (n + 1) - leg n) := by
      linear_combination X * hB - hA
    rw [h1]
    simp only [derivative_mul, derivative_sub, derivative_C, zero_mul, zero_add, derivative_X, one_mul]
    have c : C (((n + 1 : ℕ) : ℝ) * (((n + 1 : ℕ) : ℝ) + 1)) = C (n + 1 : ℝ) * (1 + C (n + 1 : ℝ)) := by
      rw [← C_1, ← C_add, ← C_mul]; congr 1; push_cast; ring
    rw [c]
    linear_combination C (n + 1 : ℝ) * hB

private theorem leg_orth (i j : ℕ) (h : i ≠ j) : ∫ x in (-1 : ℝ)..1, (leg i).eval x * (leg j).eval x = 0 := by
  set F : ℝ[X] := (X ^ 2 - 1) * (derivative (leg i) * leg j - leg i * derivative (leg j)) with hF
  have hF' : derivative F = C ((i : ℝ) * (i + 1) - (j : ℝ) * (j + 1)) * (leg i * leg j) := by
    have e : F = ((X ^ 2 - 1) * derivative (leg i)) * leg j - leg i * ((X ^ 2 - 1) * derivative (leg j)) := by rw [hF]; ring
    rw [e, derivative_sub, derivative_mul, derivative_mul (f := leg i), leg_ode, leg_ode, C_sub]
    ring
  have hint : ∫ x in (-1 : ℝ)..1, (derivative F).eval x = F.eval 1 - F.eval (-1) :=
    intervalIntegral.integral_eq_sub_of_hasDerivAt (fun x _ => F.hasDerivAt x) (Continuous.intervalIntegrable (by fun_prop) _ _)
  have hz : F.eval 1 - F.eval (-1) = 0 := by simp [hF]
  rw [hz, hF'] at hint
  simp only [eval_mul, eval_C, intervalIntegral.integral_const_mul] at hint
  have hne : (i : ℝ) * (i + 1) - (j : ℝ) * (j + 1) ≠ 0 := by
    have e : (i : ℝ) * (i + 1) - (j : ℝ) * (j + 1) = ((i : ℝ) - j) * (i + j + 1) := by ring
    rw [e]
    refine mul_ne_zero (sub_ne_zero.mpr (by exact_mod_cast h)) (by positivity)
  exact (mul_eq_zero.mp hint).resolve_left hne

private theorem leg_one (n : ℕ) : (leg n).eval 1 = 1 ∧ (leg (n + 1)).eval 1 = 1 := by
  induction n with
  | zero => simp [leg]
  | succ n ih =>
    refine ⟨ih.2, ?_⟩
    rw [leg]
    simp only [eval_mul, eval_sub, eval_C, eval_X, ih.1, ih.2]
    field_simp; ring

private theorem leg_degree (n : ℕ) : (leg n).degree = n ∧ (leg (n + 1)).degree = (n + 1 : ℕ) := by
  induction n with
  | zero => simp [leg]
  | succ n ih =>
    refine ⟨ih.2, ?_⟩
    rw [leg, degree_C_mul (by positivity), degree_sub_eq_left_of_degree_lt]
    · rw [mul_assoc, degree_C_mul (by positivity), degree_mul, degree_X, ih.2]
      push_cast; ring
    · rw [mul_assoc, degree_C_mul (by positivity), degree_C_mul (by positivity), degree_mul, degree_X, ih.2, ih.1]
      norm_cast; omega

/-- **C16, Legendre.**  There is one family of polynomials, of degrees 0, 1, 2, ..., orthogonal on (-1, 1) with unit weight and equal to one
at 1 (which characterises the Legendre polynomials), whose values the routine returns, for every length and every point. -/
theorem C16_legendre : ∃ p : ℕ → ℝ[X], (∀ i, (p i).degree = i) ∧ (∀ i, (p i).eval 1 = 1) ∧
    (∀ i j, i ≠ j → ∫ x in (-1 : ℝ)..1, (p i).eval x * (p j).eval x = 0) ∧
    ∀ n x i, i < n → legendre n x i = (p i).eval x := by
  refine ⟨leg, fun i => (leg_degree i).1, fun i => (leg_one i).1, leg_orth, fun n x i hi => ?_⟩
  refine recurrence n 1 x (fun i a b => ((2 * i - 1 : ℤ) * x * a - (i - 1 : ℤ) * b) / (i : ℝ)) (fun i => (leg i).eval x)
    (by simp [leg]) (by simp [leg]) (fun i h => ?_) i hi
  obtain ⟨k, rfl⟩ := Nat.exists_eq_add_of_le' h
  simp only [leg, eval_mul, eval_sub, eval_C, eval_X, Nat.add_sub_cancel, show k + 2 - 1 = k + 1 from rfl]
  push_cast
  rw [inv_mul_eq_div]
  congr 1
  ring

/-! ### Bernstein -/

private theorem factorial_inv (n : ℕ) :
    forRange 2 (2 + n) (fun i s => s.bind fun v => if v * i < 2 ^ 31 then some (v * i) else none) (some 1) =
      if (n + 1).factorial < 2 ^ 31 then some (n + 1).factorial else none := by
  induction n with
  | zero => rw [forRange_ge _ _ (by omega)]; simp
  | succ n ih =>
    rw [forRange_succ, ih]
    have e : (n + 1 + 1).factorial = (n + 1).factorial * (2 + n) := by rw [Nat.factorial_succ, mul_comm]; congr 1; omega
    by_cases h : (n + 1).factorial < 2 ^ 31
    · rw [if_pos h, Option.bind_some, e]
    · rw [if_neg h, Option.bind_none, if_neg]
      rw [e]
      have : (n + 1).factorial * 1 ≤ (n + 1).factorial * (2 + n) := Nat.mul_le_mul_left _ (by omega)
      omega

private theorem factorial_eq (n : ℕ) : factorial n = if n.factorial < 2 ^ 31 then some n.factorial else none := by
  unfold factorial
  cases n with
  | zero => rw [forRange_ge _ _ (by omega)]; simp
  | succ n => have := factorial_inv n; rwa [show 2 + n = n + 1 + 1 by omega] at this

/-- **C16, factorial (partial).**  Right for arguments up to 12. -/
theorem C16_factorial_partial (n : ℕ) (h : n ≤ 12) : factorial n = some n.factorial := by
  rw [factorial_eq, if_pos]
  exact lt_of_le_of_lt (Nat.factorial_le h) (by decide)

/-- **C16, factorial overflows.**  From 13 on the 32-bit product overflows (undefined behaviour). -/
theorem C16_factorial_overflow (n : ℕ) (h : 13 ≤ n) : factorial n = none := by
  rw [factorial_eq, if_neg]
  exact not_lt.mpr (le_trans (by decide) (Nat.factorial_le h))

/-- **C16, Bernstein (partial: at most 13 polynomials, degree at most 12).**  The values are those of Mathlib's Bernstein polynomials. -/
theorem C16_bernstein_partial (n : ℕ) (hn : 0 < n) (h13 : n ≤ 13) [CharZero R] (s : R) :
    ∃ B, bernstein n s = some B ∧ ∀ i < n, B i = (bernsteinPolynomial R (n - 1) i).eval s := by
  unfold bernstein
  dsimp only
  rw [C16_factorial_partial (n - 1) (by omega)]
  refine ⟨_, rfl, ?_⟩
  -- first loop
  have h1 := forRange_inv (fun k (st : (ℕ → R) × R) => (∀ i < k, st.1 i = s ^ i / (i.factorial : R)) ∧ st.2 = s ^ k / (k.factorial : R))
    (lo := 0) (hi := n) (body := fun i (st : (ℕ → R) × R) => (Function.update st.1 i st.2, st.2 * (s / ((i + 1 : ℕ) : R))))
    (s := (fun _ => 0, 1)) (by omega) ⟨fun i hi => by omega, by simp⟩
    (fun k st _ _ h => by
      refine ⟨fun i hi => ?_, ?_⟩
      · dsimp only
        by_cases e : i = k
        · subst e; rw [Function.update_self, h.2]
        · rw [Function.update_of_ne e]; exact h.1 i (by omega)
      · dsimp only
        rw [h.2, Nat.factorial_succ, pow_succ]
        have : ((k + 1 : ℕ) : R) ≠ 0 := by exact_mod_cast Nat.succ_ne_zero k
        have : (k.factorial : R) ≠ 0 := by exact_mod_cast k.factorial_ne_zero
        push_cast at *
        field_simp)
  generalize forRange 0 n (fun i (st : (ℕ → R) × R) => (Function.update st.1 i st.2, st.2 * (s / ((i + 1 : ℕ) : R)))) (fun _ => 0, 1) = st at h1
  obtain ⟨h1, -⟩ := h1
  have h2 := forRange_inv (fun k (u : (ℕ → R) × R) =>
      (∀ i < n, u.1 i = if n - 1 - i < k then ((n - 1).factorial : R) * ((1 - s) ^ (n - 1 - i) / ((n - 1 - i).factorial : R)) * (s ^ i / (i.factorial : R))
        else s ^ i / (i.factorial : R)) ∧ u.2 = ((n - 1).factorial : R) * ((1 - s) ^ k / (k.factorial : R)))
    (lo := 0) (hi := n) (body := fun i (st : (ℕ → R) × R) =>
      (Function.update st.1 (n - i - 1) (st.1 (n - i - 1) * st.2), st.2 * ((1 - s) / ((i + 1 : ℕ) : R))))
    (s := (st.1, ((n - 1).factorial : R))) (by omega) ⟨fun i hi => by simp [h1 i hi], by simp⟩
    (fun k u _ hk h => by
      refine ⟨fun i hi => ?_, ?_⟩
      · dsimp only
        by_cases e : i = n - k - 1
        · subst e
          rw [Function.update_self, h.1 _ hi, h.2, if_neg (by omega), if_pos (by omega)]
          have : n - 1 - (n - k - 1) = k := by omega
          rw [this]; ring
        · rw [Function.update_of_ne e, h.1 i hi]
          have : (n - 1 - i < k + 1) ↔ (n - 1 - i < k) := by omega
          simp only [this]
      · dsimp only
        rw [h.2, Nat.factorial_succ, pow_succ]
        have : ((k + 1 : ℕ) : R) ≠ 0 := by exact_mod_cast Nat.succ_ne_zero k
        have : (k.factorial : R) ≠ 0 := by exact_mod_cast k.factorial_ne_zero
        push_cast at *
        field_simp)
  intro i hi
  have := h2.1 i hi
  dsimp only at this ⊢
  rw [this, if_pos (by omega), bernsteinPolynomial]
  simp only [eval_mul, eval_pow, eval_sub, eval_one, eval_X, eval_natCast]
  have hc := Nat.choose_mul_factorial_mul_factorial (show i ≤ n - 1 by omega)
  have hc' : ((n - 1).choose i : R) * (i.factorial : R) * ((n - 1 - i).factorial : R) = ((n - 1).factorial : R) := by exact_mod_cast hc
  rw [← hc']
  have a1 : (i.factorial : R) ≠ 0 := by exact_mod_cast i.factorial_ne_zero
  have a2 : ((n - 1 - i).factorial : R) ≠ 0 := by exact_mod_cast (n - 1 - i).factorial_ne_zero
  field_simp

/-- **C16, Bernstein values sum to one.** -/
theorem C16_bernstein_sum_partial (n : ℕ) (hn : 0 < n) (h13 : n ≤ 13) [CharZero R] (s : R) :
    ∃ B, bernstein n s = some B ∧ ∑ i ∈ Finset.range n, B i = 1 := by
  obtain ⟨B, h1, h2⟩ := C16_bernstein_partial n hn h13 s
  refine ⟨B, h1, ?_⟩
  rw [Finset.sum_congr rfl fun i hi => h2 i (Finset.mem_range.mp hi), ← eval_finsetSum]
  have := bernsteinPolynomial.sum R (n - 1)
  rw [Nat.sub_add_cancel hn] at this
  rw [this, eval_one]

/-- **C16, Bernstein fails beyond degree 12.** -/
theorem C16_bernstein_overflow (n : ℕ) (h : 14 ≤ n) (s : R) : bernstein n s = none := by
  unfold bernstein
  dsimp only
  rw [C16_factorial_overflow (n - 1) (by omega)]
  rfl

/-! ### Examples -/
example : chebyshevT 4 (2 : ℚ) 3 = 26 := by
  norm_num [chebyshevT, forRange, List.range', Function.update]
example : legendre 3 (2 : ℚ) 2 = 11 / 2 := by
  norm_num [legendre, forRange, List.range', Function.update]
example : ∃ B, bernstein 3 (1 / 3 : ℚ) = some B ∧ B 1 = 4 / 9 := by
  obtain ⟨B, h1, h2⟩ := C16_bernstein_partial 3 (by omega) (by omega) (1 / 3 : ℚ)
  refine ⟨B, h1, ?_⟩
  rw [h2 1 (by omega), bernsteinPolynomial]
  norm_num

end Serac.C16
