import Verif.Model.Conductors
import Verif.Proofs.Tensor
import Mathlib.Tactic.Linarith
import Mathlib.Tactic.Positivity
import Mathlib.Tactic.FieldSimp
import Mathlib.Tactic.NormNum
/-!
# C49: heat flows down the temperature gradient

Every conductor whose constructor does not stop has non-negative heat capacity and a flux with `q · ∇T ≤ 0`; a positive definite symmetric conductivity is
never refused.
-/

namespace Serac.C49
open Serac.Tensor Serac.Conductors

/-- The second law for a heat flux: never up the gradient. -/
def Dissipates {d : ℕ} (m : Material d) : Prop := ∀ (T : ℝ) (g q : Fin d → ℝ), m.flux T g = some q → ∑ i, q i * g i ≤ 0

/-- Symmetric and positive definite. -/
def Definite {d : ℕ} (A : Matrix (Fin d) (Fin d) ℝ) : Prop :=
  (∀ i j, A i j = A j i) ∧ ∀ g : Fin d → ℝ, g ≠ 0 → 0 < ∑ i, ∑ j, g i * A i j * g j

theorem C49_isotropic (d : ℕ) (density cp k : ℝ) :
    ((∃ m, isotropic d density cp k = some m) ↔ (0 ≤ density ∧ 0 ≤ cp ∧ 0 ≤ k)) ∧
      ∀ m, isotropic d density cp k = some m → m.capacity = density * cp ∧ 0 ≤ m.capacity ∧ Dissipates m ∧
        ∀ T g, m.flux T g = some fun i => -(k * g i) := by
  unfold isotropic
  constructor
  · split_ifs with h1 h2 h3
    · simp only [exists_false, false_iff, reduceCtorEq]; rintro ⟨_, _, h⟩; linarith
    · simp only [exists_false, false_iff, reduceCtorEq]; rintro ⟨h, _, _⟩; linarith
    · simp only [exists_false, false_iff, reduceCtorEq]; rintro ⟨_, h, _⟩; linarith
    · exact ⟨fun _ => ⟨not_lt.1 h2, not_lt.1 h3, not_lt.1 h1⟩, fun _ => ⟨_, rfl⟩⟩
  · intro m hm
    split_ifs at hm with h1 h2 h3
    cases hm
    refine ⟨rfl, mul_nonneg (not_lt.1 h2) (not_lt.1 h3), ?_, fun T g => by simp⟩
    intro T g q hq
    cases hq
    apply Finset.sum_nonpos
    intro i _
    have := mul_nonneg (not_lt.1 h1) (mul_self_nonneg (g i))
    nlinarith

theorem C49_temperature (d : ℕ) (density cp k0 slope : ℝ) (m : Material d) (hm : temperatureDependent d density cp k0 slope = some m) :
    0 ≤ m.capacity ∧ Dissipates m ∧
      ∀ T g, (0 ≤ k0 + slope * T → m.flux T g = some fun i => -((k0 + slope * T) * g i)) ∧ (k0 + slope * T < 0 → m.flux T g = none) := by
  unfold temperatureDependent at hm
  split_ifs at hm with h2 h3
  cases hm
  refine ⟨mul_nonneg (not_lt.1 h2) (not_lt.1 h3), ?_, fun T g => ⟨fun h => ?_, fun h => ?_⟩⟩
  · intro T g q hq
    dsimp only at hq
    split_ifs at hq with h1
    cases hq
    apply Finset.sum_nonpos
    intro i _
    have := mul_nonneg (not_lt.1 h1) (mul_self_nonneg (g i))
    nlinarith
  · dsimp only
    rw [if_neg (not_lt.2 h)]
    congr 1; funext i; ring
  · dsimp only
    rw [if_pos h]

/-! ## Anisotropic conductors -/

private theorem flux_apply {d : ℕ} (A : Mat ℝ d d) (g : Vec ℝ d) (i : Fin d) : dotMV (fun i j => -1 * A i j) g i = -∑ j, A i j * g j := by
  unfold dotMV
  rw [accum_eq, zero_add, ← Finset.sum_neg_distrib]
  exact Finset.sum_congr rfl fun j _ => by ring

private theorem flux_dot {d : ℕ} (A : Mat ℝ d d) (g : Vec ℝ d) :
    ∑ i, dotMV (fun i j => -1 * A i j) g i * g i = -∑ i, ∑ j, g i * A i j * g j := by
  rw [← Finset.sum_neg_distrib]
  refine Finset.sum_congr rfl fun i _ => ?_
  rw [flux_apply, neg_mul, Finset.sum_mul, ← Finset.sum_neg_distrib, ← Finset.sum_neg_distrib]
  refine Finset.sum_congr rfl fun j _ => ?_
  ring

private theorem sym_of {d : ℕ} (A : Mat ℝ d d) (h : ∀ i j, A i j = A j i) : isSymmetric A tol := by
  rintro ⟨i, j, _, hij⟩
  rw [h i j, sub_self, abs_zero] at hij
  unfold tol at hij
  norm_num at hij

/-- A positive definite symmetric conductivity is accepted, in two dimensions … -/
theorem C49_definite2 (density cp : ℝ) (A : Mat ℝ 2 2) (hd : 0 ≤ density) (hc : 0 ≤ cp) (hA : Definite A) :
    ∃ m, anisotropic isSPD2 density cp A = some m ∧ m.capacity = density * cp ∧ ∀ T g, m.flux T g = some fun i => -∑ j, A i j * g j := by
  have h00 : 0 < A 0 0 := by
    have := hA.2 ![1, 0] (fun h => by simpa using congrFun h 0)
    simpa [Fin.sum_univ_two] using this
  have hdet : 0 < det2 A := by
    have := hA.2 ![-A 0 1, A 0 0] (fun h => by have := congrFun h 1; simp at this; linarith)
    simp [Fin.sum_univ_two] at this
    have hs := hA.1 1 0
    rw [hs] at this
    have h2 : 0 < A 0 0 * (A 0 0 * A 1 1 - A 0 1 * A 1 0) := by rw [hs]; nlinarith
    exact (mul_pos_iff_of_pos_left h00).1 h2
  refine ⟨_, by
    unfold anisotropic
    rw [if_neg (not_lt.2 hd), if_neg (not_lt.2 hc), if_neg (not_not.2 ⟨sym_of A hA.1, not_lt.2 h00.le, not_lt.2 hdet.le⟩)], rfl, fun T g => ?_⟩
  dsimp only
  congr 1; funext i
  exact flux_apply A g i

/-- … and in three. -/
theorem C49_definite3 (density cp : ℝ) (A : Mat ℝ 3 3) (hd : 0 ≤ density) (hc : 0 ≤ cp) (hA : Definite A) :
    ∃ m, anisotropic isSPD3 density cp A = some m ∧ m.capacity = density * cp ∧ ∀ T g, m.flux T g = some fun i => -∑ j, A i j * g j := by
  have s10 := hA.1 1 0
  have s20 := hA.1 2 0
  have s21 := hA.1 2 1
  have h00 : 0 < A 0 0 := by
    have := hA.2 ![1, 0, 0] (fun h => by simpa using congrFun h 0)
    simpa [Fin.sum_univ_three] using this
  have hD : 0 < A 0 0 * A 1 1 - A 0 1 * A 1 0 := by
    have := hA.2 ![-A 0 1, A 0 0, 0] (fun h => by have := congrFun h 1; simp at this; linarith)
    simp [Fin.sum_univ_three] at this
    rw [s10] at this
    have h2 : 0 < A 0 0 * (A 0 0 * A 1 1 - A 0 1 * A 1 0) := by rw [s10]; nlinarith
    exact (mul_pos_iff_of_pos_left h00).1 h2
  have hdet : 0 < det3 A := by
    rw [s10] at hD
    -- the cofactor vector of the last row: A w = det e₂
    have hw : (![A 0 1 * A 1 2 - A 0 2 * A 1 1, A 0 1 * A 0 2 - A 0 0 * A 1 2, A 0 0 * A 1 1 - A 0 1 * A 0 1] : Fin 3 → ℝ) ≠ 0 := by
      intro h
      have := congrFun h 2
      simp at this
      linarith
    have := hA.2 _ hw
    simp only [Fin.sum_univ_three, Matrix.cons_val_zero, Matrix.cons_val_one, Matrix.cons_val, s10, s20, s21] at this
    have h2 : 0 < (A 0 0 * A 1 1 - A 0 1 * A 0 1) * det3 A := by
      unfold det3
      rw [s10, s20, s21]
      refine lt_of_lt_of_eq this ?_
      ring
    exact (mul_pos_iff_of_pos_left hD).1 h2
  have hs2 : isSPD2 (fun i j : Fin 2 => A (i.castLE (by decide)) (j.castLE (by decide))) :=
    ⟨sym_of _ fun i j => hA.1 _ _, not_lt.2 h00.le, not_lt.2 hD.le⟩
  refine ⟨_, by
    unfold anisotropic
    rw [if_neg (not_lt.2 hd), if_neg (not_lt.2 hc), if_neg (not_not.2 ⟨sym_of A hA.1, not_lt.2 hdet.le, hs2⟩)], rfl, fun T g => ?_⟩
  dsimp only
  congr 1; funext i
  exact flux_apply A g i

/-- Missing: the test is `< 0` where Sylvester's criterion needs `≤ 0`, and symmetry is tested to an absolute tolerance.  Where the conductivity is exactly
symmetric and no leading minor is zero, an accepted conductivity is positive definite and heat flows down the gradient. -/
theorem C49_accepted2_partial (density cp : ℝ) (A : Mat ℝ 2 2) (m : Material 2) (hm : anisotropic isSPD2 density cp A = some m)
    (hs : ∀ i j, A i j = A j i) (h0 : A 0 0 ≠ 0) (h1 : A.det ≠ 0) : Definite A ∧ Dissipates m ∧ 0 ≤ m.capacity := by
  unfold anisotropic at hm
  split_ifs at hm with h2 h3 h4
  cases hm
  obtain ⟨_, ha, hD⟩ := h4
  rw [det2_eq] at hD
  have ha' : 0 < A 0 0 := lt_of_le_of_ne (not_lt.1 ha) (Ne.symm h0)
  have hD' : 0 < A.det := lt_of_le_of_ne (not_lt.1 hD) (Ne.symm h1)
  rw [Matrix.det_fin_two, hs 1 0] at hD'
  have key : ∀ g : Fin 2 → ℝ, A 0 0 * ∑ i, ∑ j, g i * A i j * g j =
      (A 0 0 * g 0 + A 0 1 * g 1) ^ 2 + (A 0 0 * A 1 1 - A 0 1 * A 0 1) * g 1 ^ 2 := by
    intro g
    simp only [Fin.sum_univ_two, hs 1 0]
    ring
  have hpos : ∀ g : Fin 2 → ℝ, g ≠ 0 → 0 < ∑ i, ∑ j, g i * A i j * g j := by
    intro g hg
    refine (mul_pos_iff_of_pos_left ha').1 ?_
    rw [key]
    by_cases hz : g 1 = 0
    · have : g 0 ≠ 0 := fun h => hg (by funext i; fin_cases i <;> simp [h, hz])
      rw [hz]
      have h5 := mul_ne_zero h0 this
      have := pow_pos (abs_pos.2 h5) 2
      rw [sq_abs] at this
      simpa using this
    · have h6 : 0 < g 1 ^ 2 := by positivity
      have := mul_pos hD' h6
      positivity
  refine ⟨⟨hs, hpos⟩, ?_, mul_nonneg (not_lt.1 h2) (not_lt.1 h3)⟩
  intro T g q hq
  cases hq
  rw [flux_dot]
  by_cases hg : g = 0
  · simp [hg]
  · linarith [hpos g hg]

theorem C49_accepted3_partial (density cp : ℝ) (A : Mat ℝ 3 3) (m : Material 3) (hm : anisotropic isSPD3 density cp A = some m)
    (hs : ∀ i j, A i j = A j i) (h0 : A 0 0 ≠ 0) (h1 : A 0 0 * A 1 1 - A 0 1 * A 1 0 ≠ 0) (h2 : A.det ≠ 0) :
    Definite A ∧ Dissipates m ∧ 0 ≤ m.capacity := by
  unfold anisotropic at hm
  split_ifs at hm with h3 h4 h5
  cases hm
  obtain ⟨_, hdet, _, ha, hD⟩ := h5
  rw [det3_eq] at hdet
  have ha' : 0 < A 0 0 := lt_of_le_of_ne (not_lt.1 ha) (Ne.symm h0)
  have hD' : 0 < A 0 0 * A 1 1 - A 0 1 * A 1 0 := lt_of_le_of_ne (not_lt.1 hD) (Ne.symm h1)
  have hdet' : 0 < A.det := lt_of_le_of_ne (not_lt.1 hdet) (Ne.symm h2)
  have s10 := hs 1 0
  have s20 := hs 2 0
  have s21 := hs 2 1
  rw [s10] at hD'
  rw [Matrix.det_fin_three, s10, s20, s21] at hdet'
  generalize hdd : A 0 0 * A 1 1 * A 2 2 - A 0 0 * A 1 2 * A 1 2 - A 0 1 * A 0 1 * A 2 2 + A 0 1 * A 1 2 * A 0 2 + A 0 2 * A 0 1 * A 1 2 -
    A 0 2 * A 1 1 * A 0 2 = D at hdet'
  have key : ∀ g : Fin 3 → ℝ, A 0 0 * (A 0 0 * A 1 1 - A 0 1 * A 0 1) * ∑ i, ∑ j, g i * A i j * g j =
      (A 0 0 * A 1 1 - A 0 1 * A 0 1) * (A 0 0 * g 0 + A 0 1 * g 1 + A 0 2 * g 2) ^ 2 +
        ((A 0 0 * A 1 1 - A 0 1 * A 0 1) * g 1 + (A 0 0 * A 1 2 - A 0 1 * A 0 2) * g 2) ^ 2 + A 0 0 * D * g 2 ^ 2 := by
    intro g
    simp only [Fin.sum_univ_three, s10, s20, s21, ← hdd]
    ring
  have hpos : ∀ g : Fin 3 → ℝ, g ≠ 0 → 0 < ∑ i, ∑ j, g i * A i j * g j := by
    intro g hg
    refine (mul_pos_iff_of_pos_left (mul_pos ha' hD')).1 ?_
    rw [key]
    by_cases hz : g 2 = 0
    · by_cases hy : g 1 = 0
      · have : g 0 ≠ 0 := fun h => hg (by funext i; fin_cases i <;> simp [h, hz, hy])
        rw [hz, hy]
        have h7 : 0 < (A 0 0 * g 0) ^ 2 := by have := mul_ne_zero h0 this; positivity
        simpa using mul_pos hD' h7
      · rw [hz]
        have h7 : 0 < ((A 0 0 * A 1 1 - A 0 1 * A 0 1) * g 1) ^ 2 := by have := mul_ne_zero hD'.ne' hy; positivity
        have h8 : 0 ≤ (A 0 0 * A 1 1 - A 0 1 * A 0 1) * (A 0 0 * g 0 + A 0 1 * g 1) ^ 2 := mul_nonneg hD'.le (sq_nonneg _)
        simp only [mul_zero, add_zero, ne_eq, OfNat.ofNat_ne_zero, not_false_eq_true, zero_pow]
        linarith
    · have h7 : 0 < A 0 0 * D * g 2 ^ 2 := by positivity
      have h8 : 0 ≤ (A 0 0 * A 1 1 - A 0 1 * A 0 1) * (A 0 0 * g 0 + A 0 1 * g 1 + A 0 2 * g 2) ^ 2 := mul_nonneg hD'.le (sq_nonneg _)
      have h9 := sq_nonneg ((A 0 0 * A 1 1 - A 0 1 * A 0 1) * g 1 + (A 0 0 * A 1 2 - A 0 1 * A 0 2) * g 2)
      linarith
  refine ⟨⟨hs, hpos⟩, ?_, mul_nonneg (not_lt.1 h3) (not_lt.1 h4)⟩
  intro T g q hq
  cases hq
  rw [flux_dot]
  by_cases hg : g = 0
  · simp [hg]
  · linarith [hpos g hg]

/-! ## Where it fails -/

/-- Every symmetric 2x2 conductivity with `A₀₀ = A₀₁ = 0` is accepted, whatever `A₁₁` is; with `A₁₁ < 0` heat flows up the gradient. -/
theorem C49_indefinite2_wrong (density cp k : ℝ) (hd : 0 ≤ density) (hc : 0 ≤ cp) (hk : k < 0) :
    ∃ m : Material 2, anisotropic isSPD2 density cp ![![0, 0], ![0, k]] = some m ∧ ¬ Dissipates m := by
  have hacc : isSPD2 ![![0, 0], ![0, k]] := ⟨sym_of _ (by intro i j; fin_cases i <;> fin_cases j <;> rfl), by simp, by simp [det2]⟩
  refine ⟨_, by unfold anisotropic; rw [if_neg (not_lt.2 hd), if_neg (not_lt.2 hc), if_neg (not_not.2 hacc)], ?_⟩
  · intro h
    have := h 0 ![0, 1] _ rfl
    rw [flux_dot (![![0, 0], ![0, k]] : Mat ℝ 2 2)] at this
    simp [Fin.sum_univ_two] at this
    linarith

/-- In three dimensions the whole lower right block is unchecked when the first row and column vanish: a negative definite block is accepted. -/
theorem C49_indefinite3_wrong (density cp b c d : ℝ) (hd : 0 ≤ density) (hc : 0 ≤ cp) (hb : b < 0) :
    ∃ m : Material 3, anisotropic isSPD3 density cp ![![0, 0, 0], ![0, b, c], ![0, c, d]] = some m ∧ ¬ Dissipates m := by
  have hacc : isSPD3 ![![0, 0, 0], ![0, b, c], ![0, c, d]] := by
    refine ⟨sym_of _ (by intro i j; fin_cases i <;> fin_cases j <;> rfl), by simp [det3],
      sym_of _ (by intro i j; fin_cases i <;> fin_cases j <;> rfl), by simp, by simp [det2]⟩
  refine ⟨_, by unfold anisotropic; rw [if_neg (not_lt.2 hd), if_neg (not_lt.2 hc), if_neg (not_not.2 hacc)], ?_⟩
  · intro h
    have := h 0 ![0, 1, 0] _ rfl
    rw [flux_dot (![![0, 0, 0], ![0, b, c], ![0, c, d]] : Mat ℝ 3 3)] at this
    simp [Fin.sum_univ_three] at this
    linarith

/-- The absolute tolerance: a conductivity of order `1e-9` may be as unsymmetric as it likes.  Both leading minors are positive and still heat flows up the
gradient. -/
theorem C49_tolerance_wrong (density cp s : ℝ) (hd : 0 ≤ density) (hc : 0 ≤ cp) (hs : 0 < s) (hs' : s ≤ 1 / 10 ^ 9) :
    ∃ m : Material 2, anisotropic isSPD2 density cp ![![s, 8 * s], ![0, s]] = some m ∧ ¬ Dissipates m := by
  have hacc : isSPD2 ![![s, 8 * s], ![0, s]] := by
    refine ⟨?_, by simpa using hs.le, by simp [det2]; nlinarith⟩
    rintro ⟨i, j, hij, h⟩
    fin_cases i <;> fin_cases j <;> simp at hij
    simp [tol] at h
    rw [abs_of_pos hs] at h
    norm_num at h hs'
    linarith
  refine ⟨_, by unfold anisotropic; rw [if_neg (not_lt.2 hd), if_neg (not_lt.2 hc), if_neg (not_not.2 hacc)], ?_⟩
  · intro h
    have := h 0 ![1, -1] _ rfl
    rw [flux_dot (![![s, 8 * s], ![0, s]] : Mat ℝ 2 2)] at this
    simp [Fin.sum_univ_two] at this
    linarith

/-! ## Examples -/

/-- A definite conductivity with off-diagonal entries. -/
example : Definite (![![2, 1], ![1, 3]] : Matrix (Fin 2) (Fin 2) ℝ) := by
  refine ⟨fun i j => by fin_cases i <;> fin_cases j <;> rfl, fun g hg => ?_⟩
  simp [Fin.sum_univ_two]
  have : 0 < g 0 ^ 2 + g 1 ^ 2 := by
    by_cases h : g 0 = 0
    · have : g 1 ≠ 0 := fun h' => hg (by funext i; fin_cases i <;> simp [h, h'])
      positivity
    · positivity
  nlinarith [sq_nonneg (g 0 + g 1)]

private def exA : Mat ℝ 2 2 := ![![2, 1], ![1, 3]]

/-- The hypotheses of the partial theorem hold for it. -/
example : (∃ m, anisotropic isSPD2 1 1 exA = some m) ∧ (∀ i j, exA i j = exA j i) ∧ exA 0 0 ≠ 0 ∧ exA.det ≠ 0 := by
  have hs : ∀ i j, exA i j = exA j i := by intro i j; fin_cases i <;> fin_cases j <;> rfl
  have hacc : isSPD2 exA := ⟨sym_of _ hs, by simp [exA], by norm_num [det2, exA]⟩
  refine ⟨⟨_, by unfold anisotropic; rw [if_neg (by norm_num), if_neg (by norm_num), if_neg (not_not.2 hacc)]⟩, hs, by simp [exA], ?_⟩
  rw [← det2_eq]
  norm_num [det2, exA]

end Serac.C49
