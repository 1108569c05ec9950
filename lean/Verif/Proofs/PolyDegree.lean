import Mathlib.LinearAlgebra.FiniteDimensional.Basic
import Mathlib.LinearAlgebra.Dimension.Constructions
import Mathlib.Algebra.BigOperators.Fin
import Mathlib.Data.Real.Basic
import Mathlib.Algebra.Algebra.Pi
/-!
# Polynomial functions of bounded total degree, and unisolvence

If as many functions as there are monomials of degree at most `d` are themselves polynomials of degree at most `d`, and are one at their own
node and zero at the others, then interpolation at those nodes reproduces every polynomial of degree at most `d`.
-/

namespace Serac.Nodal

/-- The monomial with exponents `e`. -/
def monomial {D : ℕ} (e : Fin D → ℕ) (x : Fin D → ℝ) : ℝ := ∏ k, x k ^ e k

/-- Polynomial functions in `D` variables of total degree at most `d`. -/
def polyDeg (D d : ℕ) : Submodule ℝ ((Fin D → ℝ) → ℝ) :=
  Submodule.span ℝ {f | ∃ e : Fin D → ℕ, ∑ k, e k ≤ d ∧ f = monomial e}

variable {D d d' : ℕ}

theorem monomial_mem (e : Fin D → ℕ) (h : ∑ k, e k ≤ d) : monomial e ∈ polyDeg D d := Submodule.subset_span ⟨e, h, rfl⟩

theorem polyDeg_mono (h : d ≤ d') {f : (Fin D → ℝ) → ℝ} (hf : f ∈ polyDeg D d) : f ∈ polyDeg D d' := by
  refine Submodule.span_mono ?_ hf
  rintro _ ⟨e, he, rfl⟩
  exact ⟨e, by omega, rfl⟩

theorem const_mem (c : ℝ) : (fun _ : Fin D → ℝ => c) ∈ polyDeg D 0 := by
  have : (fun _ : Fin D → ℝ => c) = c • monomial (fun _ => 0) := by ext x; simp [monomial]
  rw [this]
  exact Submodule.smul_mem _ _ (monomial_mem _ (by simp))

theorem coord_mem (k : Fin D) : (fun x : Fin D → ℝ => x k) ∈ polyDeg D 1 := by
  have : (fun x : Fin D → ℝ => x k) = monomial (Pi.single k 1) := by
    ext x
    rw [monomial, Finset.prod_eq_single k]
    · simp
    · intro b _ hb; simp [Pi.single_eq_of_ne hb]
    · simp
  rw [this]
  exact monomial_mem _ (by rw [Finset.sum_pi_single']; simp)

theorem add_mem {f g : (Fin D → ℝ) → ℝ} (hf : f ∈ polyDeg D d) (hg : g ∈ polyDeg D d') : (fun x => f x + g x) ∈ polyDeg D (max d d') :=
  Submodule.add_mem _ (polyDeg_mono (le_max_left _ _) hf) (polyDeg_mono (le_max_right _ _) hg)

theorem sub_mem {f g : (Fin D → ℝ) → ℝ} (hf : f ∈ polyDeg D d) (hg : g ∈ polyDeg D d') : (fun x => f x - g x) ∈ polyDeg D (max d d') :=
  Submodule.sub_mem _ (polyDeg_mono (le_max_left _ _) hf) (polyDeg_mono (le_max_right _ _) hg)

theorem neg_mem {f : (Fin D → ℝ) → ℝ} (hf : f ∈ polyDeg D d) : (fun x => -f x) ∈ polyDeg D d := Submodule.neg_mem _ hf

theorem div_const_mem {f : (Fin D → ℝ) → ℝ} (c : ℝ) (hf : f ∈ polyDeg D d) : (fun x => f x / c) ∈ polyDeg D d := by
  have : (fun x => f x / c) = c⁻¹ • f := by ext x; simp [div_eq_inv_mul]
  rw [this]
  exact Submodule.smul_mem _ _ hf

theorem mul_mem {f g : (Fin D → ℝ) → ℝ} (hf : f ∈ polyDeg D d) (hg : g ∈ polyDeg D d') : (fun x => f x * g x) ∈ polyDeg D (d + d') := by
  have key : f * g ∈ polyDeg D (d + d') := by
    refine Submodule.span_induction ?_ ?_ ?_ ?_ hf
    · rintro _ ⟨e, he, rfl⟩
      refine Submodule.span_induction ?_ ?_ ?_ ?_ hg
      · rintro _ ⟨e', he', rfl⟩
        have : (monomial e * monomial e' : (Fin D → ℝ) → ℝ) = monomial (fun k => e k + e' k) := by
          ext x; simp [monomial, pow_add, Finset.prod_mul_distrib]
        rw [this]
        exact monomial_mem _ (by rw [Finset.sum_add_distrib]; omega)
      · rw [mul_zero]; exact Submodule.zero_mem _
      · intro a b _ _ ha hb; rw [mul_add]; exact Submodule.add_mem _ ha hb
      · intro c a _ ha; rw [mul_smul_comm]; exact Submodule.smul_mem _ _ ha
    · rw [zero_mul]; exact Submodule.zero_mem _
    · intro a b _ _ ha hb; rw [add_mul]; exact Submodule.add_mem _ ha hb
    · intro c a _ ha; rw [smul_mul_assoc]; exact Submodule.smul_mem _ _ ha
  exact key

/-- The exponents of total degree at most `d`, as a finite type. -/
abbrev Expo (D d : ℕ) : Type := {e : Fin D → Fin (d + 1) // ∑ k, (e k : ℕ) ≤ d}

theorem polyDeg_eq : polyDeg D d =
    Submodule.span ℝ (Set.range fun e : Expo D d => (monomial fun k => (e.1 k : ℕ) : (Fin D → ℝ) → ℝ)) := by
  unfold polyDeg
  congr 1
  ext f
  constructor
  · rintro ⟨e, he, rfl⟩
    have hk : ∀ k, e k < d + 1 := fun k => by
      have := Finset.single_le_sum (f := e) (fun i _ => Nat.zero_le _) (Finset.mem_univ k)
      omega
    exact ⟨⟨fun k => ⟨e k, hk k⟩, he⟩, rfl⟩
  · rintro ⟨e, rfl⟩
    exact ⟨fun k => (e.1 k : ℕ), e.2, rfl⟩

theorem finrank_le : Module.finrank ℝ (polyDeg D d) ≤ Fintype.card (Expo D d) := by
  rw [polyDeg_eq]
  exact finrank_range_le_card _

instance : FiniteDimensional ℝ (polyDeg D d) := by
  rw [polyDeg_eq]
  exact FiniteDimensional.span_of_finite ℝ (Set.finite_range _)

/-- Interpolation at unisolvent nodes reproduces polynomials. -/
theorem reproduces {n : ℕ} (N : Fin n → (Fin D → ℝ) → ℝ) (node : Fin n → Fin D → ℝ) (hN : ∀ i, N i ∈ polyDeg D d)
    (hδ : ∀ i j, N i (node j) = if i = j then 1 else 0) (hn : Fintype.card (Expo D d) = n)
    {q : (Fin D → ℝ) → ℝ} (hq : q ∈ polyDeg D d) (x : Fin D → ℝ) : ∑ i, q (node i) * N i x = q x := by
  let v : Fin n → polyDeg D d := fun i => ⟨N i, hN i⟩
  have eval : ∀ (c : Fin n → ℝ) (x : Fin D → ℝ), ((∑ i, c i • v i : polyDeg D d) : (Fin D → ℝ) → ℝ) x = ∑ i, c i * N i x := by
    intro c x
    rw [Submodule.coe_sum, Finset.sum_apply]
    rfl
  have li : LinearIndependent ℝ v := by
    rw [Fintype.linearIndependent_iff]
    intro c hc j
    have := eval c (node j)
    rw [hc] at this
    simp only [hδ, mul_ite, mul_one, mul_zero, Finset.sum_ite_eq', Finset.mem_univ, if_true] at this
    exact this.symm
  have hspan : ⊤ ≤ Submodule.span ℝ (Set.range v) := by
    have hle := finrank_le (D := D) (d := d)
    rw [hn] at hle
    have h2 := finrank_span_eq_card li
    rw [Fintype.card_fin] at h2
    have h3 : Module.finrank ℝ (Submodule.span ℝ (Set.range v)) ≤ Module.finrank ℝ (polyDeg D d) := Submodule.finrank_le _
    exact (Submodule.eq_top_of_finrank_eq (by omega)).ge
  have hmem : (⟨q, hq⟩ : polyDeg D d) ∈ Submodule.span ℝ (Set.range v) := hspan trivial
  rw [Submodule.mem_span_range_iff_exists_fun] at hmem
  obtain ⟨c, hc⟩ := hmem
  have hqx : ∀ y, q y = ∑ i, c i * N i y := fun y => by rw [← eval c y, hc]
  have hcj : ∀ j, q (node j) = c j := fun j => by
    rw [hqx]
    simp only [hδ, mul_ite, mul_one, mul_zero, Finset.sum_ite_eq', Finset.mem_univ, if_true]
  rw [hqx x]
  exact Finset.sum_congr rfl fun i _ => by rw [hcj]

end Serac.Nodal
